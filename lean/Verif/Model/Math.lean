import Verif.Model.Ieee
/-!
# Model of src/math.rs: `f64::abs` and `f64::log2` of `no_std` builds

Without the `std` feature there is no `f64::log2`; src/math.rs brings its own (the one of musl and Rust's `libm`).  The
sign of a zero is not represented in `Fp`; `to_bits` takes a zero to be positive.
-/

namespace Zopfli
namespace Fp

/-- `f64::to_bits` (of a number that is a binary64 value): sign, exponent and fraction side by side -/
def toBits : Fp → Nat
  | .fin q =>
    if q = 0 then 0 else
    let e := ulpExp 53 (-1074) q
    (if q < 0 then 2 ^ 63 else 0) + ((e + 1074).toNat * 2 ^ 52 + ⌊|q| / 2 ^ e⌋.toNat)
  | .inf neg => (if neg then 2 ^ 63 else 0) + 0x7ff0000000000000
  | .nan => 0x7ff8000000000000

/-- `f64::from_bits` -/
def fromBits (b : Nat) : Fp :=
  let exponent : Nat := b % 2 ^ 63 / 2 ^ 52
  let fraction : Nat := b % 2 ^ 52
  if exponent = 2047 then (if fraction = 0 then .inf (decide (2 ^ 63 ≤ b)) else .nan)
  else
    let v : ℚ := if exponent = 0 then (fraction : ℚ) * 2 ^ (-1074 : ℤ) else (2 ^ 52 + (fraction : ℚ)) * 2 ^ ((exponent : ℤ) - 1075)
    .fin (if 2 ^ 63 ≤ b then -v else v)

/-- binary64 `+` -/
def add64 : Fp → Fp → Fp := addWith round64

/-- binary64 `-` -/
def sub64 (a b : Fp) : Fp := addWith round64 a b.neg

/-- binary64 `*` -/
def mul64 : Fp → Fp → Fp := mulWith round64

/-- binary64 `/` (a zero denominator is taken to be positive) -/
def div64 : Fp → Fp → Fp
  | .fin a, .fin b => if b = 0 then (if a = 0 then .nan else .inf (decide (a < 0))) else round64 (a / b)
  | .nan, _ => .nan
  | _, .nan => .nan
  | .inf _, .inf _ => .nan
  | .inf s, .fin b => .inf (s != decide (b < 0))
  | .fin _, .inf _ => .fin 0

/-- src/math.rs:18-20 `abs` -/
def absNoStd (x : Fp) : Fp := fromBits (x.toBits % 2 ^ 63)

/-- src/math.rs:27 -/
def IVLN2HI : Fp := round64 (144269504072144627571 / 10 ^ 20)
/-- src/math.rs:28 -/
def IVLN2LO : Fp := round64 (167517131648865118353 / 10 ^ 30)
/-- src/math.rs:29 -/
def LG1 : Fp := round64 (6666666666666735130 / 10 ^ 19)
/-- src/math.rs:30 -/
def LG2 : Fp := round64 (3999999999940941908 / 10 ^ 19)
/-- src/math.rs:31 -/
def LG3 : Fp := round64 (2857142874366239149 / 10 ^ 19)
/-- src/math.rs:32 -/
def LG4 : Fp := round64 (2222219843214978396 / 10 ^ 19)
/-- src/math.rs:33 -/
def LG5 : Fp := round64 (1818357216161805012 / 10 ^ 19)
/-- src/math.rs:34 -/
def LG6 : Fp := round64 (1531383769920937332 / 10 ^ 19)
/-- src/math.rs:35 -/
def LG7 : Fp := round64 (1479819860511658591 / 10 ^ 19)

/-- src/math.rs:83-108, the rest of `log2` once the number is `x * 2^k` with `x` near 1 -/
def log2Reduced (x : Fp) (k : Int) : Fp :=
  let f := sub64 x (.fin 1)
  let hfsq := mul64 (mul64 (.fin (1 / 2)) f) f
  let s := div64 f (add64 (.fin 2) f)
  let z := mul64 s s
  let w := mul64 z z
  let t1 := mul64 w (add64 LG2 (mul64 w (add64 LG4 (mul64 w LG6))))
  let t2 := mul64 z (add64 LG1 (mul64 w (add64 LG3 (mul64 w (add64 LG5 (mul64 w LG7))))))
  let r := add64 t2 t1
  let hi := sub64 f hfsq
  let ui := hi.toBits
  let ui := ui - ui % 2 ^ 32
  let hi := fromBits ui
  let lo := add64 (sub64 (sub64 f hi) hfsq) (mul64 s (add64 hfsq r))
  let valHi := mul64 hi IVLN2HI
  let valLo := add64 (mul64 (add64 lo hi) IVLN2LO) (mul64 lo IVLN2HI)
  let y := Fp.fin k
  let w := add64 y valHi
  let valLo := add64 valLo (add64 (sub64 y w) valHi)
  let valHi := w
  add64 valLo valHi

/-- src/math.rs:76-81: split a number, given by its bits, into `x * 2^k` with `x` between `sqrt(2)/2` and `sqrt(2)` -/
def log2Split (ui : Nat) (k : Int) : Fp :=
  let hx := ui / 2 ^ 32
  let hx := hx + (0x3ff00000 - 0x3fe6a09e)
  let k := k + ((hx / 2 ^ 20 : Nat) - 0x3ff)
  let hx := hx % 2 ^ 20 + 0x3fe6a09e
  log2Reduced (fromBits (hx * 2 ^ 32 + ui % 2 ^ 32)) k

/-- src/math.rs:26-109 `log2` -/
def log2NoStd (x : Fp) : Fp :=
  let ui := x.toBits
  let hx := ui / 2 ^ 32
  if hx < 0x00100000 ∨ hx / 2 ^ 31 > 0 then
    if ui * 2 % 2 ^ 64 = 0 then div64 (.fin (-1)) (mul64 x x)
    else if hx / 2 ^ 31 > 0 then div64 (sub64 x x) (.fin 0)
    else log2Split (mul64 x (fromBits 0x4350000000000000)).toBits (-54)
  else if hx ≥ 0x7ff00000 then x
  else if hx = 0x3ff00000 ∧ ui * 2 ^ 32 % 2 ^ 64 = 0 then .fin 0
  else log2Split ui 0

end Fp
end Zopfli
