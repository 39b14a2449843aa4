import Verif.Model.Float
import Mathlib.Data.Int.Log
import Mathlib.Data.Rat.Floor
/-!
# IEEE 754 binary64 and binary32 arithmetic

An instance of `FloatOps`: Rust's `f64` and `f32` are the IEEE 754 formats with round-to-nearest, ties to even.  Finite
values are rational numbers (the sign of zero, which the code never observes, is not represented).  The base-2 logarithm
comes from the platform's mathematical library and is not specified by IEEE 754 or Rust, so it is a parameter.
-/

namespace Zopfli

/-- A floating point datum. -/
inductive Fp where
  | fin (q : ℚ)
  | inf (neg : Bool)
  | nan
deriving DecidableEq

namespace Fp

/-- Round to the nearest integer, ties to even. -/
def rne (x : ℚ) : ℤ :=
  let f := ⌊x⌋
  let d := x - f
  if d < 1 / 2 then f else if 1 / 2 < d then f + 1 else if f % 2 = 0 then f else f + 1

/-- The exponent of the last place of `q` in a format with `p` bits of precision and least exponent `emin`. -/
def ulpExp (p emin : ℤ) (q : ℚ) : ℤ := max (Int.log 2 |q| + 1 - p) emin

/-- Round a rational number to a format with `p` bits of precision, least exponent `emin` and values below
`2^emax`. -/
def round (p emin emax : ℤ) (q : ℚ) : Fp :=
  let e := ulpExp p emin q
  let v := (rne (q / 2 ^ e) : ℚ) * 2 ^ e
  if 2 ^ emax ≤ |v| then .inf (decide (v < 0)) else .fin v

/-- binary64 -/
def round64 : ℚ → Fp := round 53 (-1074) 1024

/-- binary32 -/
def round32 : ℚ → Fp := round 24 (-149) 128

/-- Addition of data, before rounding. -/
def addWith (r : ℚ → Fp) : Fp → Fp → Fp
  | .fin a, .fin b => r (a + b)
  | .nan, _ => .nan
  | _, .nan => .nan
  | .inf s, .inf t => if s = t then .inf s else .nan
  | .inf s, .fin _ => .inf s
  | .fin _, .inf s => .inf s

/-- Change of sign. -/
def neg : Fp → Fp
  | .fin q => .fin (-q)
  | .inf s => .inf (!s)
  | .nan => .nan

/-- Multiplication. -/
def mulWith (r : ℚ → Fp) : Fp → Fp → Fp
  | .fin a, .fin b => r (a * b)
  | .nan, _ => .nan
  | _, .nan => .nan
  | .inf s, .inf t => .inf (s != t)
  | .inf s, .fin q => if q = 0 then .nan else .inf (s != decide (q < 0))
  | .fin q, .inf s => if q = 0 then .nan else .inf (s != decide (q < 0))

/-- `<` -/
def lt : Fp → Fp → Bool
  | .fin a, .fin b => decide (a < b)
  | .nan, _ => false
  | _, .nan => false
  | .inf true, .inf false => true
  | .inf true, .fin _ => true
  | .fin _, .inf false => true
  | _, _ => false

/-- `<=` -/
def le : Fp → Fp → Bool
  | .fin a, .fin b => decide (a ≤ b)
  | .nan, _ => false
  | _, .nan => false
  | .inf s, .inf t => s || !t
  | .inf s, .fin _ => s
  | .fin _, .inf s => !s

/-- `f64::min`: the other operand if one is not a number -/
def min (a b : Fp) : Fp :=
  match a, b with
  | .nan, b => b
  | a, .nan => a
  | a, b => if lt b a then b else a

/-- `f64::abs` -/
def abs : Fp → Fp
  | .fin q => .fin |q|
  | .inf _ => .inf false
  | .nan => .nan

/-- `x as usize`: truncating and saturating -/
def toUsize : Fp → Nat
  | .fin q => Nat.min ⌊q⌋.toNat (2 ^ 64 - 1)
  | .inf false => 2 ^ 64 - 1
  | _ => 0

/-- `x as f32` -/
def toF32 : Fp → Fp
  | .fin q => round32 q
  | x => x

end Fp

/-- The floating point of Rust, on a platform with the given base-2 logarithm, in a release build. -/
def ieee (log2 : Fp → Fp) : FloatOps where
  F64 := Fp
  F32 := Fp
  ofNat n := Fp.round64 n
  add := Fp.addWith Fp.round64
  sub a b := Fp.addWith Fp.round64 a b.neg
  mul := Fp.mulWith Fp.round64
  lt := Fp.lt
  le := Fp.le
  min := Fp.min
  abs := Fp.abs
  log2 := log2
  inf := .inf false
  eps := .fin (1 / 2 ^ 52)
  half := .fin (1 / 2)
  c11 := Fp.round64 (11 / 10)
  toUsize := Fp.toUsize
  inf32 := .inf false
  zero32 := .fin 0
  add32 := Fp.addWith Fp.round32
  toF32 := Fp.toF32
  toF64 x := x
  costOk _ := true

/-- The same in a build with debug assertions. -/
def ieeeDebug (log2 : Fp → Fp) : FloatOps := { ieee log2 with costOk := fun x => Fp.le (.fin 0) x }

/-- What is assumed of the platform's logarithm: for integers from 1 below `2^60` it is a finite number between 0 and
64.  (The true logarithm is between 0 and 60.) -/
def Log2Ok (log2 : Fp → Fp) : Prop :=
  ∀ n : Nat, 1 ≤ n → n < 2 ^ 60 → ∃ q, log2 (Fp.round64 n) = .fin q ∧ 0 ≤ q ∧ q ≤ 64

/-- What the debug assertions on costs assume of the platform's logarithm in addition: it does not decrease, for integers
below the given bound. -/
def Log2Mono (log2 : Fp → Fp) (bound : Nat) : Prop :=
  ∀ m n : Nat, 1 ≤ m → m ≤ n → n < bound → Fp.le (log2 (Fp.round64 m)) (log2 (Fp.round64 n)) = true

end Zopfli
