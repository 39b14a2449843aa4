/-!
# Rendering of Rust control flow, and the constants of `src/util.rs`

A Rust computation that may panic or loop forever is a value of `Option`: `none` means "panicked, or did not
terminate".
-/

namespace Zopfli

/-- `a[i] = v` on a Rust slice or `Vec`: panics when `i` is out of range. -/
@[inline] def aset {α : Type} (a : Array α) (i : Nat) (v : α) : Option (Array α) :=
  if h : i < a.size then some (a.set i v h) else none

/-- `a[i] = f(a[i])` on a Rust slice or `Vec`: panics when `i` is out of range. -/
@[inline] def amod {α : Type} (a : Array α) (i : Nat) (f : α → α) : Option (Array α) :=
  if i < a.size then some (a.modify i f) else none

/-- `n` iterations of a `for` loop starting at index `i`, threading the mutable state `s`. -/
@[specialize] def forN {σ : Type} (f : Nat → σ → Option σ) : (n i : Nat) → σ → Option σ
  | 0, _, s => some s
  | n + 1, i, s => do forN f n (i + 1) (← f i s)

/-- `for i in a..b { s = f(i, s) }` -/
@[inline] def forRange {σ : Type} (a b : Nat) (s : σ) (f : Nat → σ → Option σ) : Option σ := forN f (b - a) a s

/-- `loop { .. }`: the body either continues with a new state (`inl`) or breaks with a result (`inr`).
Running forever is `none`. -/
@[specialize] def loopM {σ ρ : Type} (body : σ → Option (σ ⊕ ρ)) (s : σ) : Option ρ := do
  match ← body s with
  | .inl s => loopM body s
  | .inr r => some r
partial_fixpoint

/-- `assert!(c)` / a guard that panics when false. -/
@[inline] def guardR (c : Bool) : Option Unit := if c then some () else none

/-- The slice expression `&a[s..e]`: panics unless `s <= e <= a.len()`. -/
@[inline] def slice {α : Type} (a : Array α) (s e : Nat) : Option (Array α) :=
  if s ≤ e ∧ e ≤ a.size then some (a.extract s e) else none

/-- `a - b` on `usize`.  A subtraction below zero panics in a debug build and wraps in a release build; it is a panic
here, so that a theorem saying the model does not panic also says that it never happens. -/
@[inline] def usub (a b : Nat) : Option Nat := if b ≤ a then some (a - b) else none

/-- Whether the program is compiled with overflow checks (`cargo build` without `--release`). -/
class Checks where
  on : Bool

/-- A release build.  This is the build meant where nothing else is said. -/
instance releaseBuild : Checks := ⟨false⟩

/-- A build with overflow checks. -/
abbrev checkedBuild : Checks := ⟨true⟩

/-- The value of `u32` arithmetic whose exact result is `x`: overflow panics in a build with overflow checks, and wraps in
a release build. -/
@[inline] def u32 [Checks] (x : Nat) : Option Nat := if Checks.on = true ∧ 2 ^ 32 ≤ x then none else some (x % 2 ^ 32)

/-- src/util.rs:4 -/
abbrev NUM_LL : Nat := 288
/-- src/util.rs:6 -/
abbrev NUM_D : Nat := 32
/-- src/util.rs:11 -/
abbrev WINDOW_SIZE : Nat := 32768
/-- src/util.rs:19 -/
abbrev MASTER_BLOCK_SIZE : Nat := 1000000
/-- src/util.rs:23; the code's `x & WINDOW_MASK` is written `x % WINDOW_SIZE` (the mask is `2^15 - 1`). -/
abbrev WINDOW_MASK : Nat := WINDOW_SIZE - 1
/-- src/util.rs:26 -/
abbrev MAX_MATCH : Nat := 258
/-- src/util.rs:28 -/
abbrev MIN_MATCH : Nat := 3
/-- src/util.rs:35 -/
abbrev CACHE_LENGTH : Nat := 8
/-- src/util.rs:43 -/
abbrev MAX_CHAIN_HITS : Nat := 8192

end Zopfli
