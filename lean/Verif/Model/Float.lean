/-!
# Floating point

The code uses `f64` and `f32` for the cost model of the optimal parser and for comparing block sizes.  The model is
generic in the implementation: `FloatOps` lists the operations the code uses, and nothing is assumed of them here.
-/

namespace Zopfli

/-- The floating point operations used by `src/squeeze.rs`, `src/blocksplitter.rs` and `src/deflate.rs`. -/
structure FloatOps where
  F64 : Type
  F32 : Type
  /-- `n as f64` for an unsigned integer below `2^64` -/
  ofNat : Nat → F64
  add : F64 → F64 → F64
  sub : F64 → F64 → F64
  mul : F64 → F64 → F64
  lt : F64 → F64 → Bool
  le : F64 → F64 → Bool
  /-- `f64::min` -/
  min : F64 → F64 → F64
  abs : F64 → F64
  log2 : F64 → F64
  /-- `f64::INFINITY` -/
  inf : F64
  /-- `f64::EPSILON` -/
  eps : F64
  /-- the literal `0.5` -/
  half : F64
  /-- the literal `1.1` -/
  c11 : F64
  /-- `x as usize` -/
  toUsize : F64 → Nat
  /-- `f32::INFINITY` -/
  inf32 : F32
  /-- `0.0f32` -/
  zero32 : F32
  /-- `f32` addition -/
  add32 : F32 → F32 → F32
  /-- `x as f32` -/
  toF32 : F64 → F32
  /-- `f64::from(x)` -/
  toF64 : F32 → F64
  /-- the debug assertion `x >= 0.0` on the costs of the optimal parser; constantly true in a release build -/
  costOk : F64 → Bool

/-- `n as f64` for a `usize` -/
def FloatOps.ofUsize (F : FloatOps) (n : Nat) : F.F64 := F.ofNat (n % 2 ^ 64)

end Zopfli
