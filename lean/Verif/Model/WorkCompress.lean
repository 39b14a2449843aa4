import Verif.Model.WorkEncoder
/-!
# `compress` again, counting steps

As `Model/Work.lean` and `Model/WorkEncoder.lean`, for the functions of `Model/Compress.lean`.  The steps the reader takes are its own and not counted,
nor is trying again when it was interrupted; copying a byte it has delivered is a step.
-/

namespace Zopfli
namespace Work

variable {σ ρ : Type}

/-- std `BufWriter::flush_buf`, as an `Option` -/
def flushBufO [Checks] (E : Nat) (env : Env σ) (e : Encoder σ) (buf : List UInt8) : Option ((Except ErrKind Unit × Encoder σ × List UInt8) × Nat) :=
  if buf = [] then some ((.ok (), e, []), 1)
  else
    match write E env e buf with
    | none => none
    | some ((.ok 0, e), t) => some ((.error .writeZero, e, buf), 1 + t)
    | some ((.ok (n + 1), e), t) =>
      flushBufO E env e (buf.drop (n + 1)) >>= fun (x, t') => some (x, 1 + t + t')
    | some ((.error .interrupted, e), t) =>
      flushBufO E env e buf >>= fun (x, t') => some (x, 1 + t + t')
    | some ((.error k, e), t) => some ((.error k, e, buf), 1 + t)
partial_fixpoint

/-- std `BufWriter::flush_buf` (`flushBuf` of Model/Compress.lean): one step for each round, and what `write` takes -/
def flushBuf [Checks] (E : Nat) (env : Env σ) (e : Encoder σ) (buf : List UInt8) : Work (Except ErrKind Unit × Encoder σ × List UInt8) :=
  flushBufO E env e buf

/-- std `io::copy`, as an `Option` -/
def copyLoopO [Checks] (E : Nat) (env : Env σ) (R : Reader ρ) (r : ρ) (e : Encoder σ) (buf : List UInt8) :
    Option ((Except ErrKind Unit × Encoder σ × List UInt8) × Nat) :=
  let room := MASTER_BLOCK_SIZE - buf.length
  if DEFAULT_BUF_SIZE ≤ room then
    match R.read r room with
    | (.ok [], _) => some ((.ok (), e, buf), 1)
    | (.ok (b :: bs), r) =>
      if (b :: bs).length ≤ room then
        copyLoopO E env R r e (buf ++ b :: bs) >>= fun (x, t) => some (x, (b :: bs).length + t)
      else none
    | (.error .interrupted, r) => copyLoopO E env R r e buf
    | (.error k, _) => some ((.error k, e, buf), 1)
  else
    match flushBuf E env e buf with
    | none => none
    | some ((.error k, e, buf), t) => some ((.error k, e, buf), t)
    | some ((.ok (), e, buf), t) =>
      copyLoopO E env R r e buf >>= fun (x, t') => some (x, t + t')
partial_fixpoint

/-- std `io::copy` (`copyLoop` of Model/Compress.lean) -/
def copyLoop [Checks] (E : Nat) (env : Env σ) (R : Reader ρ) (r : ρ) (e : Encoder σ) (buf : List UInt8) :
    Work (Except ErrKind Unit × Encoder σ × List UInt8) :=
  copyLoopO E env R r e buf

/-- Dropping the `BufWriter` on an error path (`dropBuffered` of Model/Compress.lean) -/
def dropBuffered [Checks] (E : Nat) (env : Env σ) (e : Encoder σ) (buf : List UInt8) : Work σ := do
  let (_, e, _) ← flushBuf E env e buf
  drop E env e

/-- src/lib.rs:155-181 `compress` -/
def compress [Checks] (E : Nat) (F : FloatOps) (S : Sink σ) (R : Reader ρ) (options : Options) (fmt : Format) (inData : ρ) (out : σ) :
    Work (Except ErrKind Unit × σ) := do
  tick 10
  let (r, s) ← lift (Encoder.new ⟨F, S, options, .dynamic⟩ fmt out)
  match r with
  | .error k => return (.error k, s)
  | .ok e => do
    let (r, e, buf) ← copyLoop E ⟨F, S, options, .dynamic⟩ R inData e []
    match r with
    | .error k => do
      let s ← dropBuffered E ⟨F, S, options, .dynamic⟩ e buf
      return (.error k, s)
    | .ok () => do
      let (r, e, buf) ← flushBuf E ⟨F, S, options, .dynamic⟩ e buf
      match r with
      | .error k => do
        let s ← dropBuffered E ⟨F, S, options, .dynamic⟩ e buf
        return (.error k, s)
      | .ok () => finish E ⟨F, S, options, .dynamic⟩ e

end Work
end Zopfli
