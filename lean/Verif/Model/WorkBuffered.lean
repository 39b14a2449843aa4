import Verif.Model.WorkCompress
import Verif.Spec.Buffered
/-!
# Buffered encoders, and `compress` with a reader that lends its buffer, again, counting steps

As `Model/WorkCompress.lean`, for the functions of `Model/Buffered.lean` and the sessions of `Spec/Buffered.lean`.  A call counts one step and one for
each byte it is given (for copying it into the buffer), besides what handing the buffer on takes.
-/

namespace Zopfli
namespace Work

variable {σ ρ : Type}

/-- std `BufWriter::write` (`BufEncoder.write` of Model/Buffered.lean) -/
def bufWrite [Checks] (E : Nat) (env : Env σ) (b : BufEncoder σ) (data : List UInt8) : Work (Except ErrKind Nat × BufEncoder σ) := do
  tick (data.length + 1)
  let spare := MASTER_BLOCK_SIZE - b.buf.length
  if data.length < spare then pure (.ok data.length, ⟨b.inner, b.buf ++ data⟩)
  else do
    let (r, e, buf) ← (if data.length > spare then flushBuf E env b.inner b.buf else pure (.ok (), b.inner, b.buf))
    match r with
    | .error k => pure (.error k, ⟨e, buf⟩)
    | .ok () =>
      if data.length ≥ MASTER_BLOCK_SIZE then do
        let (r, e) ← write E env e data
        pure (r, ⟨e, buf⟩)
      else pure (.ok data.length, ⟨e, buf ++ data⟩)

/-- std `BufWriter::flush` (`BufEncoder.flush` of Model/Buffered.lean) -/
def bufFlush [Checks] (E : Nat) (env : Env σ) (b : BufEncoder σ) : Work (Except ErrKind Unit × BufEncoder σ) := do
  let (r, e, buf) ← flushBuf E env b.inner b.buf
  match r with
  | .error k => pure (.error k, ⟨e, buf⟩)
  | .ok () => do
    let (r, e) ← flush env e
    pure (r, ⟨e, buf⟩)

/-- std `BufWriter::drop` (`BufEncoder.drop` of Model/Buffered.lean) -/
def bufDrop [Checks] (E : Nat) (env : Env σ) (b : BufEncoder σ) : Work σ := dropBuffered E env b.inner b.buf

/-- std `BufWriter::into_inner` and `finish` (`BufEncoder.intoInnerFinish` of Model/Buffered.lean) -/
def intoInnerFinish [Checks] (E : Nat) (env : Env σ) (b : BufEncoder σ) : Work (Except ErrKind Unit × σ) := do
  let (r, e, buf) ← flushBuf E env b.inner b.buf
  match r with
  | .error k => do
    let s ← bufDrop E env ⟨e, buf⟩
    pure (.error k, s)
  | .ok () => finish E env e

/-- The calls of a session (`BufEncoder.run` of Spec/Buffered.lean) -/
def bufRun [Checks] (E : Nat) (env : Env σ) : List Call → BufEncoder σ → Work (Except ErrKind Unit × BufEncoder σ)
  | [], b => pure (.ok (), b)
  | .write data :: l, b => do
    let (r, b) ← bufWrite E env b data
    match r with
    | .ok _ => bufRun E env l b
    | .error k => pure (.error k, b)
  | .flush :: l, b => do
    let (r, b) ← bufFlush E env b
    match r with
    | .ok () => bufRun E env l b
    | .error k => pure (.error k, b)

/-- A whole session (`bufferedSession` of Spec/Buffered.lean); creating the encoder counts 10 steps -/
def bufferedSession [Checks] (E : Nat) (env : Env σ) (fmt : Format) (calls : List Call) (ending : Ending) (sink : σ) :
    Work (Except ErrKind Unit × σ) := do
  tick 10
  let (r, s) ← lift (BufEncoder.new env fmt sink)
  match r with
  | .error k => pure (.error k, s)
  | .ok b => do
    let (r, b) ← bufRun E env calls b
    match r with
    | .error k => do
      let s ← bufDrop E env b
      pure (.error k, s)
    | .ok () =>
      match ending with
      | .finish => intoInnerFinish E env b
      | .drop => do
        let s ← bufDrop E env b
        pure (.ok (), s)

/-- std `BufWriter::write_all` (`BufEncoder.writeAll` of Model/Buffered.lean) -/
def bufWriteAll [Checks] (E : Nat) (env : Env σ) (b : BufEncoder σ) (data : List UInt8) : Work (Except ErrKind Unit × BufEncoder σ) := do
  tick (data.length + 1)
  let spare := MASTER_BLOCK_SIZE - b.buf.length
  if data.length < spare then pure (.ok (), ⟨b.inner, b.buf ++ data⟩)
  else do
    let (r, e, buf) ← (if data.length > spare then flushBuf E env b.inner b.buf else pure (.ok (), b.inner, b.buf))
    match r with
    | .error k => pure (.error k, ⟨e, buf⟩)
    | .ok () =>
      if data.length ≥ MASTER_BLOCK_SIZE then do
        let (r, e, _) ← flushBuf E env e data
        pure (r, ⟨e, buf⟩)
      else pure (.ok (), ⟨e, buf ++ data⟩)

/-- std `BufferedReaderSpec::copy_to`, as an `Option` -/
def copyToO [Checks] (E : Nat) (env : Env σ) (src : Source ρ) (r : ρ) (b : BufEncoder σ) : Option ((Except ErrKind Unit × BufEncoder σ) × Nat) :=
  match src.next r with
  | (.ok [], _) => some ((.ok (), b), 1)
  | (.ok (x :: xs), r) =>
    match bufWriteAll E env b (x :: xs) with
    | none => none
    | some ((.ok (), b), t) => copyToO E env src r b >>= fun (y, t') => some (y, t + t')
    | some ((.error k, b), t) => some ((.error k, b), t)
  | (.error .interrupted, r) => copyToO E env src r b
  | (.error k, _) => some ((.error k, b), 1)
partial_fixpoint

/-- std `BufferedReaderSpec::copy_to` (`copyTo` of Model/Buffered.lean) -/
def copyTo [Checks] (E : Nat) (env : Env σ) (src : Source ρ) (r : ρ) (b : BufEncoder σ) : Work (Except ErrKind Unit × BufEncoder σ) :=
  copyToO E env src r b

/-- src/lib.rs:155-181 `compress` for such a reader (`compressFrom` of Model/Buffered.lean) -/
def compressFrom [Checks] (E : Nat) (F : FloatOps) (S : Sink σ) (src : Source ρ) (options : Options) (fmt : Format) (inData : ρ) (out : σ) :
    Work (Except ErrKind Unit × σ) := do
  tick 10
  let (r, s) ← lift (BufEncoder.new ⟨F, S, options, .dynamic⟩ fmt out)
  match r with
  | .error k => pure (.error k, s)
  | .ok b => do
    let (r, b) ← copyTo E ⟨F, S, options, .dynamic⟩ src inData b
    match r with
    | .error k => do
      let s ← bufDrop E ⟨F, S, options, .dynamic⟩ b
      pure (.error k, s)
    | .ok () => intoInnerFinish E ⟨F, S, options, .dynamic⟩ b

end Work
end Zopfli
