import Verif.Model.UnwindCompress
import Verif.Model.Buffered
/-!
# The encoders returned by `new_buffered`, with a sink that panics

As `Model/Buffered.lean`, with panics.  The last component of a result is the flag `panicked` of the `BufWriter`: it is set while the encoder's
`write` is being called (in `flush_buf` and `write_cold` of `library/std/src/io/buffered/bufwriter.rs`), but not while its `flush` is; a
`BufWriter` that was unwound with this flag set does not flush its buffer when it is dropped.
-/

namespace Zopfli
namespace Unwind

variable {σ : Type}

/-- Whether a call of the encoder's `write` was unwound. -/
def unwound {α : Type} : Except Fault α → Bool
  | .error .panic => true
  | _ => false

/-- src/deflate.rs:64-69, src/gzip.rs:44-53, src/zlib.rs:39-48 `new_buffered` -/
def bufNew (env : WildEnv σ) (fmt : Format) (sink : σ) : Option (Except Fault (BufEncoder σ) × σ) := do
  let (r, s) ← new env fmt sink
  match r with
  | .ok e => return (.ok ⟨e, []⟩, s)
  | .error f => return (.error f, s)

/-- std `BufWriter::write` (and `write_cold`) -/
def bufWrite [Checks] (env : WildEnv σ) (b : BufEncoder σ) (data : List UInt8) : Option (Except Fault Nat × BufEncoder σ × Bool) :=
  let spare := MASTER_BLOCK_SIZE - b.buf.length
  if data.length < spare then some (.ok data.length, ⟨b.inner, b.buf ++ data⟩, false)
  else do
    let (r, e, buf) ← (if data.length > spare then flushBuf env b.inner b.buf else some (.ok (), b.inner, b.buf))
    match r with
    | .error f => return (.error f, ⟨e, buf⟩, unwound (.error f : Except Fault Nat))
    | .ok () =>
      if data.length ≥ MASTER_BLOCK_SIZE then do
        let (r, e) ← write env e data
        return (r, ⟨e, buf⟩, unwound r)
      else return (.ok data.length, ⟨e, buf ++ data⟩, false)

/-- std `BufWriter::flush`: the flag is not set while the encoder is flushed. -/
def bufFlush [Checks] (env : WildEnv σ) (b : BufEncoder σ) : Option (Except Fault Unit × BufEncoder σ × Bool) := do
  let (r, e, buf) ← flushBuf env b.inner b.buf
  match r with
  | .error f => return (.error f, ⟨e, buf⟩, unwound (.error f : Except Fault Unit))
  | .ok () => do
    let (r, e) ← flush env e
    return (r, ⟨e, buf⟩, false)

/-- `BufEncoder.run`: make the calls in order, up to and including the first one that fails or panics. -/
def bufRun [Checks] (env : WildEnv σ) : List Call → BufEncoder σ → Option (Except Fault Unit × BufEncoder σ × Bool)
  | [], b => some (.ok (), b, false)
  | .write data :: l, b => do
    let (r, b, p) ← bufWrite env b data
    match r with
    | .ok _ => bufRun env l b
    | .error f => return (.error f, b, p)
  | .flush :: l, b => do
    let (r, b, p) ← bufFlush env b
    match r with
    | .ok () => bufRun env l b
    | .error f => return (.error f, b, p)

/-- `bufferedSession`: a client that is told of an error gives up, and the `BufWriter` is dropped; a panic unwinds the client's stack, and the
`BufWriter` is dropped in the course of this.  With the ending `finish` it calls `into_inner()` and `finish()`. -/
def bufferedSession [Checks] (env : WildEnv σ) (fmt : Format) (calls : List Call) (ending : Ending) (sink : σ) : Option (Fate × σ) := do
  let (r, s) ← bufNew env fmt sink
  match r with
  | .error f => return (outcome false (.error f), s)
  | .ok b => do
    let (r, b, p) ← bufRun env calls b
    match r with
    | .error f => compress.abandon env b.inner b.buf p f
    | .ok () =>
      match ending with
      | .finish => do
        let (r, e, buf) ← flushBuf env b.inner b.buf
        match r with
        | .error f => compress.abandon env e buf (unwound (.error f : Except Fault Unit)) f
        | .ok () => finish env false e
      | .drop => dropBuffered env false b.inner b.buf false

/-! ## `compress` with a reader that lends its buffer

As in `Model/Buffered.lean`, with a sink that panics.  The reader is one that does not panic, such as a byte slice. -/

variable {ρ : Type}

/-- std `BufWriter::write_all` (and `write_all_cold`) -/
def bufWriteAll [Checks] (env : WildEnv σ) (b : BufEncoder σ) (data : List UInt8) : Option (Except Fault Unit × BufEncoder σ × Bool) :=
  let spare := MASTER_BLOCK_SIZE - b.buf.length
  if data.length < spare then some (.ok (), ⟨b.inner, b.buf ++ data⟩, false)
  else do
    let (r, e, buf) ← (if data.length > spare then flushBuf env b.inner b.buf else some (.ok (), b.inner, b.buf))
    match r with
    | .error f => return (.error f, ⟨e, buf⟩, unwound (.error f : Except Fault Unit))
    | .ok () =>
      if data.length ≥ MASTER_BLOCK_SIZE then do
        let (r, e, _) ← flushBuf env e data
        return (r, ⟨e, buf⟩, unwound r)
      else return (.ok (), ⟨e, buf ++ data⟩, false)

/-- std `BufferedReaderSpec::copy_to` -/
def copyTo [Checks] (env : WildEnv σ) (src : Source ρ) (r : ρ) (b : BufEncoder σ) : Option (Except Fault Unit × BufEncoder σ × Bool) :=
  match src.next r with
  | (.ok [], _) => some (.ok (), b, false)
  | (.ok (x :: xs), r) =>
    match bufWriteAll env b (x :: xs) with
    | none => none
    | some (.ok (), b, _) => copyTo env src r b
    | some (.error f, b, p) => some (.error f, b, p)
  | (.error .interrupted, r) => copyTo env src r b
  | (.error k, _) => some (.error (.error k), b, false)
partial_fixpoint

/-- src/lib.rs:155-181 `compress` for such a reader -/
def compressFrom [Checks] (F : FloatOps) (S : WildSink σ) (src : Source ρ) (options : Options) (fmt : Format) (inData : ρ) (out : σ) :
    Option (Fate × σ) := do
  let env : WildEnv σ := ⟨F, S, options, .dynamic⟩
  let (r, s) ← bufNew env fmt out
  match r with
  | .error f => return (outcome false (.error f), s)
  | .ok b => do
    let (r, b, p) ← copyTo env src inData b
    match r with
    | .error f => compress.abandon env b.inner b.buf p f
    | .ok () => do
      -- `into_inner`
      let (r, e, buf) ← flushBuf env b.inner b.buf
      match r with
      | .error f => compress.abandon env e buf (unwound (.error f : Except Fault Unit)) f
      | .ok () => finish env false e

end Unwind
end Zopfli
