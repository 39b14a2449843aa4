import Verif.Model.Buffered
import Verif.Model.Handing
/-!
# The other ways of handing data to a buffered encoder, and `compress` with a `VecDeque<u8>`

The encoders made by `new_buffered` (src/deflate.rs:64-69, src/gzip.rs:44-53, src/zlib.rs:39-48) are `std::io::BufWriter`s, which have their
own `write`, `write_all`, `write_vectored` and `flush` (Model/Buffered.lean and below); the other methods of `std::io::Write` are the provided
ones (Model/Handing.lean).  The source of `std` is not in /repo: these definitions follow the published `library/std/src/io/buffered/bufwriter.rs`,
`library/std/src/io/mod.rs` and `library/std/src/io/copy.rs`.
-/

namespace Zopfli

/-- std `BufWriter::write_vectored`, the loop at the end: the following buffers are copied as long as they fit.  Returns the buffer and the number
of bytes copied. -/
def appendMore (buf : List UInt8) : List (List UInt8) → List UInt8 × Nat
  | [] => (buf, 0)
  | b :: bs =>
    if b.length ≤ MASTER_BLOCK_SIZE - buf.length then
      let (buf, n) := appendMore (buf ++ b) bs
      (buf, b.length + n)
    else (buf, 0)

/-- std `BufWriter::write_vectored`, for a writer without its own `write_vectored` as the encoders are (`is_write_vectored` is the provided
one): the first buffer that is not empty is treated as by `write`; then the buffers after it are copied as long as they fit. -/
def BufEncoder.writeVectored [Checks] {σ : Type} (env : Env σ) (b : BufEncoder σ) (bufs : List (List UInt8)) :
    Option (Except ErrKind Nat × BufEncoder σ) :=
  match bufs.dropWhile List.isEmpty with
  | [] => some (.ok 0, b)
  | data :: rest => do
    let (r, e, buf) ← (if data.length > MASTER_BLOCK_SIZE - b.buf.length then flushBuf env b.inner b.buf else some (.ok (), b.inner, b.buf))
    match r with
    | .error k => return (.error k, ⟨e, buf⟩)
    | .ok () =>
      if data.length ≥ MASTER_BLOCK_SIZE then do
        let (r, e) ← e.write env data
        return (r, ⟨e, buf⟩)
      else
        let (buf, n) := appendMore (buf ++ data) rest
        return (.ok (data.length + n), ⟨e, buf⟩)

/-- std `Write::write_all_vectored`: the loop -/
def BufEncoder.writeAllVectoredLoop [Checks] {σ : Type} (env : Env σ) (b : BufEncoder σ) (bufs : List (List UInt8)) :
    Option (Except ErrKind Unit × BufEncoder σ) :=
  if bufs = [] then some (.ok (), b)
  else do
    let (r, b) ← b.writeVectored env bufs
    match r with
    | .ok 0 => return (.error .writeZero, b)
    | .ok (n + 1) => do b.writeAllVectoredLoop env (← advanceSlices bufs (n + 1))
    | .error .interrupted => b.writeAllVectoredLoop env bufs
    | .error k => return (.error k, b)
partial_fixpoint

/-- std `Write::write_all_vectored` -/
def BufEncoder.writeAllVectored [Checks] {σ : Type} (env : Env σ) (b : BufEncoder σ) (bufs : List (List UInt8)) :
    Option (Except ErrKind Unit × BufEncoder σ) := do
  b.writeAllVectoredLoop env (← advanceSlices bufs 0)

/-- std `Write::write_fmt`, as `Encoder.writeFmt` -/
def BufEncoder.writeFmt [Checks] {σ : Type} (env : Env σ) : List (List UInt8) → BufEncoder σ → Option (Except ErrKind Unit × BufEncoder σ)
  | [], b => some (.ok (), b)
  | piece :: l, b => do
    let (r, b) ← b.writeAll env piece
    match r with
    | .ok () => BufEncoder.writeFmt env l b
    | .error k => return (.error k, b)

/-- The call. -/
def BufEncoder.hand [Checks] {σ : Type} (env : Env σ) (b : BufEncoder σ) : Hand → Option (Except ErrKind Unit × BufEncoder σ)
  | .write buf => do let (r, b) ← b.write env buf; return (r.map fun _ => (), b)
  | .writeAll buf => b.writeAll env buf
  | .writeVectored bufs => do let (r, b) ← b.writeVectored env bufs; return (r.map fun _ => (), b)
  | .writeAllVectored bufs => b.writeAllVectored env bufs
  | .writeFmt pieces => BufEncoder.writeFmt env pieces b
  | .flush => b.flush env

/-- Make the calls in order, up to and including the first one that fails. -/
def BufEncoder.hands [Checks] {σ : Type} (env : Env σ) : List Hand → BufEncoder σ → Option (Except ErrKind Unit × BufEncoder σ)
  | [], b => some (.ok (), b)
  | h :: l, b => do
    let (r, b) ← b.hand env h
    match r with
    | .ok () => BufEncoder.hands env l b
    | .error k => return (.error k, b)

/-- A session with a buffered encoder (as `bufferedSession`) that hands its data over in these ways. -/
def bufHandSession [Checks] {σ : Type} (env : Env σ) (fmt : Format) (calls : List Hand) (ending : Ending) (sink : σ) :
    Option (Except ErrKind Unit × σ) := do
  let (r, s) ← BufEncoder.new env fmt sink
  match r with
  | .error k => return (.error k, s)
  | .ok b => do
    let (r, b) ← BufEncoder.hands env calls b
    match r with
    | .error k => return (.error k, ← b.drop env)
    | .ok () =>
      match ending with
      | .finish => b.intoInnerFinish env
      | .drop => return (.ok (), ← b.drop env)

/-- src/lib.rs:155-181 `compress` with a `VecDeque<u8>`: `std::io::copy` hands both parts of the ring buffer to `write_all_vectored` of the
`BufWriter` (`impl BufferedReaderSpec for VecDeque<u8>`, whose `buffer_size` is `usize::MAX`). -/
def compressDeque [Checks] {σ : Type} (F : FloatOps) (S : Sink σ) (options : Options) (fmt : Format) (front back : List UInt8) (out : σ) :
    Option (Except ErrKind Unit × σ) := do
  let env : Env σ := ⟨F, S, options, .dynamic⟩
  let (r, s) ← BufEncoder.new env fmt out
  match r with
  | .error k => return (.error k, s)
  | .ok b => do
    let (r, b) ← b.writeAllVectored env [front, back]
    match r with
    | .error k => return (.error k, ← b.drop env)
    | .ok () => b.intoInnerFinish env

end Zopfli
