import Verif.Model.Compress
/-!
# Model of the encoders returned by `new_buffered`

src/deflate.rs:64-69, src/gzip.rs:44-53 and src/zlib.rs:39-48 wrap a new encoder in a `std::io::BufWriter` with the
capacity `ZOPFLI_MASTER_BLOCK_SIZE`.  `BufWriter` is modelled from its published source
(`library/std/src/io/buffered/bufwriter.rs`); its `flush_buf` is `flushBuf` (Model/Compress.lean).
-/

namespace Zopfli

/-- std `BufWriter` around an encoder -/
structure BufEncoder (σ : Type) where
  inner : Encoder σ
  buf : List UInt8

/-- src/deflate.rs:64-69, src/gzip.rs:44-53, src/zlib.rs:39-48 `new_buffered` -/
def BufEncoder.new {σ : Type} (env : Env σ) (fmt : Format) (sink : σ) : Option (Except ErrKind (BufEncoder σ) × σ) := do
  let (r, s) ← Encoder.new env fmt sink
  match r with
  | .ok e => return (.ok ⟨e, []⟩, s)
  | .error k => return (.error k, s)

/-- std `BufWriter::write` (and `write_cold`): data that fits is buffered, otherwise the buffer is flushed first; data
at least as large as the whole buffer goes straight to the encoder -/
def BufEncoder.write [Checks] {σ : Type} (env : Env σ) (b : BufEncoder σ) (data : List UInt8) :
    Option (Except ErrKind Nat × BufEncoder σ) :=
  let spare := MASTER_BLOCK_SIZE - b.buf.length
  if data.length < spare then some (.ok data.length, ⟨b.inner, b.buf ++ data⟩)
  else do
    let (r, e, buf) ← (if data.length > spare then flushBuf env b.inner b.buf else some (.ok (), b.inner, b.buf))
    match r with
    | .error k => return (.error k, ⟨e, buf⟩)
    | .ok () =>
      if data.length ≥ MASTER_BLOCK_SIZE then do
        let (r, e) ← e.write env data
        return (r, ⟨e, buf⟩)
      else return (.ok data.length, ⟨e, buf ++ data⟩)

/-- std `BufWriter::flush`: the buffer goes to the encoder, then the encoder is flushed -/
def BufEncoder.flush [Checks] {σ : Type} (env : Env σ) (b : BufEncoder σ) : Option (Except ErrKind Unit × BufEncoder σ) := do
  let (r, e, buf) ← flushBuf env b.inner b.buf
  match r with
  | .error k => return (.error k, ⟨e, buf⟩)
  | .ok () => do
    let (r, e) ← e.flush env
    return (r, ⟨e, buf⟩)

/-- std `BufWriter::drop`, then the drop of the encoder -/
def BufEncoder.drop [Checks] {σ : Type} (env : Env σ) (b : BufEncoder σ) : Option σ := dropBuffered env b.inner b.buf

/-- std `BufWriter::into_inner`, followed by `finish` of the encoder (as in src/lib.rs:166, 172, 178: on an error the
`IntoInnerError` with the `BufWriter` inside is dropped) -/
def BufEncoder.intoInnerFinish [Checks] {σ : Type} (env : Env σ) (b : BufEncoder σ) : Option (Except ErrKind Unit × σ) := do
  let (r, e, buf) ← flushBuf env b.inner b.buf
  match r with
  | .error k => return (.error k, ← BufEncoder.drop env ⟨e, buf⟩)
  | .ok () => e.finish env

/-! ## `compress` with a reader that lends its buffer

`std::io::copy` hands the buffer of the reader to `write_all` of the `BufWriter` if the reader is a byte slice (`&[u8]`), or
a `BufReader` whose capacity is at least that of the `BufWriter` (published source `library/std/src/io/copy.rs`,
`BufferedReaderSpec`).  For all other readers see `compress` (Model/Compress.lean).  For `VecDeque<u8>`, which uses
`write_all_vectored`, see Model/HandingBuffered.lean.
-/

/-- A reader that lends its buffer: the next part of the data (empty at the end) or an error.  A byte slice has one part. -/
structure Source (ρ : Type) where
  next : ρ → Except ErrKind (List UInt8) × ρ

/-- std `impl BufferedReaderSpec for &[u8]` -/
def sliceSource : Source (List UInt8) where
  next data := (.ok data, [])

/-- std `BufWriter::write_all` (and `write_all_cold`); the default `write_all` of the encoder is the loop of `flushBuf` -/
def BufEncoder.writeAll [Checks] {σ : Type} (env : Env σ) (b : BufEncoder σ) (data : List UInt8) :
    Option (Except ErrKind Unit × BufEncoder σ) :=
  let spare := MASTER_BLOCK_SIZE - b.buf.length
  if data.length < spare then some (.ok (), ⟨b.inner, b.buf ++ data⟩)
  else do
    let (r, e, buf) ← (if data.length > spare then flushBuf env b.inner b.buf else some (.ok (), b.inner, b.buf))
    match r with
    | .error k => return (.error k, ⟨e, buf⟩)
    | .ok () =>
      if data.length ≥ MASTER_BLOCK_SIZE then do
        let (r, e, _) ← flushBuf env e data
        return (r, ⟨e, buf⟩)
      else return (.ok (), ⟨e, buf ++ data⟩)

/-- std `BufferedReaderSpec::copy_to` -/
def copyTo [Checks] {σ ρ : Type} (env : Env σ) (src : Source ρ) (r : ρ) (b : BufEncoder σ) : Option (Except ErrKind Unit × BufEncoder σ) :=
  match src.next r with
  | (.ok [], _) => some (.ok (), b)
  | (.ok (x :: xs), r) =>
    match b.writeAll env (x :: xs) with
    | none => none
    | some (.ok (), b) => copyTo env src r b
    | some (.error k, b) => some (.error k, b)
  | (.error .interrupted, r) => copyTo env src r b
  | (.error k, _) => some (.error k, b)
partial_fixpoint

/-- src/lib.rs:155-181 `compress` for such a reader -/
def compressFrom [Checks] {σ ρ : Type} (F : FloatOps) (S : Sink σ) (src : Source ρ) (options : Options) (fmt : Format)
    (inData : ρ) (out : σ) : Option (Except ErrKind Unit × σ) := do
  let env : Env σ := ⟨F, S, options, .dynamic⟩
  let (r, s) ← BufEncoder.new env fmt out
  match r with
  | .error k => return (.error k, s)
  | .ok b => do
    let (r, b) ← copyTo env src inData b
    match r with
    | .error k => return (.error k, ← b.drop env)
    | .ok () => b.intoInnerFinish env

end Zopfli
