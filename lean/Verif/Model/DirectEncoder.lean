import Verif.Model.Direct
import Verif.Model.Buffered
import Verif.Spec.Session
/-!
# The encoders, writing while they compute

The functions of `Model/Encoder.lean`, `Model/Compress.lean` and `Model/Buffered.lean`, with the `deflate_part` of `Model/Direct.lean`.
-/

namespace Zopfli
namespace Direct

/-! ## The encoder of deflate -/

/-- src/deflate.rs:87-97 `compress_chunk` -/
def compressChunk [Checks] {σ : Type} (env : Env σ) (e : DeflateEncoder σ) (isLast : Bool) :
    Option (Except ErrKind Unit × DeflateEncoder σ) := do
  let w ← e.bitwiseWriter
  let (r, w) ← deflatePart env.S env.F env.options env.btype isLast e.windowAndChunk e.chunkStart e.windowAndChunk.size w
  return (r, { e with bitwiseWriter := some w })

/-- src/deflate.rs:125-136 `__finish` -/
def deflateFinishInner [Checks] {σ : Type} (env : Env σ) (e : DeflateEncoder σ) :
    Option (Except ErrKind (Option σ) × DeflateEncoder σ × Option σ) :=
  match e.bitwiseWriter with
  | none => some (.ok none, e, none)
  | some _ => do
    let (r, e) ← compressChunk env e true
    match r with
    | .error k => return (.error k, e, e.bitwiseWriter.map (·.out))
    | .ok () => do
      let w ← e.bitwiseWriter
      let (r, w) ← w.finishPartialBits env.S
      let e := { e with bitwiseWriter := none }
      match r with
      | .error k => return (.error k, e, some w.out)
      | .ok () => return (.ok (some w.out), e, some w.out)

/-- src/deflate.rs:140-152 `write` -/
def deflateWrite [Checks] {σ : Type} (env : Env σ) (e : DeflateEncoder σ) (buf : List UInt8) :
    Option (Except ErrKind Nat × DeflateEncoder σ) := do
  let (r, e) ← (if e.haveChunk then compressChunk env e false else some (.ok (), e))
  match r with
  | .error k => return (.error k, e)
  | .ok () => return (.ok buf.length, e.setChunk buf)

/-- src/deflate.rs:159-163 `drop`, the sink being in state `sink` before -/
def deflateDropWith [Checks] {σ : Type} (env : Env σ) (e : DeflateEncoder σ) (sink : σ) : Option σ := do
  let (_, _, s) ← deflateFinishInner env e
  return s.getD sink

/-- src/deflate.rs:159-163 `drop` -/
def deflateDrop [Checks] {σ : Type} (env : Env σ) (e : DeflateEncoder σ) : Option σ := do
  let w ← e.bitwiseWriter
  deflateDropWith env e w.out

/-- src/deflate.rs:79-81 `finish` -/
def deflateFinish [Checks] {σ : Type} (env : Env σ) (e : DeflateEncoder σ) : Option (Except ErrKind Unit × σ) := do
  let (r, e, s) ← deflateFinishInner env e
  match r with
  | .ok none => none                       -- `sink.unwrap()` panics
  | .ok (some _) => return (.ok (), ← deflateDropWith env e (← s))
  | .error k => return (.error k, ← deflateDropWith env e (← s))

/-! ## The encoders of gzip and zlib -/

/-- src/gzip.rs:82-92 `write` -/
def gzipWrite [Checks] {σ : Type} (env : Env σ) (e : GzipEncoder σ) (buf : List UInt8) :
    Option (Except ErrKind Nat × GzipEncoder σ) := do
  let d ← e.deflate
  let (r, d) ← deflateWrite env d buf
  match r with
  | .error k => return (.error k, { e with deflate := some d })
  | .ok n => return (.ok n, ⟨some d, (buf.take n).foldl crcUpdate e.crc, e.inputSize + UInt32.ofNat n⟩)

/-- src/gzip.rs:67-78 `__finish` -/
def gzipFinishInner [Checks] {σ : Type} (env : Env σ) (e : GzipEncoder σ) (d : DeflateEncoder σ) :
    Option (Except ErrKind Unit × σ) := do
  let (r, sink) ← deflateFinish env d
  match r with
  | .error k => return (.error k, sink)
  | .ok () => do
    let (r, sink) ← env.S.writeAll sink (toLeBytes (crcFinalize e.crc))
    match r with
    | .error k => return (.error k, sink)
    | .ok () => env.S.writeAll sink (toLeBytes e.inputSize)

/-- src/gzip.rs:63-65 `finish` -/
def gzipFinish [Checks] {σ : Type} (env : Env σ) (e : GzipEncoder σ) : Option (Except ErrKind Unit × σ) := do
  gzipFinishInner env e (← e.deflate)

/-- src/gzip.rs:99-103 `drop` -/
def gzipDrop [Checks] {σ : Type} (env : Env σ) (e : GzipEncoder σ) : Option σ := do
  return (← gzipFinishInner env e (← e.deflate)).2

/-- src/zlib.rs:76-85 `write` -/
def zlibWrite [Checks] {σ : Type} (env : Env σ) (e : ZlibEncoder σ) (buf : List UInt8) :
    Option (Except ErrKind Nat × ZlibEncoder σ) := do
  let d ← e.deflate
  let (r, d) ← deflateWrite env d buf
  match r with
  | .error k => return (.error k, { e with deflate := some d })
  | .ok n => return (.ok n, ⟨some d, (buf.take n).foldl Adler.update e.adler⟩)

/-- src/zlib.rs:62-72 `__finish` -/
def zlibFinishInner [Checks] {σ : Type} (env : Env σ) (e : ZlibEncoder σ) (d : DeflateEncoder σ) :
    Option (Except ErrKind Unit × σ) := do
  let (r, sink) ← deflateFinish env d
  match r with
  | .error k => return (.error k, sink)
  | .ok () => env.S.writeAll sink (toBeBytes e.adler.finish)

/-- src/zlib.rs:58-60 `finish` -/
def zlibFinish [Checks] {σ : Type} (env : Env σ) (e : ZlibEncoder σ) : Option (Except ErrKind Unit × σ) := do
  zlibFinishInner env e (← e.deflate)

/-- src/zlib.rs:92-96 `drop` -/
def zlibDrop [Checks] {σ : Type} (env : Env σ) (e : ZlibEncoder σ) : Option σ := do
  return (← zlibFinishInner env e (← e.deflate)).2

/-! ## An encoder of any format, and sessions -/

/-- `Write::write` of the encoder: src/gzip.rs:82, src/zlib.rs:76, src/deflate.rs:140 -/
def write [Checks] {σ : Type} (env : Env σ) (e : Encoder σ) (buf : List UInt8) :
    Option (Except ErrKind Nat × Encoder σ) :=
  match e with
  | .gzip e => do let (r, e) ← gzipWrite env e buf; return (r, .gzip e)
  | .zlib e => do let (r, e) ← zlibWrite env e buf; return (r, .zlib e)
  | .deflate e => do let (r, e) ← deflateWrite env e buf; return (r, .deflate e)

/-- `finish` of the encoder: src/gzip.rs:63, src/zlib.rs:58, src/deflate.rs:79 -/
def finish [Checks] {σ : Type} (env : Env σ) (e : Encoder σ) : Option (Except ErrKind Unit × σ) :=
  match e with
  | .gzip e => gzipFinish env e
  | .zlib e => zlibFinish env e
  | .deflate e => deflateFinish env e

/-- `drop` of the encoder: src/gzip.rs:99, src/zlib.rs:92, src/deflate.rs:159 -/
def drop [Checks] {σ : Type} (env : Env σ) (e : Encoder σ) : Option σ :=
  match e with
  | .gzip e => gzipDrop env e
  | .zlib e => zlibDrop env e
  | .deflate e => deflateDrop env e

/-- Make the calls in order, up to and including the first one that fails.  (`flush` does not compute anything.) -/
def run [Checks] {σ : Type} (env : Env σ) : List Call → Encoder σ → Option (Except ErrKind Unit × Encoder σ)
  | [], e => some (.ok (), e)
  | .write buf :: l, e => do
    let (r, e) ← write env e buf
    match r with
    | .ok _ => run env l e
    | .error k => return (.error k, e)
  | .flush :: l, e => do
    let (r, e) ← e.flush env
    match r with
    | .ok () => run env l e
    | .error k => return (.error k, e)

/-- A whole session: create an encoder, make the calls, end. -/
def session [Checks] {σ : Type} (env : Env σ) (fmt : Format) (calls : List Call) (ending : Ending) (sink : σ) :
    Option (Except ErrKind Unit × σ) := do
  let (r, s) ← Encoder.new env fmt sink
  match r with
  | .error k => return (.error k, s)
  | .ok e => do
    let (r, e) ← run env calls e
    match r with
    | .error k => return (.error k, ← drop env e)
    | .ok () =>
      match ending with
      | .finish => finish env e
      | .drop => return (.ok (), ← drop env e)

/-! ## `compress` -/

/-- std `BufWriter::flush_buf` over an encoder -/
def flushBuf [Checks] {σ : Type} (env : Env σ) (e : Encoder σ) (buf : List UInt8) :
    Option (Except ErrKind Unit × Encoder σ × List UInt8) :=
  if buf = [] then some (.ok (), e, [])
  else do
    let (r, e) ← write env e buf
    match r with
    | .ok 0 => return (.error .writeZero, e, buf)
    | .ok (n + 1) => flushBuf env e (buf.drop (n + 1))
    | .error .interrupted => flushBuf env e buf
    | .error k => return (.error k, e, buf)
partial_fixpoint

/-- std `io::copy` into a `BufWriter` of capacity 1,000,000 (src/util.rs:19) -/
def copyLoop [Checks] {σ ρ : Type} (env : Env σ) (R : Reader ρ) (r : ρ) (e : Encoder σ) (buf : List UInt8) :
    Option (Except ErrKind Unit × Encoder σ × List UInt8) :=
  let room := MASTER_BLOCK_SIZE - buf.length
  if DEFAULT_BUF_SIZE ≤ room then
    match R.read r room with
    | (.ok [], _) => some (.ok (), e, buf)
    | (.ok (b :: bs), r) => if (b :: bs).length ≤ room then copyLoop env R r e (buf ++ b :: bs) else none
    | (.error .interrupted, r) => copyLoop env R r e buf
    | (.error k, _) => some (.error k, e, buf)
  else
    match flushBuf env e buf with
    | none => none
    | some (.error k, e, buf) => some (.error k, e, buf)
    | some (.ok (), e, buf) => copyLoop env R r e buf
partial_fixpoint

/-- Dropping the `BufWriter` on an error path -/
def dropBuffered [Checks] {σ : Type} (env : Env σ) (e : Encoder σ) (buf : List UInt8) : Option σ := do
  let (_, e, _) ← flushBuf env e buf
  drop env e

/-- src/lib.rs:155-181 `compress` -/
def compress [Checks] {σ ρ : Type} (F : FloatOps) (S : Sink σ) (R : Reader ρ) (options : Options) (fmt : Format)
    (inData : ρ) (out : σ) : Option (Except ErrKind Unit × σ) := do
  let env : Env σ := ⟨F, S, options, .dynamic⟩
  let (r, s) ← Encoder.new env fmt out
  match r with
  | .error k => return (.error k, s)
  | .ok e => do
    let (r, e, buf) ← copyLoop env R inData e []
    match r with
    | .error k => return (.error k, ← dropBuffered env e buf)
    | .ok () => do
      -- `into_inner`
      let (r, e, buf) ← flushBuf env e buf
      match r with
      | .error k => return (.error k, ← dropBuffered env e buf)
      | .ok () => finish env e

/-- std `BufWriter::write_all` -/
def bufWriteAll [Checks] {σ : Type} (env : Env σ) (b : BufEncoder σ) (data : List UInt8) :
    Option (Except ErrKind Unit × BufEncoder σ) :=
  let spare := MASTER_BLOCK_SIZE - b.buf.length
  if data.length < spare then some (.ok (), ⟨b.inner, b.buf ++ data⟩)
  else do
    let (r, e, buf) ← (if data.length > spare then flushBuf env b.inner b.buf else some (.ok (), b.inner, b.buf))
    match r with
    | .error k => return (.error k, ⟨e, buf⟩)
    | .ok () =>
      if data.length ≥ MASTER_BLOCK_SIZE then do
        let (r, e, _) ← flushBuf env e data
        return (r, ⟨e, buf⟩)
      else return (.ok (), ⟨e, buf ++ data⟩)

/-- std `BufferedReaderSpec::copy_to` -/
def copyTo [Checks] {σ ρ : Type} (env : Env σ) (src : Source ρ) (r : ρ) (b : BufEncoder σ) : Option (Except ErrKind Unit × BufEncoder σ) :=
  match src.next r with
  | (.ok [], _) => some (.ok (), b)
  | (.ok (x :: xs), r) =>
    match bufWriteAll env b (x :: xs) with
    | none => none
    | some (.ok (), b) => copyTo env src r b
    | some (.error k, b) => some (.error k, b)
  | (.error .interrupted, r) => copyTo env src r b
  | (.error k, _) => some (.error k, b)
partial_fixpoint

/-- std `BufWriter::into_inner`, then `finish` -/
def intoInnerFinish [Checks] {σ : Type} (env : Env σ) (b : BufEncoder σ) : Option (Except ErrKind Unit × σ) := do
  let (r, e, buf) ← flushBuf env b.inner b.buf
  match r with
  | .error k => return (.error k, ← dropBuffered env e buf)
  | .ok () => finish env e

/-- src/lib.rs:155-181 `compress` for a reader that lends its buffer, such as a byte slice -/
def compressFrom [Checks] {σ ρ : Type} (F : FloatOps) (S : Sink σ) (src : Source ρ) (options : Options) (fmt : Format)
    (inData : ρ) (out : σ) : Option (Except ErrKind Unit × σ) := do
  let env : Env σ := ⟨F, S, options, .dynamic⟩
  let (r, s) ← BufEncoder.new env fmt out
  match r with
  | .error k => return (.error k, s)
  | .ok b => do
    let (r, b) ← copyTo env src inData b
    match r with
    | .error k => return (.error k, ← dropBuffered env b.inner b.buf)
    | .ok () => intoInnerFinish env b

end Direct
end Zopfli
