import Verif.Model.Buffered
import Verif.Spec.Session
/-!
# Encoders over a sink with its own `write_all`

`write_all` is a provided method of `Write` (src/io.rs:69-81): a sink may have its own, as the byte slice and the vector have
(src/io.rs:114-120, 137-141; in std also `Stdout`, `Cursor`, `BufWriter` and others).  The encoders never call `write` of their sink, only
`write_all` and `flush`.  These are the functions of `Model/Writer.lean`, `Model/Encoder.lean`, `Model/Compress.lean` and
`Model/Buffered.lean` once more, over such a sink.
-/

namespace Zopfli

/-- src/io.rs:12-94: a sink with all the methods of the `Write` trait (`by_ref` returns the sink itself).  `none` for a `write_all` that
panics or never returns. -/
structure OwnSink (σ : Type) where
  write : σ → List UInt8 → Except ErrKind Nat × σ
  flush : σ → Except ErrKind Unit × σ
  writeAll : σ → List UInt8 → Option (Except ErrKind Unit × σ)

/-- src/io.rs:144-157 `impl Write for &mut W`: every call is passed on.  The state of the reference is that of the sink behind it. -/
def OwnSink.byRef {σ : Type} (S : OwnSink σ) : OwnSink σ where
  write s buf := S.write s buf
  flush s := S.flush s
  writeAll s buf := S.writeAll s buf

/-- What an encoder is given: src/deflate.rs:25-36 (as `Env` in Model/Encoder.lean). -/
structure OwnEnv (σ : Type) where
  F : FloatOps
  S : OwnSink σ
  options : Options
  btype : BlockType

end Zopfli

namespace Zopfli.Own

/-! ## Writing bits -/

/-- src/deflate.rs:1333-1336 `add_bytes` -/
def addBytes {σ : Type} (S : OwnSink σ) (w : BitwiseWriter σ) (bytes : List UInt8) :
    Option (Except ErrKind Unit × BitwiseWriter σ) := do
  let (r, out) ← S.writeAll w.out bytes
  return (r, { w with len := w.len + bytes.length, out := out })

/-- src/deflate.rs:1370-1378 `finish_partial_bits` -/
def finishPartialBits {σ : Type} (S : OwnSink σ) (w : BitwiseWriter σ) :
    Option (Except ErrKind Unit × BitwiseWriter σ) :=
  if w.bp ≠ 0 then do
    let (r, w) ← addBytes S w [w.bit]
    match r with
    | .ok () => return (.ok (), { w with bit := 0, bp := 0 })
    | .error e => return (.error e, w)
  else some (.ok (), w)

/-- src/deflate.rs:1338-1346 `add_bit` -/
def addBit [Checks] {σ : Type} (S : OwnSink σ) (w : BitwiseWriter σ) (bit : Bool) :
    Option (Except ErrKind Unit × BitwiseWriter σ) :=
  if Checks.on = true ∧ 8 ≤ w.bp then none
  else
    let w := { w with bit := w.bit ||| ((if bit then 1 else 0) <<< w.bp), bp := w.bp + 1 }
    if w.bp = 8 then finishPartialBits S w else some (.ok (), w)

/-- Execute one operation. -/
def exec [Checks] {σ : Type} (S : OwnSink σ) (w : BitwiseWriter σ) : WOp →
    Option (Except ErrKind Unit × BitwiseWriter σ)
  | .bit b => addBit S w b
  | .align => finishPartialBits S w
  | .bytes l => addBytes S w l

/-- Execute operations until the first error. -/
def execAll [Checks] {σ : Type} (S : OwnSink σ) (w : BitwiseWriter σ) : List WOp →
    Option (Except ErrKind Unit × BitwiseWriter σ)
  | [] => some (.ok (), w)
  | op :: ops => do
    let (r, w) ← exec S w op
    match r with
    | .ok () => execAll S w ops
    | .error e => return (.error e, w)

/-! ## The encoder of deflate -/

/-- src/deflate.rs:87-97 `compress_chunk` -/
def compressChunk [Checks] {σ : Type} (env : OwnEnv σ) (e : DeflateEncoder σ) (isLast : Bool) :
    Option (Except ErrKind Unit × DeflateEncoder σ) := do
  let w ← e.bitwiseWriter
  let ops ← deflatePart env.F env.options env.btype isLast e.windowAndChunk e.chunkStart e.windowAndChunk.size
  let (r, w) ← execAll env.S w ops
  return (r, { e with bitwiseWriter := some w })

/-- src/deflate.rs:125-136 `__finish` -/
def deflateFinishInner [Checks] {σ : Type} (env : OwnEnv σ) (e : DeflateEncoder σ) :
    Option (Except ErrKind (Option σ) × DeflateEncoder σ × Option σ) :=
  match e.bitwiseWriter with
  | none => some (.ok none, e, none)
  | some _ => do
    let (r, e) ← compressChunk env e true
    match r with
    | .error k => return (.error k, e, e.bitwiseWriter.map (·.out))
    | .ok () => do
      let w ← e.bitwiseWriter
      let (r, w) ← finishPartialBits env.S w
      let e := { e with bitwiseWriter := none }
      match r with
      | .error k => return (.error k, e, some w.out)
      | .ok () => return (.ok (some w.out), e, some w.out)

/-- src/deflate.rs:140-152 `write` -/
def deflateWrite [Checks] {σ : Type} (env : OwnEnv σ) (e : DeflateEncoder σ) (buf : List UInt8) :
    Option (Except ErrKind Nat × DeflateEncoder σ) := do
  let (r, e) ← (if e.haveChunk then compressChunk env e false else some (.ok (), e))
  match r with
  | .error k => return (.error k, e)
  | .ok () => return (.ok buf.length, e.setChunk buf)

/-- src/deflate.rs:154-156 `flush` -/
def deflateFlush {σ : Type} (env : OwnEnv σ) (e : DeflateEncoder σ) : Option (Except ErrKind Unit × DeflateEncoder σ) := do
  let w ← e.bitwiseWriter
  let (r, out) := env.S.flush w.out
  return (r, { e with bitwiseWriter := some { w with out := out } })

/-- src/deflate.rs:159-163 `drop`, the sink being in state `sink` before -/
def deflateDropWith [Checks] {σ : Type} (env : OwnEnv σ) (e : DeflateEncoder σ) (sink : σ) : Option σ := do
  let (_, _, s) ← deflateFinishInner env e
  return s.getD sink

/-- src/deflate.rs:159-163 `drop` -/
def deflateDrop [Checks] {σ : Type} (env : OwnEnv σ) (e : DeflateEncoder σ) : Option σ := do
  let w ← e.bitwiseWriter
  deflateDropWith env e w.out

/-- src/deflate.rs:79-81 `finish` -/
def deflateFinish [Checks] {σ : Type} (env : OwnEnv σ) (e : DeflateEncoder σ) : Option (Except ErrKind Unit × σ) := do
  let (r, e, s) ← deflateFinishInner env e
  match r with
  | .ok none => none                       -- `sink.unwrap()` panics
  | .ok (some _) => return (.ok (), ← deflateDropWith env e (← s))
  | .error k => return (.error k, ← deflateDropWith env e (← s))

/-! ## The encoders of gzip and zlib -/

/-- src/gzip.rs:19-42 `new` -/
def gzipNew {σ : Type} (env : OwnEnv σ) (sink : σ) : Option (Except ErrKind (GzipEncoder σ) × σ) := do
  let (r, sink) ← env.S.writeAll sink gzipHeader
  match r with
  | .error k => return (.error k, sink)
  | .ok () => return (.ok ⟨some (.new sink), 0xFFFFFFFF, 0⟩, sink)

/-- src/zlib.rs:18-32 `new` -/
def zlibNew {σ : Type} (env : OwnEnv σ) (sink : σ) : Option (Except ErrKind (ZlibEncoder σ) × σ) := do
  let (r, sink) ← env.S.writeAll sink zlibHeader
  match r with
  | .error k => return (.error k, sink)
  | .ok () => return (.ok ⟨some (.new sink), .new⟩, sink)

/-- src/gzip.rs:94-96 `flush` -/
def gzipFlush {σ : Type} (env : OwnEnv σ) (e : GzipEncoder σ) : Option (Except ErrKind Unit × GzipEncoder σ) := do
  let d ← e.deflate
  let (r, d) ← deflateFlush env d
  return (r, { e with deflate := some d })

/-- src/zlib.rs:87-89 `flush` -/
def zlibFlush {σ : Type} (env : OwnEnv σ) (e : ZlibEncoder σ) : Option (Except ErrKind Unit × ZlibEncoder σ) := do
  let d ← e.deflate
  let (r, d) ← deflateFlush env d
  return (r, { e with deflate := some d })

/-- src/gzip.rs:82-92 `write` -/
def gzipWrite [Checks] {σ : Type} (env : OwnEnv σ) (e : GzipEncoder σ) (buf : List UInt8) :
    Option (Except ErrKind Nat × GzipEncoder σ) := do
  let d ← e.deflate
  let (r, d) ← deflateWrite env d buf
  match r with
  | .error k => return (.error k, { e with deflate := some d })
  | .ok n => return (.ok n, ⟨some d, (buf.take n).foldl crcUpdate e.crc, e.inputSize + UInt32.ofNat n⟩)

/-- src/gzip.rs:67-78 `__finish` -/
def gzipFinishInner [Checks] {σ : Type} (env : OwnEnv σ) (e : GzipEncoder σ) (d : DeflateEncoder σ) :
    Option (Except ErrKind Unit × σ) := do
  let (r, sink) ← deflateFinish env d
  match r with
  | .error k => return (.error k, sink)
  | .ok () => do
    let (r, sink) ← env.S.writeAll sink (toLeBytes (crcFinalize e.crc))
    match r with
    | .error k => return (.error k, sink)
    | .ok () => env.S.writeAll sink (toLeBytes e.inputSize)

/-- src/gzip.rs:63-65 `finish` -/
def gzipFinish [Checks] {σ : Type} (env : OwnEnv σ) (e : GzipEncoder σ) : Option (Except ErrKind Unit × σ) := do
  gzipFinishInner env e (← e.deflate)

/-- src/gzip.rs:99-103 `drop` -/
def gzipDrop [Checks] {σ : Type} (env : OwnEnv σ) (e : GzipEncoder σ) : Option σ := do
  return (← gzipFinishInner env e (← e.deflate)).2

/-- src/zlib.rs:76-85 `write` -/
def zlibWrite [Checks] {σ : Type} (env : OwnEnv σ) (e : ZlibEncoder σ) (buf : List UInt8) :
    Option (Except ErrKind Nat × ZlibEncoder σ) := do
  let d ← e.deflate
  let (r, d) ← deflateWrite env d buf
  match r with
  | .error k => return (.error k, { e with deflate := some d })
  | .ok n => return (.ok n, ⟨some d, (buf.take n).foldl Adler.update e.adler⟩)

/-- src/zlib.rs:62-72 `__finish` -/
def zlibFinishInner [Checks] {σ : Type} (env : OwnEnv σ) (e : ZlibEncoder σ) (d : DeflateEncoder σ) :
    Option (Except ErrKind Unit × σ) := do
  let (r, sink) ← deflateFinish env d
  match r with
  | .error k => return (.error k, sink)
  | .ok () => env.S.writeAll sink (toBeBytes e.adler.finish)

/-- src/zlib.rs:58-60 `finish` -/
def zlibFinish [Checks] {σ : Type} (env : OwnEnv σ) (e : ZlibEncoder σ) : Option (Except ErrKind Unit × σ) := do
  zlibFinishInner env e (← e.deflate)

/-- src/zlib.rs:92-96 `drop` -/
def zlibDrop [Checks] {σ : Type} (env : OwnEnv σ) (e : ZlibEncoder σ) : Option σ := do
  return (← zlibFinishInner env e (← e.deflate)).2

/-! ## An encoder of any format, and sessions -/

/-- The constructors: src/gzip.rs:19, src/zlib.rs:18, src/deflate.rs:48 -/
def new {σ : Type} (env : OwnEnv σ) (fmt : Format) (sink : σ) : Option (Except ErrKind (Encoder σ) × σ) :=
  match fmt with
  | .gzip => do
    let (r, s) ← gzipNew env sink
    match r with
    | .ok e => return (.ok (.gzip e), s)
    | .error k => return (.error k, s)
  | .zlib => do
    let (r, s) ← zlibNew env sink
    match r with
    | .ok e => return (.ok (.zlib e), s)
    | .error k => return (.error k, s)
  | .deflate => some (.ok (.deflate (.new sink)), sink)

/-- `Write::flush` of the encoder: src/gzip.rs:94, src/zlib.rs:87, src/deflate.rs:154 -/
def flush {σ : Type} (env : OwnEnv σ) (e : Encoder σ) : Option (Except ErrKind Unit × Encoder σ) :=
  match e with
  | .gzip e => do let (r, e) ← gzipFlush env e; return (r, .gzip e)
  | .zlib e => do let (r, e) ← zlibFlush env e; return (r, .zlib e)
  | .deflate e => do let (r, e) ← deflateFlush env e; return (r, .deflate e)

/-- `Write::write` of the encoder: src/gzip.rs:82, src/zlib.rs:76, src/deflate.rs:140 -/
def write [Checks] {σ : Type} (env : OwnEnv σ) (e : Encoder σ) (buf : List UInt8) :
    Option (Except ErrKind Nat × Encoder σ) :=
  match e with
  | .gzip e => do let (r, e) ← gzipWrite env e buf; return (r, .gzip e)
  | .zlib e => do let (r, e) ← zlibWrite env e buf; return (r, .zlib e)
  | .deflate e => do let (r, e) ← deflateWrite env e buf; return (r, .deflate e)

/-- `finish` of the encoder: src/gzip.rs:63, src/zlib.rs:58, src/deflate.rs:79 -/
def finish [Checks] {σ : Type} (env : OwnEnv σ) (e : Encoder σ) : Option (Except ErrKind Unit × σ) :=
  match e with
  | .gzip e => gzipFinish env e
  | .zlib e => zlibFinish env e
  | .deflate e => deflateFinish env e

/-- `drop` of the encoder: src/gzip.rs:99, src/zlib.rs:92, src/deflate.rs:159 -/
def drop [Checks] {σ : Type} (env : OwnEnv σ) (e : Encoder σ) : Option σ :=
  match e with
  | .gzip e => gzipDrop env e
  | .zlib e => zlibDrop env e
  | .deflate e => deflateDrop env e

/-- Make the calls in order, up to and including the first one that fails. -/
def run [Checks] {σ : Type} (env : OwnEnv σ) : List Call → Encoder σ → Option (Except ErrKind Unit × Encoder σ)
  | [], e => some (.ok (), e)
  | .write buf :: l, e => do
    let (r, e) ← write env e buf
    match r with
    | .ok _ => run env l e
    | .error k => return (.error k, e)
  | .flush :: l, e => do
    let (r, e) ← flush env e
    match r with
    | .ok () => run env l e
    | .error k => return (.error k, e)

/-- A whole session: create an encoder, make the calls, end. -/
def session [Checks] {σ : Type} (env : OwnEnv σ) (fmt : Format) (calls : List Call) (ending : Ending) (sink : σ) :
    Option (Except ErrKind Unit × σ) := do
  let (r, s) ← new env fmt sink
  match r with
  | .error k => return (.error k, s)
  | .ok e => do
    let (r, e) ← run env calls e
    match r with
    | .error k => return (.error k, ← drop env e)
    | .ok () =>
      match ending with
      | .finish => finish env e
      | .drop => return (.ok (), ← drop env e)

/-! ## `compress` -/

/-- std `BufWriter::flush_buf` over an encoder -/
def flushBuf [Checks] {σ : Type} (env : OwnEnv σ) (e : Encoder σ) (buf : List UInt8) :
    Option (Except ErrKind Unit × Encoder σ × List UInt8) :=
  if buf = [] then some (.ok (), e, [])
  else do
    let (r, e) ← write env e buf
    match r with
    | .ok 0 => return (.error .writeZero, e, buf)
    | .ok (n + 1) => flushBuf env e (buf.drop (n + 1))
    | .error .interrupted => flushBuf env e buf
    | .error k => return (.error k, e, buf)
partial_fixpoint

/-- std `io::copy` into a `BufWriter` of capacity 1,000,000 (src/util.rs:19) -/
def copyLoop [Checks] {σ ρ : Type} (env : OwnEnv σ) (R : Reader ρ) (r : ρ) (e : Encoder σ) (buf : List UInt8) :
    Option (Except ErrKind Unit × Encoder σ × List UInt8) :=
  let room := MASTER_BLOCK_SIZE - buf.length
  if DEFAULT_BUF_SIZE ≤ room then
    match R.read r room with
    | (.ok [], _) => some (.ok (), e, buf)
    | (.ok (b :: bs), r) => if (b :: bs).length ≤ room then copyLoop env R r e (buf ++ b :: bs) else none
    | (.error .interrupted, r) => copyLoop env R r e buf
    | (.error k, _) => some (.error k, e, buf)
  else
    match flushBuf env e buf with
    | none => none
    | some (.error k, e, buf) => some (.error k, e, buf)
    | some (.ok (), e, buf) => copyLoop env R r e buf
partial_fixpoint

/-- Dropping the `BufWriter` on an error path -/
def dropBuffered [Checks] {σ : Type} (env : OwnEnv σ) (e : Encoder σ) (buf : List UInt8) : Option σ := do
  let (_, e, _) ← flushBuf env e buf
  drop env e

/-- src/lib.rs:155-181 `compress` -/
def compress [Checks] {σ ρ : Type} (F : FloatOps) (S : OwnSink σ) (R : Reader ρ) (options : Options) (fmt : Format)
    (inData : ρ) (out : σ) : Option (Except ErrKind Unit × σ) := do
  let env : OwnEnv σ := ⟨F, S, options, .dynamic⟩
  let (r, s) ← new env fmt out
  match r with
  | .error k => return (.error k, s)
  | .ok e => do
    let (r, e, buf) ← copyLoop env R inData e []
    match r with
    | .error k => return (.error k, ← dropBuffered env e buf)
    | .ok () => do
      -- `into_inner`
      let (r, e, buf) ← flushBuf env e buf
      match r with
      | .error k => return (.error k, ← dropBuffered env e buf)
      | .ok () => finish env e

/-- std `BufWriter::write_all` -/
def bufWriteAll [Checks] {σ : Type} (env : OwnEnv σ) (b : BufEncoder σ) (data : List UInt8) :
    Option (Except ErrKind Unit × BufEncoder σ) :=
  let spare := MASTER_BLOCK_SIZE - b.buf.length
  if data.length < spare then some (.ok (), ⟨b.inner, b.buf ++ data⟩)
  else do
    let (r, e, buf) ← (if data.length > spare then flushBuf env b.inner b.buf else some (.ok (), b.inner, b.buf))
    match r with
    | .error k => return (.error k, ⟨e, buf⟩)
    | .ok () =>
      if data.length ≥ MASTER_BLOCK_SIZE then do
        let (r, e, _) ← flushBuf env e data
        return (r, ⟨e, buf⟩)
      else return (.ok (), ⟨e, buf ++ data⟩)

/-- std `BufferedReaderSpec::copy_to` -/
def copyTo [Checks] {σ ρ : Type} (env : OwnEnv σ) (src : Source ρ) (r : ρ) (b : BufEncoder σ) : Option (Except ErrKind Unit × BufEncoder σ) :=
  match src.next r with
  | (.ok [], _) => some (.ok (), b)
  | (.ok (x :: xs), r) =>
    match bufWriteAll env b (x :: xs) with
    | none => none
    | some (.ok (), b) => copyTo env src r b
    | some (.error k, b) => some (.error k, b)
  | (.error .interrupted, r) => copyTo env src r b
  | (.error k, _) => some (.error k, b)
partial_fixpoint

/-- std `BufWriter::into_inner`, then `finish` -/
def intoInnerFinish [Checks] {σ : Type} (env : OwnEnv σ) (b : BufEncoder σ) : Option (Except ErrKind Unit × σ) := do
  let (r, e, buf) ← flushBuf env b.inner b.buf
  match r with
  | .error k => return (.error k, ← dropBuffered env e buf)
  | .ok () => finish env e

/-- src/deflate.rs:64-69, src/gzip.rs:44-53, src/zlib.rs:39-48 `new_buffered` -/
def bufNew {σ : Type} (env : OwnEnv σ) (fmt : Format) (sink : σ) : Option (Except ErrKind (BufEncoder σ) × σ) := do
  let (r, s) ← new env fmt sink
  match r with
  | .ok e => return (.ok ⟨e, []⟩, s)
  | .error k => return (.error k, s)

/-- src/lib.rs:155-181 `compress` for a reader that lends its buffer, such as a byte slice -/
def compressFrom [Checks] {σ ρ : Type} (F : FloatOps) (S : OwnSink σ) (src : Source ρ) (options : Options) (fmt : Format)
    (inData : ρ) (out : σ) : Option (Except ErrKind Unit × σ) := do
  let env : OwnEnv σ := ⟨F, S, options, .dynamic⟩
  let (r, s) ← bufNew env fmt out
  match r with
  | .error k => return (.error k, s)
  | .ok b => do
    let (r, b) ← copyTo env src inData b
    match r with
    | .error k => return (.error k, ← dropBuffered env b.inner b.buf)
    | .ok () => intoInnerFinish env b

/-- std `BufWriter::write` around an encoder (`BufEncoder.write` of Model/Buffered.lean); src/deflate.rs:64-69, src/gzip.rs:44-53, src/zlib.rs:39-48 -/
def bufWrite [Checks] {σ : Type} (env : OwnEnv σ) (b : BufEncoder σ) (data : List UInt8) : Option (Except ErrKind Nat × BufEncoder σ) :=
  let spare := MASTER_BLOCK_SIZE - b.buf.length
  if data.length < spare then some (.ok data.length, ⟨b.inner, b.buf ++ data⟩)
  else do
    let (r, e, buf) ← (if data.length > spare then flushBuf env b.inner b.buf else some (.ok (), b.inner, b.buf))
    match r with
    | .error k => return (.error k, ⟨e, buf⟩)
    | .ok () =>
      if data.length ≥ MASTER_BLOCK_SIZE then do
        let (r, e) ← write env e data
        return (r, ⟨e, buf⟩)
      else return (.ok data.length, ⟨e, buf ++ data⟩)

/-- std `BufWriter::flush` (`BufEncoder.flush` of Model/Buffered.lean) -/
def bufFlush [Checks] {σ : Type} (env : OwnEnv σ) (b : BufEncoder σ) : Option (Except ErrKind Unit × BufEncoder σ) := do
  let (r, e, buf) ← flushBuf env b.inner b.buf
  match r with
  | .error k => return (.error k, ⟨e, buf⟩)
  | .ok () => do
    let (r, e) ← flush env e
    return (r, ⟨e, buf⟩)

/-- Make the calls in order, up to and including the first one that fails (`BufEncoder.run` of Spec/Buffered.lean). -/
def bufRun [Checks] {σ : Type} (env : OwnEnv σ) : List Call → BufEncoder σ → Option (Except ErrKind Unit × BufEncoder σ)
  | [], b => some (.ok (), b)
  | .write data :: l, b => do
    let (r, b) ← bufWrite env b data
    match r with
    | .ok _ => bufRun env l b
    | .error k => return (.error k, b)
  | .flush :: l, b => do
    let (r, b) ← bufFlush env b
    match r with
    | .ok () => bufRun env l b
    | .error k => return (.error k, b)

/-- A whole session with an encoder made by `new_buffered` (`bufferedSession` of Spec/Buffered.lean). -/
def bufferedSession [Checks] {σ : Type} (env : OwnEnv σ) (fmt : Format) (calls : List Call) (ending : Ending) (sink : σ) :
    Option (Except ErrKind Unit × σ) := do
  let (r, s) ← bufNew env fmt sink
  match r with
  | .error k => return (.error k, s)
  | .ok b => do
    let (r, b) ← bufRun env calls b
    match r with
    | .error k => return (.error k, ← dropBuffered env b.inner b.buf)
    | .ok () =>
      match ending with
      | .finish => intoInnerFinish env b
      | .drop => return (.ok (), ← dropBuffered env b.inner b.buf)

end Zopfli.Own
