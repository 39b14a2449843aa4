import Verif.Model.WordsPart
import Verif.Model.Buffered
import Verif.Spec.Session
/-!
# The encoders on a target whose `usize` has `W` bits

The functions of `Model/Writer.lean`, `Model/Encoder.lean`, `Model/Compress.lean` and `Model/Buffered.lean`, with the computations of
`Model/WordsPart.lean` and a byte counter (`BitwiseWriter::len`) of `W` bits.  Lengths of buffers in memory fit in a `usize` and are not
checked.  In a build with overflow checks the sums and differences of the counter made for log messages (src/deflate.rs:846, 859, 879) could
overflow too; they are not modelled here, and nothing is claimed of encoders in such a build.
-/

namespace Zopfli.Words

/-! ## Writing bits -/

/-- src/deflate.rs:1333-1336 `add_bytes`; the counter is a number of `W` bits -/
def addBytes [Checks] {σ : Type} (W : Nat) (S : Sink σ) (w : BitwiseWriter σ) (bytes : List UInt8) :
    Option (Except ErrKind Unit × BitwiseWriter σ) := do
  let len ← usize W (w.len + bytes.length)
  let (r, out) ← S.writeAll w.out bytes
  return (r, { w with len := len, out := out })

/-- src/deflate.rs:1370-1378 `finish_partial_bits` -/
def finishPartialBits [Checks] {σ : Type} (W : Nat) (S : Sink σ) (w : BitwiseWriter σ) :
    Option (Except ErrKind Unit × BitwiseWriter σ) :=
  if w.bp ≠ 0 then do
    let (r, w) ← addBytes W S w [w.bit]
    match r with
    | .ok () => return (.ok (), { w with bit := 0, bp := 0 })
    | .error e => return (.error e, w)
  else some (.ok (), w)

/-- src/deflate.rs:1338-1346 `add_bit` -/
def addBit [Checks] {σ : Type} (W : Nat) (S : Sink σ) (w : BitwiseWriter σ) (bit : Bool) :
    Option (Except ErrKind Unit × BitwiseWriter σ) :=
  if Checks.on = true ∧ 8 ≤ w.bp then none
  else
    let w := { w with bit := w.bit ||| ((if bit then 1 else 0) <<< w.bp), bp := w.bp + 1 }
    if w.bp = 8 then finishPartialBits W S w else some (.ok (), w)

/-- Execute one operation. -/
def exec [Checks] {σ : Type} (W : Nat) (S : Sink σ) (w : BitwiseWriter σ) : WOp →
    Option (Except ErrKind Unit × BitwiseWriter σ)
  | .bit b => addBit W S w b
  | .align => finishPartialBits W S w
  | .bytes l => addBytes W S w l

/-- Execute operations until the first error. -/
def execAll [Checks] {σ : Type} (W : Nat) (S : Sink σ) (w : BitwiseWriter σ) : List WOp →
    Option (Except ErrKind Unit × BitwiseWriter σ)
  | [] => some (.ok (), w)
  | op :: ops => do
    let (r, w) ← exec W S w op
    match r with
    | .ok () => execAll W S w ops
    | .error e => return (.error e, w)

/-! ## The encoder of deflate -/

/-- src/deflate.rs:87-97 `compress_chunk` -/
def compressChunk [Checks] {σ : Type} (W : Nat) (env : Env σ) (e : DeflateEncoder σ) (isLast : Bool) :
    Option (Except ErrKind Unit × DeflateEncoder σ) := do
  let w ← e.bitwiseWriter
  let ops ← deflatePart W env.F env.options env.btype isLast e.windowAndChunk e.chunkStart e.windowAndChunk.size
  let (r, w) ← execAll W env.S w ops
  return (r, { e with bitwiseWriter := some w })

/-- src/deflate.rs:125-136 `__finish` -/
def deflateFinishInner [Checks] {σ : Type} (W : Nat) (env : Env σ) (e : DeflateEncoder σ) :
    Option (Except ErrKind (Option σ) × DeflateEncoder σ × Option σ) :=
  match e.bitwiseWriter with
  | none => some (.ok none, e, none)
  | some _ => do
    let (r, e) ← compressChunk W env e true
    match r with
    | .error k => return (.error k, e, e.bitwiseWriter.map (·.out))
    | .ok () => do
      let w ← e.bitwiseWriter
      let (r, w) ← finishPartialBits W env.S w
      let e := { e with bitwiseWriter := none }
      match r with
      | .error k => return (.error k, e, some w.out)
      | .ok () => return (.ok (some w.out), e, some w.out)

/-- src/deflate.rs:140-152 `write` -/
def deflateWrite [Checks] {σ : Type} (W : Nat) (env : Env σ) (e : DeflateEncoder σ) (buf : List UInt8) :
    Option (Except ErrKind Nat × DeflateEncoder σ) := do
  let (r, e) ← (if e.haveChunk then compressChunk W env e false else some (.ok (), e))
  match r with
  | .error k => return (.error k, e)
  | .ok () => return (.ok buf.length, e.setChunk buf)

/-- src/deflate.rs:159-163 `drop`, the sink being in state `sink` before -/
def deflateDropWith [Checks] {σ : Type} (W : Nat) (env : Env σ) (e : DeflateEncoder σ) (sink : σ) : Option σ := do
  let (_, _, s) ← deflateFinishInner W env e
  return s.getD sink

/-- src/deflate.rs:159-163 `drop` -/
def deflateDrop [Checks] {σ : Type} (W : Nat) (env : Env σ) (e : DeflateEncoder σ) : Option σ := do
  let w ← e.bitwiseWriter
  deflateDropWith W env e w.out

/-- src/deflate.rs:79-81 `finish` -/
def deflateFinish [Checks] {σ : Type} (W : Nat) (env : Env σ) (e : DeflateEncoder σ) : Option (Except ErrKind Unit × σ) := do
  let (r, e, s) ← deflateFinishInner W env e
  match r with
  | .ok none => none                       -- `sink.unwrap()` panics
  | .ok (some _) => return (.ok (), ← deflateDropWith W env e (← s))
  | .error k => return (.error k, ← deflateDropWith W env e (← s))

/-! ## The encoders of gzip and zlib -/

/-- src/gzip.rs:82-92 `write` -/
def gzipWrite [Checks] {σ : Type} (W : Nat) (env : Env σ) (e : GzipEncoder σ) (buf : List UInt8) :
    Option (Except ErrKind Nat × GzipEncoder σ) := do
  let d ← e.deflate
  let (r, d) ← deflateWrite W env d buf
  match r with
  | .error k => return (.error k, { e with deflate := some d })
  | .ok n => return (.ok n, ⟨some d, (buf.take n).foldl crcUpdate e.crc, e.inputSize + UInt32.ofNat n⟩)

/-- src/gzip.rs:67-78 `__finish` -/
def gzipFinishInner [Checks] {σ : Type} (W : Nat) (env : Env σ) (e : GzipEncoder σ) (d : DeflateEncoder σ) :
    Option (Except ErrKind Unit × σ) := do
  let (r, sink) ← deflateFinish W env d
  match r with
  | .error k => return (.error k, sink)
  | .ok () => do
    let (r, sink) ← env.S.writeAll sink (toLeBytes (crcFinalize e.crc))
    match r with
    | .error k => return (.error k, sink)
    | .ok () => env.S.writeAll sink (toLeBytes e.inputSize)

/-- src/gzip.rs:63-65 `finish` -/
def gzipFinish [Checks] {σ : Type} (W : Nat) (env : Env σ) (e : GzipEncoder σ) : Option (Except ErrKind Unit × σ) := do
  gzipFinishInner W env e (← e.deflate)

/-- src/gzip.rs:99-103 `drop` -/
def gzipDrop [Checks] {σ : Type} (W : Nat) (env : Env σ) (e : GzipEncoder σ) : Option σ := do
  return (← gzipFinishInner W env e (← e.deflate)).2

/-- src/zlib.rs:76-85 `write` -/
def zlibWrite [Checks] {σ : Type} (W : Nat) (env : Env σ) (e : ZlibEncoder σ) (buf : List UInt8) :
    Option (Except ErrKind Nat × ZlibEncoder σ) := do
  let d ← e.deflate
  let (r, d) ← deflateWrite W env d buf
  match r with
  | .error k => return (.error k, { e with deflate := some d })
  | .ok n => return (.ok n, ⟨some d, (buf.take n).foldl Adler.update e.adler⟩)

/-- src/zlib.rs:62-72 `__finish` -/
def zlibFinishInner [Checks] {σ : Type} (W : Nat) (env : Env σ) (e : ZlibEncoder σ) (d : DeflateEncoder σ) :
    Option (Except ErrKind Unit × σ) := do
  let (r, sink) ← deflateFinish W env d
  match r with
  | .error k => return (.error k, sink)
  | .ok () => env.S.writeAll sink (toBeBytes e.adler.finish)

/-- src/zlib.rs:58-60 `finish` -/
def zlibFinish [Checks] {σ : Type} (W : Nat) (env : Env σ) (e : ZlibEncoder σ) : Option (Except ErrKind Unit × σ) := do
  zlibFinishInner W env e (← e.deflate)

/-- src/zlib.rs:92-96 `drop` -/
def zlibDrop [Checks] {σ : Type} (W : Nat) (env : Env σ) (e : ZlibEncoder σ) : Option σ := do
  return (← zlibFinishInner W env e (← e.deflate)).2

/-! ## An encoder of any format, and sessions -/

/-- `Write::write` of the encoder: src/gzip.rs:82, src/zlib.rs:76, src/deflate.rs:140 -/
def write [Checks] {σ : Type} (W : Nat) (env : Env σ) (e : Encoder σ) (buf : List UInt8) :
    Option (Except ErrKind Nat × Encoder σ) :=
  match e with
  | .gzip e => do let (r, e) ← gzipWrite W env e buf; return (r, .gzip e)
  | .zlib e => do let (r, e) ← zlibWrite W env e buf; return (r, .zlib e)
  | .deflate e => do let (r, e) ← deflateWrite W env e buf; return (r, .deflate e)

/-- `finish` of the encoder: src/gzip.rs:63, src/zlib.rs:58, src/deflate.rs:79 -/
def finish [Checks] {σ : Type} (W : Nat) (env : Env σ) (e : Encoder σ) : Option (Except ErrKind Unit × σ) :=
  match e with
  | .gzip e => gzipFinish W env e
  | .zlib e => zlibFinish W env e
  | .deflate e => deflateFinish W env e

/-- `drop` of the encoder: src/gzip.rs:99, src/zlib.rs:92, src/deflate.rs:159 -/
def drop [Checks] {σ : Type} (W : Nat) (env : Env σ) (e : Encoder σ) : Option σ :=
  match e with
  | .gzip e => gzipDrop W env e
  | .zlib e => zlibDrop W env e
  | .deflate e => deflateDrop W env e

/-- Make the calls in order, up to and including the first one that fails.  (`flush` does not compute anything.) -/
def run [Checks] {σ : Type} (W : Nat) (env : Env σ) : List Call → Encoder σ → Option (Except ErrKind Unit × Encoder σ)
  | [], e => some (.ok (), e)
  | .write buf :: l, e => do
    let (r, e) ← write W env e buf
    match r with
    | .ok _ => run W env l e
    | .error k => return (.error k, e)
  | .flush :: l, e => do
    let (r, e) ← e.flush env
    match r with
    | .ok () => run W env l e
    | .error k => return (.error k, e)

/-- A whole session: create an encoder, make the calls, end. -/
def session [Checks] {σ : Type} (W : Nat) (env : Env σ) (fmt : Format) (calls : List Call) (ending : Ending) (sink : σ) :
    Option (Except ErrKind Unit × σ) := do
  let (r, s) ← Encoder.new env fmt sink
  match r with
  | .error k => return (.error k, s)
  | .ok e => do
    let (r, e) ← run W env calls e
    match r with
    | .error k => return (.error k, ← drop W env e)
    | .ok () =>
      match ending with
      | .finish => finish W env e
      | .drop => return (.ok (), ← drop W env e)

/-! ## `compress` -/

/-- std `BufWriter::flush_buf` over an encoder -/
def flushBuf [Checks] {σ : Type} (W : Nat) (env : Env σ) (e : Encoder σ) (buf : List UInt8) :
    Option (Except ErrKind Unit × Encoder σ × List UInt8) :=
  if buf = [] then some (.ok (), e, [])
  else do
    let (r, e) ← write W env e buf
    match r with
    | .ok 0 => return (.error .writeZero, e, buf)
    | .ok (n + 1) => flushBuf W env e (buf.drop (n + 1))
    | .error .interrupted => flushBuf W env e buf
    | .error k => return (.error k, e, buf)
partial_fixpoint

/-- std `io::copy` into a `BufWriter` of capacity 1,000,000 (src/util.rs:19) -/
def copyLoop [Checks] {σ ρ : Type} (W : Nat) (env : Env σ) (R : Reader ρ) (r : ρ) (e : Encoder σ) (buf : List UInt8) :
    Option (Except ErrKind Unit × Encoder σ × List UInt8) :=
  let room := MASTER_BLOCK_SIZE - buf.length
  if DEFAULT_BUF_SIZE ≤ room then
    match R.read r room with
    | (.ok [], _) => some (.ok (), e, buf)
    | (.ok (b :: bs), r) => if (b :: bs).length ≤ room then copyLoop W env R r e (buf ++ b :: bs) else none
    | (.error .interrupted, r) => copyLoop W env R r e buf
    | (.error k, _) => some (.error k, e, buf)
  else
    match flushBuf W env e buf with
    | none => none
    | some (.error k, e, buf) => some (.error k, e, buf)
    | some (.ok (), e, buf) => copyLoop W env R r e buf
partial_fixpoint

/-- Dropping the `BufWriter` on an error path -/
def dropBuffered [Checks] {σ : Type} (W : Nat) (env : Env σ) (e : Encoder σ) (buf : List UInt8) : Option σ := do
  let (_, e, _) ← flushBuf W env e buf
  drop W env e

/-- src/lib.rs:155-181 `compress` -/
def compress [Checks] {σ ρ : Type} (W : Nat) (F : FloatOps) (S : Sink σ) (R : Reader ρ) (options : Options) (fmt : Format)
    (inData : ρ) (out : σ) : Option (Except ErrKind Unit × σ) := do
  let env : Env σ := ⟨F, S, options, .dynamic⟩
  let (r, s) ← Encoder.new env fmt out
  match r with
  | .error k => return (.error k, s)
  | .ok e => do
    let (r, e, buf) ← copyLoop W env R inData e []
    match r with
    | .error k => return (.error k, ← dropBuffered W env e buf)
    | .ok () => do
      -- `into_inner`
      let (r, e, buf) ← flushBuf W env e buf
      match r with
      | .error k => return (.error k, ← dropBuffered W env e buf)
      | .ok () => finish W env e

/-- std `BufWriter::write_all` -/
def bufWriteAll [Checks] {σ : Type} (W : Nat) (env : Env σ) (b : BufEncoder σ) (data : List UInt8) :
    Option (Except ErrKind Unit × BufEncoder σ) :=
  let spare := MASTER_BLOCK_SIZE - b.buf.length
  if data.length < spare then some (.ok (), ⟨b.inner, b.buf ++ data⟩)
  else do
    let (r, e, buf) ← (if data.length > spare then flushBuf W env b.inner b.buf else some (.ok (), b.inner, b.buf))
    match r with
    | .error k => return (.error k, ⟨e, buf⟩)
    | .ok () =>
      if data.length ≥ MASTER_BLOCK_SIZE then do
        let (r, e, _) ← flushBuf W env e data
        return (r, ⟨e, buf⟩)
      else return (.ok (), ⟨e, buf ++ data⟩)

/-- std `BufferedReaderSpec::copy_to` -/
def copyTo [Checks] {σ ρ : Type} (W : Nat) (env : Env σ) (src : Source ρ) (r : ρ) (b : BufEncoder σ) : Option (Except ErrKind Unit × BufEncoder σ) :=
  match src.next r with
  | (.ok [], _) => some (.ok (), b)
  | (.ok (x :: xs), r) =>
    match bufWriteAll W env b (x :: xs) with
    | none => none
    | some (.ok (), b) => copyTo W env src r b
    | some (.error k, b) => some (.error k, b)
  | (.error .interrupted, r) => copyTo W env src r b
  | (.error k, _) => some (.error k, b)
partial_fixpoint

/-- std `BufWriter::into_inner`, then `finish` -/
def intoInnerFinish [Checks] {σ : Type} (W : Nat) (env : Env σ) (b : BufEncoder σ) : Option (Except ErrKind Unit × σ) := do
  let (r, e, buf) ← flushBuf W env b.inner b.buf
  match r with
  | .error k => return (.error k, ← dropBuffered W env e buf)
  | .ok () => finish W env e

/-- src/lib.rs:155-181 `compress` for a reader that lends its buffer, such as a byte slice -/
def compressFrom [Checks] {σ ρ : Type} (W : Nat) (F : FloatOps) (S : Sink σ) (src : Source ρ) (options : Options) (fmt : Format)
    (inData : ρ) (out : σ) : Option (Except ErrKind Unit × σ) := do
  let env : Env σ := ⟨F, S, options, .dynamic⟩
  let (r, s) ← BufEncoder.new env fmt out
  match r with
  | .error k => return (.error k, s)
  | .ok b => do
    let (r, b) ← copyTo W env src inData b
    match r with
    | .error k => return (.error k, ← dropBuffered W env b.inner b.buf)
    | .ok () => intoInnerFinish W env b

end Zopfli.Words
