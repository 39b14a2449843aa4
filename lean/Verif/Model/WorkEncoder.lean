import Verif.Model.Work
import Verif.Spec.Session
/-!
# The encoders again, counting steps

Every function of `Model/Encoder.lean` and `Model/Compress.lean` that compresses, as in `Model/Work.lean`.  The steps the sink takes are its own
and not counted; giving it a bit is a step, and counted where the bit is made.
-/

namespace Zopfli
namespace Work

variable {σ : Type}

/-- src/deflate.rs:87-97 `compress_chunk` -/
def compressChunk [Checks] (E : Nat) (env : Env σ) (e : DeflateEncoder σ) (isLast : Bool) : Work (Except ErrKind Unit × DeflateEncoder σ) := do
  let w ← lift e.bitwiseWriter
  let ops ← deflatePart E env.F env.options env.btype isLast e.windowAndChunk e.chunkStart e.windowAndChunk.size
  let (r, w) ← lift (w.execAll env.S ops)
  return (r, { e with bitwiseWriter := some w })

/-- src/deflate.rs:102-118 `set_chunk`: the window is moved, the buffer is copied -/
def setChunk (e : DeflateEncoder σ) (chunk : List UInt8) : Work (DeflateEncoder σ) := do
  tick (32768 + chunk.length)
  return e.setChunk chunk

/-- src/deflate.rs:125-136 `__finish` -/
def finishInner [Checks] (E : Nat) (env : Env σ) (e : DeflateEncoder σ) : Work (Except ErrKind (Option σ) × DeflateEncoder σ × Option σ) :=
  match e.bitwiseWriter with
  | none => pure (.ok none, e, none)
  | some _ => do
    let (r, e) ← compressChunk E env e true
    match r with
    | .error k => return (.error k, e, e.bitwiseWriter.map (·.out))
    | .ok () => do
      let w ← lift e.bitwiseWriter
      tick 8
      let (r, w) ← lift (w.finishPartialBits env.S)
      let e := { e with bitwiseWriter := none }
      match r with
      | .error k => return (.error k, e, some w.out)
      | .ok () => return (.ok (some w.out), e, some w.out)

/-- src/deflate.rs:140-152 `write` -/
def deflateWrite [Checks] (E : Nat) (env : Env σ) (e : DeflateEncoder σ) (buf : List UInt8) : Work (Except ErrKind Nat × DeflateEncoder σ) := do
  let (r, e) ← (if e.haveChunk then compressChunk E env e false else pure (.ok (), e))
  match r with
  | .error k => return (.error k, e)
  | .ok () => do
    let e ← setChunk e buf
    return (.ok buf.length, e)

/-- src/deflate.rs:159-163 `drop` -/
def dropWith [Checks] (E : Nat) (env : Env σ) (e : DeflateEncoder σ) (sink : σ) : Work σ := do
  let (_, _, s) ← finishInner E env e
  return s.getD sink

/-- src/deflate.rs:159-163 `drop` -/
def deflateDrop [Checks] (E : Nat) (env : Env σ) (e : DeflateEncoder σ) : Work σ := do
  let w ← lift e.bitwiseWriter
  dropWith E env e w.out

/-- src/deflate.rs:79-81 `finish` -/
def deflateFinish [Checks] (E : Nat) (env : Env σ) (e : DeflateEncoder σ) : Work (Except ErrKind Unit × σ) := do
  let (r, e, s) ← finishInner E env e
  match r with
  | .ok none => none
  | .ok (some _) => do
    let sink ← lift s
    let sink ← dropWith E env e sink
    return (.ok (), sink)
  | .error k => do
    let sink ← lift s
    let sink ← dropWith E env e sink
    return (.error k, sink)

/-- src/gzip.rs:82-92 `write`: the checksum takes a step for each byte -/
def gzipWrite [Checks] (E : Nat) (env : Env σ) (e : GzipEncoder σ) (buf : List UInt8) : Work (Except ErrKind Nat × GzipEncoder σ) := do
  let d ← lift e.deflate
  let (r, d) ← deflateWrite E env d buf
  match r with
  | .error k => return (.error k, { e with deflate := some d })
  | .ok n => do
    tick (buf.take n).length
    return (.ok n, ⟨some d, (buf.take n).foldl crcUpdate e.crc, e.inputSize + UInt32.ofNat n⟩)

/-- src/gzip.rs:67-78 `__finish` -/
def gzipFinishInner [Checks] (E : Nat) (env : Env σ) (e : GzipEncoder σ) (d : DeflateEncoder σ) : Work (Except ErrKind Unit × σ) := do
  let (r, sink) ← deflateFinish E env d
  match r with
  | .error k => return (.error k, sink)
  | .ok () => do
    tick 8
    let (r, sink) ← lift (env.S.writeAll sink (toLeBytes (crcFinalize e.crc)))
    match r with
    | .error k => return (.error k, sink)
    | .ok () => lift (env.S.writeAll sink (toLeBytes e.inputSize))

/-- src/zlib.rs:76-85 `write`: the checksum takes a step for each byte -/
def zlibWrite [Checks] (E : Nat) (env : Env σ) (e : ZlibEncoder σ) (buf : List UInt8) : Work (Except ErrKind Nat × ZlibEncoder σ) := do
  let d ← lift e.deflate
  let (r, d) ← deflateWrite E env d buf
  match r with
  | .error k => return (.error k, { e with deflate := some d })
  | .ok n => do
    tick (buf.take n).length
    return (.ok n, ⟨some d, (buf.take n).foldl Adler.update e.adler⟩)

/-- src/zlib.rs:62-72 `__finish` -/
def zlibFinishInner [Checks] (E : Nat) (env : Env σ) (e : ZlibEncoder σ) (d : DeflateEncoder σ) : Work (Except ErrKind Unit × σ) := do
  let (r, sink) ← deflateFinish E env d
  match r with
  | .error k => return (.error k, sink)
  | .ok () => do
    tick 4
    lift (env.S.writeAll sink (toBeBytes e.adler.finish))

/-- `Write::write` of the encoder: src/gzip.rs:82, src/zlib.rs:76, src/deflate.rs:140 -/
def write [Checks] (E : Nat) (env : Env σ) (e : Encoder σ) (buf : List UInt8) : Work (Except ErrKind Nat × Encoder σ) :=
  match e with
  | .gzip e => do let (r, e) ← gzipWrite E env e buf; return (r, .gzip e)
  | .zlib e => do let (r, e) ← zlibWrite E env e buf; return (r, .zlib e)
  | .deflate e => do let (r, e) ← deflateWrite E env e buf; return (r, .deflate e)

/-- `Write::flush` of the encoder forwards to the sink: src/gzip.rs:94, src/zlib.rs:87, src/deflate.rs:154 -/
def flush (env : Env σ) (e : Encoder σ) : Work (Except ErrKind Unit × Encoder σ) := do
  tick 1
  lift (e.flush env)

/-- `finish` of the encoder: src/gzip.rs:63, src/zlib.rs:58, src/deflate.rs:79 -/
def finish [Checks] (E : Nat) (env : Env σ) (e : Encoder σ) : Work (Except ErrKind Unit × σ) :=
  match e with
  | .gzip e => do let d ← lift e.deflate; gzipFinishInner E env e d
  | .zlib e => do let d ← lift e.deflate; zlibFinishInner E env e d
  | .deflate e => deflateFinish E env e

/-- `drop` of an unfinished encoder: src/gzip.rs:99, src/zlib.rs:92, src/deflate.rs:159 -/
def drop [Checks] (E : Nat) (env : Env σ) (e : Encoder σ) : Work σ :=
  match e with
  | .gzip e => do let d ← lift e.deflate; let (_, s) ← gzipFinishInner E env e d; return s
  | .zlib e => do let d ← lift e.deflate; let (_, s) ← zlibFinishInner E env e d; return s
  | .deflate e => deflateDrop E env e

/-- Make the calls in order, up to and including the first one that fails. -/
def run [Checks] (E : Nat) (env : Env σ) : List Call → Encoder σ → Work (Except ErrKind Unit × Encoder σ)
  | [], e => pure (.ok (), e)
  | .write buf :: l, e => do
    let (r, e) ← write E env e buf
    match r with
    | .ok _ => run E env l e
    | .error k => return (.error k, e)
  | .flush :: l, e => do
    let (r, e) ← flush env e
    match r with
    | .ok () => run E env l e
    | .error k => return (.error k, e)

/-- A whole session, counting steps: create an encoder, make the calls, end. -/
def session [Checks] (E : Nat) (env : Env σ) (fmt : Format) (calls : List Call) (ending : Ending) (sink : σ) : Work (Except ErrKind Unit × σ) := do
  tick 10
  let (r, s) ← lift (Encoder.new env fmt sink)
  match r with
  | .error k => return (.error k, s)
  | .ok e => do
    let (r, e) ← run E env calls e
    match r with
    | .error k => do
      let s ← drop E env e
      return (.error k, s)
    | .ok () =>
      match ending with
      | .finish => finish E env e
      | .drop => do
        let s ← drop E env e
        return (.ok (), s)

end Work
end Zopfli
