import Verif.Spec.Session
/-!
# Sinks and readers that panic

The other models leave out sinks that panic.  Here a call of the sink may also panic.  The panic unwinds the stack: nothing more is
executed in the functions of the encoder, whose state stays as it was at the moment of the panic, until the encoder itself is dropped.  If
another panic happens then, the process is aborted; what the destructors further inside do before this is not modelled.

In builds with overflow checks the encoder itself may panic in `add_bit` (`Model/Writer.lean`).  This is a panic like any other here.
Panics in the rest of the code are `none`, as elsewhere; it is proved (C05) that there are none.
-/

namespace Zopfli

/-- What a call may end with instead of a value: an error that is returned, or a panic. -/
inductive Fault where
  | error (k : ErrKind)
  | panic
deriving DecidableEq

/-- src/io.rs:12-50: a sink that may panic -/
structure WildSink (σ : Type) where
  write : σ → List UInt8 → Except Fault Nat × σ
  flush : σ → Except Fault Unit × σ

/-- How a session may end: with a result, with a panic that has unwound the stack of the client, or with the process aborted. -/
inductive Fate where
  | returned (r : Except ErrKind Unit)
  | panicked
  | aborted

namespace Unwind

/-- src/io.rs:69-81 `write_all`; `&buf[n..]` panics if the sink claims to have written more than it was given. -/
def writeAll {σ : Type} (S : WildSink σ) (s : σ) (buf : List UInt8) : Option (Except Fault Unit × σ) :=
  if buf = [] then some (.ok (), s)
  else
    match S.write s buf with
    | (.ok 0, s) => some (.error (.error .writeZero), s)
    | (.ok (n + 1), s) => if n + 1 ≤ buf.length then writeAll S s (buf.drop (n + 1)) else some (.error .panic, s)
    | (.error (.error .interrupted), s) => writeAll S s buf
    | (.error e, s) => some (.error e, s)
partial_fixpoint

variable {σ : Type}

/-- src/deflate.rs:1333-1336 `add_bytes` -/
def addBytes (S : WildSink σ) (w : BitwiseWriter σ) (bytes : List UInt8) : Option (Except Fault Unit × BitwiseWriter σ) := do
  let (r, out) ← writeAll S w.out bytes
  return (r, { w with len := w.len + bytes.length, out := out })

/-- src/deflate.rs:1370-1378 `finish_partial_bits` -/
def finishPartialBits (S : WildSink σ) (w : BitwiseWriter σ) : Option (Except Fault Unit × BitwiseWriter σ) :=
  if w.bp ≠ 0 then do
    let (r, w) ← addBytes S w [w.bit]
    match r with
    | .ok () => return (.ok (), { w with bit := 0, bp := 0 })
    | .error e => return (.error e, w)
  else some (.ok (), w)

/-- src/deflate.rs:1338-1346 `add_bit`: in a build with overflow checks the shift panics if `bp` is 8 or more. -/
def addBit [Checks] (S : WildSink σ) (w : BitwiseWriter σ) (bit : Bool) : Option (Except Fault Unit × BitwiseWriter σ) :=
  if Checks.on = true ∧ 8 ≤ w.bp then some (.error .panic, w)
  else
    let w := { w with bit := w.bit ||| ((if bit then 1 else 0) <<< w.bp), bp := w.bp + 1 }
    if w.bp = 8 then finishPartialBits S w else some (.ok (), w)

/-- Execute one operation. -/
def exec [Checks] (S : WildSink σ) (w : BitwiseWriter σ) : WOp → Option (Except Fault Unit × BitwiseWriter σ)
  | .bit b => addBit S w b
  | .align => finishPartialBits S w
  | .bytes l => addBytes S w l

/-- Execute operations until the first error or panic. -/
def execAll [Checks] (S : WildSink σ) (w : BitwiseWriter σ) : List WOp → Option (Except Fault Unit × BitwiseWriter σ)
  | [] => some (.ok (), w)
  | op :: ops => do
    let (r, w) ← exec S w op
    match r with
    | .ok () => execAll S w ops
    | .error e => return (.error e, w)

/-- What never changes during the life of an encoder. -/
structure WildEnv (σ : Type) where
  F : FloatOps
  S : WildSink σ
  options : Options
  btype : BlockType

/-- src/deflate.rs:87-97 `compress_chunk` -/
def compressChunk [Checks] (env : WildEnv σ) (e : DeflateEncoder σ) (isLast : Bool) : Option (Except Fault Unit × DeflateEncoder σ) := do
  let w ← e.bitwiseWriter
  let ops ← deflatePart env.F env.options env.btype isLast e.windowAndChunk e.chunkStart e.windowAndChunk.size
  let (r, w) ← execAll env.S w ops
  return (r, { e with bitwiseWriter := some w })

/-- src/deflate.rs:125-136 `__finish`; the writer has been taken when `finish_partial_bits` fails or panics -/
def finishInner [Checks] (env : WildEnv σ) (e : DeflateEncoder σ) : Option (Except Fault (Option σ) × DeflateEncoder σ × Option σ) :=
  match e.bitwiseWriter with
  | none => some (.ok none, e, none)
  | some _ => do
    let (r, e) ← compressChunk env e true
    match r with
    | .error k => return (.error k, e, e.bitwiseWriter.map (·.out))
    | .ok () => do
      let w ← e.bitwiseWriter
      let (r, w) ← finishPartialBits env.S w
      let e := { e with bitwiseWriter := none }
      match r with
      | .error k => return (.error k, e, some w.out)
      | .ok () => return (.ok (some w.out), e, some w.out)

/-- src/deflate.rs:140-152 `write` -/
def deflateWrite [Checks] (env : WildEnv σ) (e : DeflateEncoder σ) (buf : List UInt8) : Option (Except Fault Nat × DeflateEncoder σ) := do
  let (r, e) ← (if e.haveChunk then compressChunk env e false else some (.ok (), e))
  match r with
  | .error k => return (.error k, e)
  | .ok () => return (.ok buf.length, e.setChunk buf)

/-- src/deflate.rs:154-156 `flush` -/
def deflateFlush (env : WildEnv σ) (e : DeflateEncoder σ) : Option (Except Fault Unit × DeflateEncoder σ) := do
  let w ← e.bitwiseWriter
  let (r, out) := env.S.flush w.out
  return (r, { e with bitwiseWriter := some { w with out := out } })

/-- Something ends, and then destructors run, which end with `dropped`.  If the stack is being unwound (before, or because of a panic in what
ended), a panic in the destructors aborts; otherwise it takes the place of the result. -/
def afterDrop (unwinding : Bool) (r : Fate) (dropped : Fate) : Fate :=
  match r, dropped with
  | .aborted, _ => .aborted
  | _, .aborted => .aborted
  | .panicked, .panicked => .aborted
  | .returned _, .panicked => if unwinding then .aborted else .panicked
  | r, .returned _ => r

/-- The outcome of a call that ended with `r`.  A panic while the stack is being unwound aborts. -/
def outcome (unwinding : Bool) : Except Fault Unit → Fate
  | .ok () => .returned (.ok ())
  | .error (.error k) => .returned (.error k)
  | .error .panic => if unwinding then .aborted else .panicked

/-- src/deflate.rs:159-163 `drop`: `__finish` again, its error ignored, but not a panic.  `unwinding`: whether a panic is under way. -/
def dropWith [Checks] (env : WildEnv σ) (unwinding : Bool) (e : DeflateEncoder σ) (sink : σ) : Option (Fate × σ) := do
  let (r, _, s) ← finishInner env e
  return (outcome unwinding (r.map fun _ => ()), s.getD sink)

/-- Dropping an encoder whose sink is still inside it: src/deflate.rs:159-163. -/
def deflateDrop [Checks] (env : WildEnv σ) (unwinding : Bool) (e : DeflateEncoder σ) : Option (Fate × σ) := do
  let w ← e.bitwiseWriter
  dropWith env unwinding e w.out

/-- src/deflate.rs:79-81 `finish`: `__finish`, then `drop`, in the course of unwinding if `__finish` panics -/
def deflateFinish [Checks] (env : WildEnv σ) (unwinding : Bool) (e : DeflateEncoder σ) : Option (Fate × σ) := do
  let (r, e, s) ← finishInner env e
  match r with
  | .ok none => none                       -- `sink.unwrap()` panics
  | .ok (some _) => do
    let (d, s) ← dropWith env unwinding e (← s)
    return (afterDrop unwinding (.returned (.ok ())) d, s)
  | .error (.error k) => do
    let (d, s) ← dropWith env unwinding e (← s)
    return (afterDrop unwinding (.returned (.error k)) d, s)
  | .error .panic =>
    if unwinding then do return (.aborted, ← s)
    else do
      let (d, s) ← dropWith env true e (← s)
      return (afterDrop false .panicked d, s)

/-- src/gzip.rs:19-37 `GzipEncoder::new`, src/zlib.rs:18-32 `ZlibEncoder::new`, src/deflate.rs:48-57 `DeflateEncoder::new` -/
def new (env : WildEnv σ) (fmt : Format) (sink : σ) : Option (Except Fault (Encoder σ) × σ) :=
  match fmt with
  | .gzip => do
    let (r, sink) ← writeAll env.S sink gzipHeader
    match r with
    | .error k => return (.error k, sink)
    | .ok () => return (.ok (.gzip ⟨some (.new sink), 0xFFFFFFFF, 0⟩), sink)
  | .zlib => do
    let (r, sink) ← writeAll env.S sink zlibHeader
    match r with
    | .error k => return (.error k, sink)
    | .ok () => return (.ok (.zlib ⟨some (.new sink), .new⟩), sink)
  | .deflate => some (.ok (.deflate (.new sink)), sink)

/-- src/gzip.rs:82-92, src/zlib.rs:76-85, src/deflate.rs:140-152 `write` -/
def write [Checks] (env : WildEnv σ) (e : Encoder σ) (buf : List UInt8) : Option (Except Fault Nat × Encoder σ) :=
  match e with
  | .gzip e => do
    let d ← e.deflate
    let (r, d) ← deflateWrite env d buf
    match r with
    | .error k => return (.error k, .gzip { e with deflate := some d })
    | .ok n => return (.ok n, .gzip ⟨some d, (buf.take n).foldl crcUpdate e.crc, e.inputSize + UInt32.ofNat n⟩)
  | .zlib e => do
    let d ← e.deflate
    let (r, d) ← deflateWrite env d buf
    match r with
    | .error k => return (.error k, .zlib { e with deflate := some d })
    | .ok n => return (.ok n, .zlib ⟨some d, (buf.take n).foldl Adler.update e.adler⟩)
  | .deflate e => do
    let (r, e) ← deflateWrite env e buf
    return (r, .deflate e)

/-- src/gzip.rs:94-96, src/zlib.rs:87-89, src/deflate.rs:154-156 `flush` -/
def flush (env : WildEnv σ) (e : Encoder σ) : Option (Except Fault Unit × Encoder σ) :=
  match e with
  | .gzip e => do
    let (r, d) ← deflateFlush env (← e.deflate)
    return (r, .gzip { e with deflate := some d })
  | .zlib e => do
    let (r, d) ← deflateFlush env (← e.deflate)
    return (r, .zlib { e with deflate := some d })
  | .deflate e => do
    let (r, e) ← deflateFlush env e
    return (r, .deflate e)

/-- src/gzip.rs:71-77, src/zlib.rs:66-71: the inner encoder is finished, then checksums are written; the sink is a local variable by then -/
def finishFramed [Checks] (env : WildEnv σ) (unwinding : Bool) (d : DeflateEncoder σ) (trailer : List (List UInt8)) : Option (Fate × σ) := do
  let (r, sink) ← deflateFinish env unwinding d
  match r with
  | .returned (.ok ()) => trailerLoop sink trailer
  | r => return (r, sink)
where
  /-- one `write_all(..)?` after the other -/
  trailerLoop (sink : σ) : List (List UInt8) → Option (Fate × σ)
    | [] => some (.returned (.ok ()), sink)
    | l :: rest => do
      let (r, sink) ← writeAll env.S sink l
      match r with
      | .ok () => trailerLoop sink rest
      | .error k => return (outcome unwinding (.error k), sink)

/-- src/gzip.rs:63-65, src/zlib.rs:58-60, src/deflate.rs:79-81 `finish`; the `drop` that follows in the first two finds no inner encoder -/
def finish [Checks] (env : WildEnv σ) (unwinding : Bool) (e : Encoder σ) : Option (Fate × σ) :=
  match e with
  | .gzip e => do finishFramed env unwinding (← e.deflate) [toLeBytes (crcFinalize e.crc), toLeBytes e.inputSize]
  | .zlib e => do finishFramed env unwinding (← e.deflate) [toBeBytes e.adler.finish]
  | .deflate e => deflateFinish env unwinding e

/-- src/gzip.rs:99-103, src/zlib.rs:92-96, src/deflate.rs:159-163 `drop`: `__finish`, its error ignored -/
def drop [Checks] (env : WildEnv σ) (unwinding : Bool) (e : Encoder σ) : Option (Fate × σ) :=
  match e with
  | .gzip _ | .zlib _ => do
    let (r, s) ← finish env unwinding e
    match r with
    | .returned _ => return (.returned (.ok ()), s)
    | r => return (r, s)
  | .deflate e => do
    let (r, s) ← deflateDrop env unwinding e
    match r with
    | .returned _ => return (.returned (.ok ()), s)
    | r => return (r, s)

/-- `Encoder.run`: make the calls in order, up to and including the first one that fails or panics. -/
def run [Checks] (env : WildEnv σ) : List Call → Encoder σ → Option (Except Fault Unit × Encoder σ)
  | [], e => some (.ok (), e)
  | .write buf :: l, e => do
    let (r, e) ← write env e buf
    match r with
    | .ok _ => run env l e
    | .error k => return (.error k, e)
  | .flush :: l, e => do
    let (r, e) ← flush env e
    match r with
    | .ok () => run env l e
    | .error k => return (.error k, e)

/-- `session`: a client that is told of an error gives up, and the encoder is dropped; a panic unwinds the client's stack, and the encoder is
dropped in the course of this. -/
def session [Checks] (env : WildEnv σ) (fmt : Format) (calls : List Call) (ending : Ending) (sink : σ) : Option (Fate × σ) := do
  let (r, s) ← new env fmt sink
  match r with
  | .error k => return (outcome false (.error k), s)
  | .ok e => do
    let (r, e) ← run env calls e
    match r with
    | .error (.error k) => do
      let (d, s) ← drop env false e
      return (afterDrop false (.returned (.error k)) d, s)
    | .error .panic => do
      let (d, s) ← drop env true e
      return (afterDrop false .panicked d, s)
    | .ok () =>
      match ending with
      | .finish => finish env false e
      | .drop => drop env false e

end Unwind
end Zopfli
