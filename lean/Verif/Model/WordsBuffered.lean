import Verif.Model.WordsEncoder
import Verif.Model.Main
/-!
# Buffered encoders and the program, with a `usize` of `W` bits

`Model/Buffered.lean` and `Model/Main.lean` once more, over the encoders of `Model/WordsEncoder.lean`.  The numbers of `BufWriter` itself are
lengths of buffers that exist in memory.
-/

namespace Zopfli.Words

/-- std `BufWriter::write` around an encoder (`BufEncoder.write` of Model/Buffered.lean); src/deflate.rs:64-69, src/gzip.rs:44-53, src/zlib.rs:39-48 -/
def bufWrite [Checks] {σ : Type} (W : Nat) (env : Env σ) (b : BufEncoder σ) (data : List UInt8) : Option (Except ErrKind Nat × BufEncoder σ) :=
  let spare := MASTER_BLOCK_SIZE - b.buf.length
  if data.length < spare then some (.ok data.length, ⟨b.inner, b.buf ++ data⟩)
  else do
    let (r, e, buf) ← (if data.length > spare then flushBuf W env b.inner b.buf else some (.ok (), b.inner, b.buf))
    match r with
    | .error k => return (.error k, ⟨e, buf⟩)
    | .ok () =>
      if data.length ≥ MASTER_BLOCK_SIZE then do
        let (r, e) ← write W env e data
        return (r, ⟨e, buf⟩)
      else return (.ok data.length, ⟨e, buf ++ data⟩)

/-- std `BufWriter::flush` (`BufEncoder.flush` of Model/Buffered.lean) -/
def bufFlush [Checks] {σ : Type} (W : Nat) (env : Env σ) (b : BufEncoder σ) : Option (Except ErrKind Unit × BufEncoder σ) := do
  let (r, e, buf) ← flushBuf W env b.inner b.buf
  match r with
  | .error k => return (.error k, ⟨e, buf⟩)
  | .ok () => do
    let (r, e) ← e.flush env
    return (r, ⟨e, buf⟩)

/-- Make the calls in order, up to and including the first one that fails (`BufEncoder.run` of Spec/Buffered.lean). -/
def bufRun [Checks] {σ : Type} (W : Nat) (env : Env σ) : List Call → BufEncoder σ → Option (Except ErrKind Unit × BufEncoder σ)
  | [], b => some (.ok (), b)
  | .write data :: l, b => do
    let (r, b) ← bufWrite W env b data
    match r with
    | .ok _ => bufRun W env l b
    | .error k => return (.error k, b)
  | .flush :: l, b => do
    let (r, b) ← bufFlush W env b
    match r with
    | .ok () => bufRun W env l b
    | .error k => return (.error k, b)

/-- A whole session with an encoder made by `new_buffered` (`bufferedSession` of Spec/Buffered.lean). -/
def bufferedSession [Checks] {σ : Type} (W : Nat) (env : Env σ) (fmt : Format) (calls : List Call) (ending : Ending) (sink : σ) :
    Option (Except ErrKind Unit × σ) := do
  let (r, s) ← BufEncoder.new env fmt sink
  match r with
  | .error k => return (.error k, s)
  | .ok b => do
    let (r, b) ← bufRun W env calls b
    match r with
    | .error k => return (.error k, ← dropBuffered W env b.inner b.buf)
    | .ok () =>
      match ending with
      | .finish => intoInnerFinish W env b
      | .drop => return (.ok (), ← dropBuffered W env b.inner b.buf)

/-- src/main.rs:49-72 `WriteStatistics`: the counter is a `usize` (`writeStatistics` of Model/Main.lean; here without overflow checks) -/
def writeStatistics {σ : Type} (W : Nat) (S : Sink σ) : Sink (σ × Nat) where
  write s buf :=
    let (res, inner) := S.write s.1 buf
    match res with
    | .ok size => (.ok size, (inner, (s.2 + size) % 2 ^ W))
    | .error k => (.error k, (inner, s.2))
  flush s :=
    let (res, inner) := S.flush s.1
    (res, (inner, s.2))

/-- src/main.rs:24-46: one turn of the loop (`compressFile` of Model/Main.lean) -/
def compressFile [Checks] (W : Nat) (F : FloatOps) (os : Os) (filename : String) (w : World) : Option (Except Failure Nat × World) :=
  match os.openFile w filename, w.disk filename with
  | some k, _ => some (.error (.couldNotOpen filename k), w)
  | none, none => some (.error (.couldNotOpen filename notFound), w)
  | none, some content =>
    match os.metadata w filename with
    | some k => some (.error (.noMetadata filename k), w)
    | none =>
      match os.createFile w (outName filename) with
      | some k => some (.error (.couldNotCreate (outName filename) k), w)
      | none => do
        let w : World := ⟨w.disk.set (outName filename) [], w.time⟩
        let (r, w, count) ← compress W F (writeStatistics W (fileSink os (outName filename))) (fileReader os filename)
          Options.default .gzip (readable os filename content, 0) (w, 0)
        match r with
        | .ok () => return (.ok count, w)
        | .error k => return (.error (.couldNotWrite (outName filename) k), w)

/-- src/main.rs:10-47 `main`; the count of written bytes is not used (no logger is installed) -/
def main [Checks] (W : Nat) (F : FloatOps) (os : Os) : List String → World → Option (Except Failure Unit × World)
  | [], w => some (.ok (), w)
  | filename :: l, w => do
    let (r, w) ← compressFile W F os filename w
    match r with
    | .ok _ => main W F os l w
    | .error e => return (.error e, w)

end Zopfli.Words
