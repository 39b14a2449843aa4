import Verif.Model.Compress
/-!
# Model of the command-line program (src/main.rs)

The disk is a map from names to contents.  What the operating system does is a parameter (`Os`): it may refuse to open or
create a file, cut and interrupt transfers, and fail at any time.  Links are not modelled (different names are different
files), nor are other processes that change the files meanwhile.  The final log message (lines 39-46) is not modelled: the
program installs no logger, so the message and its arguments are never evaluated.
-/

namespace Zopfli

/-- The contents of the files that exist. -/
abbrev Disk := String → Option (List UInt8)

/-- The disk after the file `name` has been given the contents `data`. -/
def Disk.set (d : Disk) (name : String) (data : List UInt8) : Disk := fun x => if x = name then some data else d x

/-- The disk, and the number of write calls made so far. -/
structure World where
  disk : Disk
  time : Nat

/-- How the operating system answers.  `none`: no error. -/
structure Os where
  /-- may the file be opened for reading? -/
  openFile : World → String → Option ErrKind
  /-- may its size be asked for? -/
  metadata : World → String → Option ErrKind
  /-- may the file be created or truncated? -/
  createFile : World → String → Option ErrKind
  /-- the answer to the attempt to write `len` bytes to a file -/
  writeFile : World → String → (len : Nat) → Except ErrKind Nat
  /-- the answer to a request to flush a file -/
  flushFile : World → String → Option ErrKind
  /-- the result of the `t`-th attempt to read from the file: interrupted (`none`), or about how many bytes are read -/
  readFile : String → (t : Nat) → Option Nat
  /-- an offset from which on the file cannot be read, if any, and the error then -/
  fault : String → Option (Nat × ErrKind)

/-- The error of opening a file that does not exist (`ErrorKind::NotFound`). -/
abbrev notFound : ErrKind := .other 2

/-- `File` as a sink: bytes that are accepted (never more than were given) are appended to the file. -/
def fileSink (os : Os) (name : String) : Sink World where
  write w buf :=
    match os.writeFile w name buf.length with
    | .ok n => (.ok (min n buf.length), ⟨w.disk.set name ((w.disk name).getD [] ++ buf.take n), w.time + 1⟩)
    | .error k => (.error k, ⟨w.disk, w.time + 1⟩)
  flush w :=
    match os.flushFile w name with
    | none => (.ok (), ⟨w.disk, w.time + 1⟩)
    | some k => (.error k, ⟨w.disk, w.time + 1⟩)

/-- `File` as a reader.  Its state: the bytes not yet read that can be read, and the number of read calls made. -/
def fileReader (os : Os) (name : String) : Reader (List UInt8 × Nat) where
  read r room :=
    match os.readFile name r.2 with
    | none => (.error .interrupted, (r.1, r.2 + 1))
    | some n =>
      if r.1 = [] then
        match os.fault name with
        | none => (.ok [], (r.1, r.2 + 1))
        | some (_, k) => (.error k, (r.1, r.2 + 1))
      else
        let amount := min (n + 1) room
        (.ok (r.1.take amount), (r.1.drop amount, r.2 + 1))

/-- The part of a file that can be read. -/
def readable (os : Os) (name : String) (content : List UInt8) : List UInt8 :=
  match os.fault name with
  | none => content
  | some (n, _) => content.take n

/-- src/main.rs:49-58 `WriteStatistics` and src/main.rs:60-72 its `Write` implementation: the sink and a counter -/
def writeStatistics {σ : Type} (S : Sink σ) : Sink (σ × Nat) where
  write s buf :=
    let (res, inner) := S.write s.1 buf
    match res with
    | .ok size => (.ok size, (inner, s.2 + size))
    | .error k => (.error k, (inner, s.2))
  flush s :=
    let (res, inner) := S.flush s.1
    (res, (inner, s.2))

/-- The messages with which the program gives up: src/main.rs:26, 27, 33, 37 -/
inductive Failure where
  | couldNotOpen (name : String) (k : ErrKind)
  | noMetadata (name : String) (k : ErrKind)
  | couldNotCreate (name : String) (k : ErrKind)
  | couldNotWrite (name : String) (k : ErrKind)
deriving DecidableEq

/-- src/main.rs:17-21: the extension for `output_type` = gzip (src/main.rs:12) -/
def outName (filename : String) : String := filename ++ ".gz"

/-- src/main.rs:24-46: one turn of the loop.  Returns the size of the compressed file, as counted (line 39).  `none`: a
panic inside `compress`, or it never returns. -/
def compressFile [Checks] (F : FloatOps) (os : Os) (filename : String) (w : World) : Option (Except Failure Nat × World) :=
  match os.openFile w filename, w.disk filename with
  | some k, _ => some (.error (.couldNotOpen filename k), w)
  | none, none => some (.error (.couldNotOpen filename notFound), w)
  | none, some content =>
    match os.metadata w filename with
    | some k => some (.error (.noMetadata filename k), w)
    | none =>
      match os.createFile w (outName filename) with
      | some k => some (.error (.couldNotCreate (outName filename) k), w)
      | none => do
        let w : World := ⟨w.disk.set (outName filename) [], w.time⟩
        let (r, w, count) ← compress F (writeStatistics (fileSink os (outName filename))) (fileReader os filename)
          Options.default .gzip (readable os filename content, 0) (w, 0)
        match r with
        | .ok () => return (.ok count, w)
        | .error k => return (.error (.couldNotWrite (outName filename) k), w)

/-- src/main.rs:10-47 `main`, with the arguments after the program's name.  The first failure ends the program (`panic!`). -/
def main [Checks] (F : FloatOps) (os : Os) : List String → World → Option (Except Failure Unit × World)
  | [], w => some (.ok (), w)
  | filename :: l, w => do
    let (r, w) ← compressFile F os filename w
    match r with
    | .ok _ => main F os l w
    | .error e => return (.error e, w)

end Zopfli
