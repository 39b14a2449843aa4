import Verif.Spec.Session
/-!
# The other ways of handing data to an encoder

The encoders implement `write` and `flush` of `std::io::Write` (src/deflate.rs:139-157, src/gzip.rs:81-97, src/zlib.rs:75-90); the other
methods of the trait are the provided ones, and `std::io::copy` works with these.  They are modelled from `library/std/src/io/mod.rs` and
`library/std/src/io/copy.rs`.  In builds without `std` the trait is that of src/io.rs, whose `write_all` is the same.  Finally an encoder
is a sink, so that an encoder may write to an encoder.
-/

namespace Zopfli

/-- src/io.rs:69-81, std `Write::write_all` on an encoder; `none` also if an encoder would claim more than it was given. -/
def Encoder.writeAll [Checks] {σ : Type} (env : Env σ) (e : Encoder σ) (buf : List UInt8) : Option (Except ErrKind Unit × Encoder σ) :=
  if buf = [] then some (.ok (), e)
  else do
    let (r, e) ← e.write env buf
    match r with
    | .ok 0 => return (.error .writeZero, e)
    | .ok (n + 1) => if n + 1 ≤ buf.length then e.writeAll env (buf.drop (n + 1)) else none
    | .error .interrupted => e.writeAll env buf
    | .error k => return (.error k, e)
partial_fixpoint

/-- std `Write::write_vectored`: `write` of the first buffer that is not empty, or else of an empty one. -/
def Encoder.writeVectored [Checks] {σ : Type} (env : Env σ) (e : Encoder σ) (bufs : List (List UInt8)) :
    Option (Except ErrKind Nat × Encoder σ) :=
  e.write env ((bufs.find? fun b => !b.isEmpty).getD [])

/-- std `IoSlice::advance_slices`: remove `n` bytes at the front, and the buffers that become empty; panics if there are fewer. -/
def advanceSlices : List (List UInt8) → (n : Nat) → Option (List (List UInt8))
  | [], n => if n = 0 then some [] else none
  | b :: bs, n => if b.length ≤ n then advanceSlices bs (n - b.length) else some (b.drop n :: bs)

/-- std `Write::write_all_vectored`: the loop -/
def Encoder.writeAllVectoredLoop [Checks] {σ : Type} (env : Env σ) (e : Encoder σ) (bufs : List (List UInt8)) :
    Option (Except ErrKind Unit × Encoder σ) :=
  if bufs = [] then some (.ok (), e)
  else do
    let (r, e) ← e.writeVectored env bufs
    match r with
    | .ok 0 => return (.error .writeZero, e)
    | .ok (n + 1) => do e.writeAllVectoredLoop env (← advanceSlices bufs (n + 1))
    | .error .interrupted => e.writeAllVectoredLoop env bufs
    | .error k => return (.error k, e)
partial_fixpoint

/-- std `Write::write_all_vectored`, by which `std::io::copy` moves the two parts of a `VecDeque<u8>` -/
def Encoder.writeAllVectored [Checks] {σ : Type} (env : Env σ) (e : Encoder σ) (bufs : List (List UInt8)) :
    Option (Except ErrKind Unit × Encoder σ) := do
  e.writeAllVectoredLoop env (← advanceSlices bufs 0)

/-- std `Write::write_fmt` (`write!`): every piece of text that formatting produces is written with `write_all`, and formatting stops at the
first error.  Formatting itself is assumed not to fail. -/
def Encoder.writeFmt [Checks] {σ : Type} (env : Env σ) : List (List UInt8) → Encoder σ → Option (Except ErrKind Unit × Encoder σ)
  | [], e => some (.ok (), e)
  | piece :: l, e => do
    let (r, e) ← e.writeAll env piece
    match r with
    | .ok () => Encoder.writeFmt env l e
    | .error k => return (.error k, e)

/-- std `io::copy` into a writer that is not a `BufWriter`, for a reader without its own specialisation: through a buffer of
`DEFAULT_BUF_SIZE` bytes. -/
def copyInto [Checks] {σ ρ : Type} (env : Env σ) (R : Reader ρ) (r : ρ) (e : Encoder σ) : Option (Except ErrKind Unit × Encoder σ) :=
  match R.read r DEFAULT_BUF_SIZE with
  | (.ok [], _) => some (.ok (), e)
  | (.ok (b :: bs), r) =>
    if (b :: bs).length ≤ DEFAULT_BUF_SIZE then
      match e.writeAll env (b :: bs) with
      | none => none
      | some (.ok (), e) => copyInto env R r e
      | some (.error k, e) => some (.error k, e)
    else none
  | (.error .interrupted, r) => copyInto env R r e
  | (.error k, _) => some (.error k, e)
partial_fixpoint

/-- A call on an encoder in one of these ways. -/
inductive Hand where
  | write (buf : List UInt8)
  | writeAll (buf : List UInt8)
  | writeVectored (bufs : List (List UInt8))
  | writeAllVectored (bufs : List (List UInt8))
  | writeFmt (pieces : List (List UInt8))
  | flush

/-- The call. -/
def Encoder.hand [Checks] {σ : Type} (env : Env σ) (e : Encoder σ) : Hand → Option (Except ErrKind Unit × Encoder σ)
  | .write buf => do let (r, e) ← e.write env buf; return (r.map fun _ => (), e)
  | .writeAll buf => e.writeAll env buf
  | .writeVectored bufs => do let (r, e) ← e.writeVectored env bufs; return (r.map fun _ => (), e)
  | .writeAllVectored bufs => e.writeAllVectored env bufs
  | .writeFmt pieces => Encoder.writeFmt env pieces e
  | .flush => e.flush env

/-- Make the calls in order, up to and including the first one that fails. -/
def Encoder.hands [Checks] {σ : Type} (env : Env σ) : List Hand → Encoder σ → Option (Except ErrKind Unit × Encoder σ)
  | [], e => some (.ok (), e)
  | h :: l, e => do
    let (r, e) ← e.hand env h
    match r with
    | .ok () => Encoder.hands env l e
    | .error k => return (.error k, e)

/-- A session (as `session`) that hands its data over in these ways. -/
def handSession [Checks] {σ : Type} (env : Env σ) (fmt : Format) (calls : List Hand) (ending : Ending) (sink : σ) :
    Option (Except ErrKind Unit × σ) := do
  let (r, s) ← Encoder.new env fmt sink
  match r with
  | .error k => return (.error k, s)
  | .ok e => do
    let (r, e) ← Encoder.hands env calls e
    match r with
    | .error k => return (.error k, ← e.drop env)
    | .ok () =>
      match ending with
      | .finish => e.finish env
      | .drop => return (.ok (), ← e.drop env)

/-- An encoder as the sink of another one (src/deflate.rs:139-157, src/gzip.rs:81-97, src/zlib.rs:75-90: `impl Write`).  `none` is the state
after a panic.  No buffer is longer than the address space of 2^47 bytes; of a longer one, which cannot exist, this sink takes a part. -/
def encoderSink [Checks] {σ : Type} (env : Env σ) : Sink (Option (Encoder σ)) where
  write e buf :=
    match e.bind fun e => e.write env (buf.take (2 ^ 47 - 1)) with
    | some (r, e) => (r, some e)
    | none => (.error (.other 0), none)
  flush e :=
    match e.bind fun e => e.flush env with
    | some (r, e) => (r, some e)
    | none => (.error (.other 0), none)

end Zopfli
