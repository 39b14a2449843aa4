import Verif.Model.Encoder
/-!
# Model of `compress` (src/lib.rs:155-181) and the parts of std it relies on

`std::io::BufWriter` and `std::io::copy` are external; they are modelled from their published sources
(`library/std/src/io/buffered/bufwriter.rs`, `library/std/src/io/copy.rs`), for a reader without its own
specialisation of `copy`.
-/

namespace Zopfli

/-- src/lib.rs:127-150 `Format` -/
inductive Format where
  | gzip
  | zlib
  | deflate
deriving DecidableEq, Repr

/-- An encoder of one of the three formats behind the interface `compress` uses. -/
inductive Encoder (σ : Type) where
  | gzip (e : GzipEncoder σ)
  | zlib (e : ZlibEncoder σ)
  | deflate (e : DeflateEncoder σ)

/-- The constructors called at src/lib.rs:164, 170, 176. -/
def Encoder.new {σ : Type} (env : Env σ) (fmt : Format) (sink : σ) : Option (Except ErrKind (Encoder σ) × σ) :=
  match fmt with
  | .gzip => do
    let (r, s) ← GzipEncoder.new env sink
    match r with
    | .ok e => return (.ok (.gzip e), s)
    | .error k => return (.error k, s)
  | .zlib => do
    let (r, s) ← ZlibEncoder.new env sink
    match r with
    | .ok e => return (.ok (.zlib e), s)
    | .error k => return (.error k, s)
  | .deflate => some (.ok (.deflate (.new sink)), sink)

/-- `Write::write` of the encoder: src/gzip.rs:82, src/zlib.rs:76, src/deflate.rs:140 -/
def Encoder.write [Checks] {σ : Type} (env : Env σ) (e : Encoder σ) (buf : List UInt8) :
    Option (Except ErrKind Nat × Encoder σ) :=
  match e with
  | .gzip e => do let (r, e) ← e.write env buf; return (r, .gzip e)
  | .zlib e => do let (r, e) ← e.write env buf; return (r, .zlib e)
  | .deflate e => do let (r, e) ← e.write env buf; return (r, .deflate e)

/-- `Write::flush` of the encoder: src/gzip.rs:94, src/zlib.rs:87, src/deflate.rs:154 -/
def Encoder.flush {σ : Type} (env : Env σ) (e : Encoder σ) : Option (Except ErrKind Unit × Encoder σ) :=
  match e with
  | .gzip e => do let (r, e) ← e.flush env; return (r, .gzip e)
  | .zlib e => do let (r, e) ← e.flush env; return (r, .zlib e)
  | .deflate e => do let (r, e) ← e.flush env; return (r, .deflate e)

/-- `finish` of the encoder: src/gzip.rs:63, src/zlib.rs:58, src/deflate.rs:79 -/
def Encoder.finish [Checks] {σ : Type} (env : Env σ) (e : Encoder σ) : Option (Except ErrKind Unit × σ) :=
  match e with
  | .gzip e => e.finish env
  | .zlib e => e.finish env
  | .deflate e => e.finish env

/-- `drop` of an unfinished encoder: src/gzip.rs:99, src/zlib.rs:92, src/deflate.rs:159 -/
def Encoder.drop [Checks] {σ : Type} (env : Env σ) (e : Encoder σ) : Option σ :=
  match e with
  | .gzip e => e.drop env
  | .zlib e => e.drop env
  | .deflate e => e.drop env

/-- std `BufWriter::flush_buf` over an encoder: write the buffer until it is empty.  On an error the bytes already
written are removed from the buffer. -/
def flushBuf [Checks] {σ : Type} (env : Env σ) (e : Encoder σ) (buf : List UInt8) :
    Option (Except ErrKind Unit × Encoder σ × List UInt8) :=
  if buf = [] then some (.ok (), e, [])
  else do
    let (r, e) ← e.write env buf
    match r with
    | .ok 0 => return (.error .writeZero, e, buf)
    | .ok (n + 1) => flushBuf env e (buf.drop (n + 1))
    | .error .interrupted => flushBuf env e buf
    | .error k => return (.error k, e, buf)
partial_fixpoint

/-- A reader: given its state and the room in the buffer, it returns bytes (none at the end of the input) or an
error. -/
structure Reader (ρ : Type) where
  read : ρ → (room : Nat) → Except ErrKind (List UInt8) × ρ

/-- std `DEFAULT_BUF_SIZE` -/
abbrev DEFAULT_BUF_SIZE : Nat := 8192

/-- std `io::copy` into a `BufWriter` of capacity 1,000,000 (src/util.rs:19): read directly into the spare room of the
buffer while it has at least `DEFAULT_BUF_SIZE` bytes, otherwise flush the buffer.  A reader that claims to have read
more than there is room for panics. -/
def copyLoop [Checks] {σ ρ : Type} (env : Env σ) (R : Reader ρ) (r : ρ) (e : Encoder σ) (buf : List UInt8) :
    Option (Except ErrKind Unit × Encoder σ × List UInt8) :=
  let room := MASTER_BLOCK_SIZE - buf.length
  if DEFAULT_BUF_SIZE ≤ room then
    match R.read r room with
    | (.ok [], _) => some (.ok (), e, buf)
    | (.ok (b :: bs), r) => if (b :: bs).length ≤ room then copyLoop env R r e (buf ++ b :: bs) else none
    | (.error .interrupted, r) => copyLoop env R r e buf
    | (.error k, _) => some (.error k, e, buf)
  else
    match flushBuf env e buf with
    | none => none
    | some (.error k, e, buf) => some (.error k, e, buf)
    | some (.ok (), e, buf) => copyLoop env R r e buf
partial_fixpoint

/-- Dropping the `BufWriter` on an error path: std flushes the buffer once more, ignoring errors, and then drops the
encoder, which finishes the stream, ignoring errors. -/
def dropBuffered [Checks] {σ : Type} (env : Env σ) (e : Encoder σ) (buf : List UInt8) : Option σ := do
  let (_, e, _) ← flushBuf env e buf
  e.drop env

/-- src/lib.rs:155-181 `compress`.  Returns the result and the last state of the sink. -/
def compress [Checks] {σ ρ : Type} (F : FloatOps) (S : Sink σ) (R : Reader ρ) (options : Options) (fmt : Format)
    (inData : ρ) (out : σ) : Option (Except ErrKind Unit × σ) := do
  let env : Env σ := ⟨F, S, options, .dynamic⟩
  let (r, s) ← Encoder.new env fmt out
  match r with
  | .error k => return (.error k, s)
  | .ok e => do
    let (r, e, buf) ← copyLoop env R inData e []
    match r with
    | .error k => return (.error k, ← dropBuffered env e buf)
    | .ok () => do
      -- `into_inner`
      let (r, e, buf) ← flushBuf env e buf
      match r with
      | .error k => return (.error k, ← dropBuffered env e buf)
      | .ok () => e.finish env

end Zopfli
