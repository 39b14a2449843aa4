import Verif.Model.Unwind
/-!
# `compress` with a sink or a reader that panics

As `Model/Compress.lean`, with panics.  The `BufWriter` of std remembers whether it was unwound while it was calling the encoder (`panicked`
in `library/std/src/io/buffered/bufwriter.rs`); in this case it does not flush its buffer when it is dropped.
-/

namespace Zopfli

/-- A reader that may panic; claiming to have read more than there is room for makes the caller panic. -/
structure WildReader (ρ : Type) where
  read : ρ → (room : Nat) → Except Fault (List UInt8) × ρ

namespace Unwind

variable {σ ρ : Type}

/-- std `BufWriter::flush_buf` over an encoder -/
def flushBuf [Checks] (env : WildEnv σ) (e : Encoder σ) (buf : List UInt8) : Option (Except Fault Unit × Encoder σ × List UInt8) :=
  if buf = [] then some (.ok (), e, [])
  else do
    let (r, e) ← write env e buf
    match r with
    | .ok 0 => return (.error (.error .writeZero), e, buf)
    | .ok (n + 1) => flushBuf env e (buf.drop (n + 1))
    | .error (.error .interrupted) => flushBuf env e buf
    | .error f => return (.error f, e, buf)
partial_fixpoint

/-- std `io::copy` into a `BufWriter`.  The last component is the flag `panicked` of the `BufWriter`: a panic of the reader leaves it unset
(and the buffer as it was before the call). -/
def copyLoop [Checks] (env : WildEnv σ) (R : WildReader ρ) (r : ρ) (e : Encoder σ) (buf : List UInt8) :
    Option (Except Fault Unit × Encoder σ × List UInt8 × Bool) :=
  let room := MASTER_BLOCK_SIZE - buf.length
  if DEFAULT_BUF_SIZE ≤ room then
    match R.read r room with
    | (.ok [], _) => some (.ok (), e, buf, false)
    | (.ok (b :: bs), r) =>
      if (b :: bs).length ≤ room then copyLoop env R r e (buf ++ b :: bs) else some (.error .panic, e, buf, false)
    | (.error (.error .interrupted), r) => copyLoop env R r e buf
    | (.error f, _) => some (.error f, e, buf, false)
  else
    match flushBuf env e buf with
    | none => none
    | some (.error .panic, e, buf) => some (.error .panic, e, buf, true)
    | some (.error f, e, buf) => some (.error f, e, buf, false)
    | some (.ok (), e, buf) => copyLoop env R r e buf
partial_fixpoint

/-- Dropping the `BufWriter`: unless it was unwound before, it flushes its buffer, ignoring errors; then the encoder is dropped, also if this
panics. -/
def dropBuffered [Checks] (env : WildEnv σ) (unwinding : Bool) (e : Encoder σ) (buf : List UInt8) (panicked : Bool) : Option (Fate × σ) :=
  if panicked then drop env unwinding e
  else do
    let (r, e, _) ← flushBuf env e buf
    match r with
    | .error .panic =>
      if unwinding then do
        let (_, s) ← drop env true e
        return (.aborted, s)
      else do
        let (d, s) ← drop env true e
        return (afterDrop false .panicked d, s)
    | _ => drop env unwinding e

/-- src/lib.rs:155-181 `compress` -/
def compress [Checks] (F : FloatOps) (S : WildSink σ) (R : WildReader ρ) (options : Options) (fmt : Format) (inData : ρ) (out : σ) :
    Option (Fate × σ) := do
  let env : WildEnv σ := ⟨F, S, options, .dynamic⟩
  let (r, s) ← new env fmt out
  match r with
  | .error f => return (outcome false (.error f), s)
  | .ok e => do
    let (r, e, buf, panicked) ← copyLoop env R inData e []
    match r with
    | .error f => abandon env e buf panicked f
    | .ok () => do
      -- `into_inner`
      let (r, e, buf) ← flushBuf env e buf
      match r with
      | .error .panic => abandon env e buf true .panic
      | .error f => abandon env e buf false f
      | .ok () => finish env false e
where
  /-- an error is returned, or a panic goes through: the `BufWriter` is dropped -/
  abandon (env : WildEnv σ) (e : Encoder σ) (buf : List UInt8) (panicked : Bool) : Fault → Option (Fate × σ)
    | .error k => do
      let (d, s) ← dropBuffered env false e buf panicked
      return (afterDrop false (.returned (.error k)) d, s)
    | .panic => do
      let (d, s) ← dropBuffered env true e buf panicked
      return (afterDrop false .panicked d, s)

end Unwind
end Zopfli
