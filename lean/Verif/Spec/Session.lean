import Verif.Model.Compress
import Verif.Spec.Container
/-!
# What a client does, and what it may assume of its sink

The vocabulary in which the properties of the encoders are stated: sessions of calls on the public interface, kinds of
sinks and readers, and the decoder of each format.
-/

namespace Zopfli

/-- The reference decoder of a format. -/
def decode : Format → List UInt8 → Option (List UInt8)
  | .gzip => Rfc.gunzip
  | .zlib => Rfc.zlibDecode
  | .deflate => Rfc.inflate

/-- A call on an encoder. -/
inductive Call where
  | write (buf : List UInt8)
  | flush

/-- The buffers written by a sequence of calls. -/
def writesOf : List Call → List (List UInt8)
  | [] => []
  | .write buf :: l => buf :: writesOf l
  | .flush :: l => writesOf l

/-- Every buffer fits in the address space. -/
def Fits (writes : List (List UInt8)) : Prop := ∀ w ∈ writes, w.length < 2 ^ 47

/-- The sink inside the encoder. -/
def DeflateEncoder.sink? {σ : Type} (e : DeflateEncoder σ) : Option σ := e.bitwiseWriter.map (·.out)

/-- The sink inside the encoder (`get_ref`). -/
def Encoder.sink? {σ : Type} (e : Encoder σ) : Option σ :=
  match e with
  | .gzip e => e.deflate.bind (·.sink?)
  | .zlib e => e.deflate.bind (·.sink?)
  | .deflate e => e.sink?

/-- Make the calls in order, up to and including the first one that fails. -/
def Encoder.run [Checks] {σ : Type} (env : Env σ) : List Call → Encoder σ → Option (Except ErrKind Unit × Encoder σ)
  | [], e => some (.ok (), e)
  | .write buf :: l, e => do
    let (r, e) ← e.write env buf
    match r with
    | .ok _ => e.run env l
    | .error k => return (.error k, e)
  | .flush :: l, e => do
    let (r, e) ← e.flush env
    match r with
    | .ok () => e.run env l
    | .error k => return (.error k, e)

/-- How a session ends: by `finish`, or by letting the encoder go out of scope. -/
inductive Ending where
  | finish
  | drop

/-- A whole session: create an encoder, make the calls, end.  A client that is told of an error gives up: the encoder
is dropped.  `none` means that some call panicked or never returned. -/
def session [Checks] {σ : Type} (env : Env σ) (fmt : Format) (calls : List Call) (ending : Ending) (sink : σ) :
    Option (Except ErrKind Unit × σ) := do
  let (r, s) ← Encoder.new env fmt sink
  match r with
  | .error k => return (.error k, s)
  | .ok e => do
    let (r, e) ← e.run env calls
    match r with
    | .error k => return (.error k, ← e.drop env)
    | .ok () =>
      match ending with
      | .finish => e.finish env
      | .drop => return (.ok (), ← e.drop env)

/-- A sink that does not fail.  `log` is what it has received.  In a state satisfying `I` it accepts a non-empty part
of the buffer, or it interrupts, but not for ever: `patience` goes down at each interruption.  (It may go up again at
each accepted byte.) -/
structure Reliable {σ : Type} (S : Sink σ) (I : σ → Prop) (log : σ → List UInt8) (patience : σ → Nat) : Prop where
  write : ∀ s buf, I s → buf ≠ [] →
    (∃ n s', S.write s buf = (.ok n, s') ∧ 1 ≤ n ∧ n ≤ buf.length ∧ log s' = log s ++ buf.take n ∧ I s') ∨
    (∃ s', S.write s buf = (.error .interrupted, s') ∧ log s' = log s ∧ patience s' < patience s ∧ I s')
  flush : ∀ s, I s → ∃ s', S.flush s = (.ok (), s') ∧ log s' = log s ∧ I s'

/-- A sink that may fail in any way and recover, but does not lie about how much it has accepted, and does not interrupt
for ever: as long as the same buffer is offered, `patience` goes down at each interruption.  (`I` is any invariant of
its states.) -/
structure Honest {σ : Type} (S : Sink σ) (I : σ → Prop) (patience : σ → Nat) : Prop where
  write : ∀ s buf, I s → I (S.write s buf).2
  flush : ∀ s, I s → I (S.flush s).2
  count : ∀ s buf n, I s → (S.write s buf).1 = .ok n → n ≤ buf.length
  interrupt : ∀ s buf, I s → (S.write s buf).1 = .error .interrupted → patience (S.write s buf).2 < patience s

/-- A sink of which nothing is assumed, with a record of what it has accepted before its first failure (`log`) and of
that failure (`failed`).  Accepting nothing of a non-empty buffer counts as the failure `writeZero`; an interruption
does not count as a failure. -/
structure Recorded {σ : Type} (S : Sink σ) (log : σ → List UInt8) (failed : σ → Option ErrKind) : Prop where
  write_ok : ∀ s buf n s', failed s = none → S.write s buf = (.ok n, s') → (n ≠ 0 ∨ buf = []) → failed s' = none ∧ log s' = log s ++ buf.take n
  write_zero : ∀ s buf s', failed s = none → buf ≠ [] → S.write s buf = (.ok 0, s') → failed s' = some .writeZero ∧ log s' = log s
  write_interrupted : ∀ s buf s', failed s = none → S.write s buf = (.error .interrupted, s') → failed s' = none ∧ log s' = log s
  write_error : ∀ s buf k s', failed s = none → k ≠ .interrupted → S.write s buf = (.error k, s') → failed s' = some k ∧ log s' = log s
  flush_ok : ∀ s s', failed s = none → S.flush s = (.ok (), s') → failed s' = none ∧ log s' = log s
  flush_error : ∀ s k s', failed s = none → S.flush s = (.error k, s') → failed s' = some k ∧ log s' = log s
  write_after : ∀ s buf k, failed s = some k → failed (S.write s buf).2 = some k ∧ log (S.write s buf).2 = log s
  flush_after : ∀ s k, failed s = some k → failed (S.flush s).2 = some k ∧ log (S.flush s).2 = log s

/-- Any sink, with a record. -/
structure Spy (σ : Type) where
  sink : σ
  log : List UInt8
  failed : Option ErrKind

/-- Instrument any sink with a record; its own behaviour is unchanged. -/
def spy {σ : Type} (S : Sink σ) : Sink (Spy σ) where
  write s buf :=
    let (r, sink) := S.write s.sink buf
    (r, match s.failed with
      | some k => ⟨sink, s.log, some k⟩
      | none =>
        match r with
        | .ok n => if n = 0 ∧ buf ≠ [] then ⟨sink, s.log, some .writeZero⟩ else ⟨sink, s.log ++ buf.take n, none⟩
        | .error .interrupted => ⟨sink, s.log, none⟩
        | .error k => ⟨sink, s.log, some k⟩)
  flush s :=
    let (r, sink) := S.flush s.sink
    (r, match s.failed with
      | some k => ⟨sink, s.log, some k⟩
      | none =>
        match r with
        | .ok () => ⟨sink, s.log, none⟩
        | .error k => ⟨sink, s.log, some k⟩)

/-- A reader that delivers `data` in fragments of any size and then ends with `res`: end of file, or an error.  It may
interrupt, but not for ever. -/
structure Delivers {ρ : Type} (R : Reader ρ) (I : ρ → Prop) (data : ρ → List UInt8) (res : Except ErrKind Unit) (patience : ρ → Nat) : Prop where
  not_interrupted : res ≠ .error .interrupted
  read : ∀ r room, I r → 0 < room →
    (∃ l r', R.read r room = (.ok l, r') ∧ l ≠ [] ∧ l.length ≤ room ∧ data r = l ++ data r' ∧ I r') ∨
    (∃ r', R.read r room = (.error .interrupted, r') ∧ data r' = data r ∧ patience r' < patience r ∧ I r') ∨
    (∃ r', R.read r room = (res.map fun _ => [], r') ∧ data r = [])

/-- A reader that fills the buffer it is given whenever it has enough data left, like a file. -/
def FullReads {ρ : Type} (R : Reader ρ) (I : ρ → Prop) (data : ρ → List UInt8) : Prop :=
  ∀ r room l r', I r → 0 < room → R.read r room = (.ok l, r') → l = (data r).take room

end Zopfli
