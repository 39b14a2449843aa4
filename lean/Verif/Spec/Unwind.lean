import Verif.Model.UnwindCompress
/-!
# What may be said of a sink that panics
-/

namespace Zopfli

/-- A panic becomes the error `k`. -/
def Fault.tame (k : ErrKind) : Fault → ErrKind
  | .error e => e
  | .panic => k

/-- A panic becomes the error `k`. -/
def tameR {α : Type} (k : ErrKind) : Except Fault α → Except ErrKind α
  | .ok a => .ok a
  | .error f => .error (f.tame k)

/-- The sink that behaves in the same way, but returns the error `k` where the given sink panics, or claims to have written more than it was
given (which makes the caller panic). -/
def tame {σ : Type} (k : ErrKind) (S : WildSink σ) : Sink σ where
  write s buf :=
    match S.write s buf with
    | (.ok n, s) => if n ≤ buf.length then (.ok n, s) else (.error k, s)
    | (.error f, s) => (.error (f.tame k), s)
  flush s := (tameR k (S.flush s).1, (S.flush s).2)

/-- The call of `write` makes the encoder unwind: the sink panics, or it claims to have written more than it was given, so that the caller
does. -/
def Panics (r : Except Fault Nat) (buf : List UInt8) : Prop := r = .error .panic ∨ ∃ n, r = .ok n ∧ buf.length < n

/-- A sink that panics at most once.  `I` is any invariant of its states; `quiet` are the states in which it will not panic any more. -/
structure PanicsAtMostOnce {σ : Type} (S : WildSink σ) (I quiet : σ → Prop) : Prop where
  write : ∀ s buf, I s → I (S.write s buf).2 ∧ (Panics (S.write s buf).1 buf → quiet (S.write s buf).2)
  flush : ∀ s, I s → I (S.flush s).2 ∧ ((S.flush s).1 = .error .panic → quiet (S.flush s).2)
  write_quiet : ∀ s buf, buf ≠ [] → quiet s → quiet (S.write s buf).2 ∧ ¬ Panics (S.write s buf).1 buf
  flush_quiet : ∀ s, quiet s → quiet (S.flush s).2 ∧ (S.flush s).1 ≠ .error .panic

/-- A sink that never panics, as a sink that may. -/
def Sink.wild {σ : Type} (S : Sink σ) : WildSink σ where
  write s buf := ((S.write s buf).1.mapError .error, (S.write s buf).2)
  flush s := ((S.flush s).1.mapError .error, (S.flush s).2)

/-- Any sink, with a record of what it has accepted before it failed or panicked for the first time, and of that. -/
structure WildSpy (σ : Type) where
  sink : σ
  log : List UInt8
  failed : Option Fault

/-- Instrument any sink with a record; its own behaviour is unchanged.  (As `spy` in Verif/Spec/Session.lean; claiming too much counts as a
panic.) -/
def wildSpy {σ : Type} (S : WildSink σ) : WildSink (WildSpy σ) where
  write s buf :=
    let (r, sink) := S.write s.sink buf
    (r, match s.failed with
      | some f => ⟨sink, s.log, some f⟩
      | none =>
        match r with
        | .ok n =>
          if n = 0 ∧ buf ≠ [] then ⟨sink, s.log, some (.error .writeZero)⟩
          else if n ≤ buf.length then ⟨sink, s.log ++ buf.take n, none⟩ else ⟨sink, s.log, some .panic⟩
        | .error (.error .interrupted) => ⟨sink, s.log, none⟩
        | .error f => ⟨sink, s.log, some f⟩)
  flush s :=
    let (r, sink) := S.flush s.sink
    (r, match s.failed with
      | some f => ⟨sink, s.log, some f⟩
      | none =>
        match r with
        | .ok () => ⟨sink, s.log, none⟩
        | .error f => ⟨sink, s.log, some f⟩)

/-- The reader that behaves in the same way, but returns the error `k` where the given reader panics, or claims to have read more than there is
room for (which makes the caller panic). -/
def tameReader {ρ : Type} (k : ErrKind) (R : WildReader ρ) : Reader ρ where
  read r room :=
    match R.read r room with
    | (.ok l, r) => if l.length ≤ room then (.ok l, r) else (.error k, r)
    | (.error f, r) => (.error (f.tame k), r)

/-- A reader that never panics, as a reader that may. -/
def Reader.wild {ρ : Type} (R : Reader ρ) : WildReader ρ where
  read r room := ((R.read r room).1.mapError .error, (R.read r room).2)

/-- A reader that delivers `data` in fragments of any size and then panics.  It may interrupt, but not for ever. -/
structure DeliversAndPanics {ρ : Type} (R : WildReader ρ) (I : ρ → Prop) (data : ρ → List UInt8) (patience : ρ → Nat) : Prop where
  read : ∀ r room, I r → 0 < room →
    (∃ l r', R.read r room = (.ok l, r') ∧ l ≠ [] ∧ l.length ≤ room ∧ data r = l ++ data r' ∧ I r') ∨
    (∃ r', R.read r room = (.error (.error .interrupted), r') ∧ data r' = data r ∧ patience r' < patience r ∧ I r') ∨
    (∃ r', R.read r room = (.error .panic, r') ∧ data r = [])

end Zopfli
