import Verif.Model.OwnSink
/-!
# What may be expected of a `write_all` of one's own
-/

namespace Zopfli

/-- The sink whose `write_all` is the provided one: the loop over its `write` (src/io.rs:69-81). -/
def OwnSink.provided {σ : Type} (S : Sink σ) : OwnSink σ where
  write := S.write
  flush := S.flush
  writeAll := S.writeAll

/-- The contract of `write_all` (src/io.rs:52-68): nothing is written for an empty buffer, and an interruption is not reported to the
caller.  It may fail, panic, never return, or have written any part of the buffer before it failed. -/
structure OwnSink.Lawful {σ : Type} (W : OwnSink σ) : Prop where
  empty : ∀ s, W.writeAll s [] = some (.ok (), s)
  kind : ∀ s buf s', W.writeAll s buf ≠ some (.error .interrupted, s')

/-- A `write_all` that does not fail: `log` is what the sink has received. -/
structure OwnSink.Dependable {σ : Type} (W : OwnSink σ) (I : σ → Prop) (log : σ → List UInt8) : Prop where
  writeAll : ∀ s buf, I s → ∃ s', W.writeAll s buf = some (.ok (), s') ∧ log s' = log s ++ buf ∧ I s'
  flush : ∀ s, I s → ∃ s', W.flush s = (.ok (), s') ∧ log s' = log s ∧ I s'

/-- The sink with a record of the buffers it has taken before its first failure, one after the other, and of that failure. -/
def OwnSink.spy {σ : Type} (W : OwnSink σ) : OwnSink (Spy σ) where
  write s buf := let (r, t) := W.write s.sink buf; (r, { s with sink := t })
  flush s :=
    let (r, t) := W.flush s.sink
    (r, match s.failed, r with
      | some k, _ => ⟨t, s.log, some k⟩
      | none, .ok () => ⟨t, s.log, none⟩
      | none, .error k => ⟨t, s.log, some k⟩)
  writeAll s buf :=
    match W.writeAll s.sink buf with
    | none => none
    | some (r, t) =>
      some (r, match s.failed, r with
        | some k, _ => ⟨t, s.log, some k⟩
        | none, .ok () => ⟨t, s.log ++ buf, none⟩
        | none, .error k => ⟨t, s.log, some k⟩)

end Zopfli
