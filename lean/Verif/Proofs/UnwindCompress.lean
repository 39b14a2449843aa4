import Verif.Proofs.Unwind
import Verif.Proofs.Faults
/-!
# `compress` with a sink or a reader that panics
-/

namespace Zopfli
open Unwind

variable {σ ρ : Type} {I Q : σ → Prop}

theorem flushBuf_of_tame (env : WildEnv σ) {k : ErrKind} (hk : k ≠ .interrupted) (e : Encoder σ) (buf : List UInt8) (x) :
    flushBuf (WildEnv.tame env k) e buf = some x → ∃ y, Unwind.flushBuf env e buf = some y ∧ x = tameP k y := by
  refine flushBuf.partial_correctness (env := WildEnv.tame env k) (motive := fun e buf x => ∃ y, Unwind.flushBuf env e buf = some y ∧ x = tameP k y) ?_ e buf x
  intro rec ih e buf x h
  rw [Unwind.flushBuf]
  split at h
  · rw [if_pos ‹_›]; cases h; exact ⟨_, rfl, rfl⟩
  · rw [if_neg ‹_›]
    rw [write_tame env hk] at h
    rcases hw : Unwind.write env e buf with _ | ⟨(f | _) | n, e'⟩ <;> rw [hw] at h
    · cases h
    · rcases f with _ | _ | m
      · exact ih _ _ _ h
      · cases h; exact ⟨_, rfl, rfl⟩
      · cases h; exact ⟨_, rfl, rfl⟩
    · cases k with
      | interrupted => exact absurd rfl hk
      | _ => cases h; exact ⟨_, rfl, rfl⟩
    · rcases n with _ | n
      · cases h; exact ⟨_, rfl, rfl⟩
      · exact ih _ _ _ h

theorem flushBuf_tame_of (env : WildEnv σ) {k : ErrKind} (hk : k ≠ .interrupted) (e : Encoder σ) (buf : List UInt8) (y) :
    Unwind.flushBuf env e buf = some y → flushBuf (WildEnv.tame env k) e buf = some (tameP k y) := by
  refine Unwind.flushBuf.partial_correctness (env := env) (motive := fun e buf y => flushBuf (WildEnv.tame env k) e buf = some (tameP k y)) ?_ e buf y
  intro rec ih e buf x h
  rw [flushBuf]
  split at h
  · rw [if_pos ‹_›]; cases h; rfl
  · rw [if_neg ‹_›]
    rw [write_tame env hk]
    rcases hw : Unwind.write env e buf with _ | ⟨(f | _) | n, e'⟩ <;> rw [hw] at h
    · cases h
    · rcases f with _ | _ | m
      · exact ih _ _ _ h
      · cases h; rfl
      · cases h; rfl
    · cases k with
      | interrupted => exact absurd rfl hk
      | _ => cases h; rfl
    · rcases n with _ | n
      · cases h; rfl
      · exact ih _ _ _ h

theorem flushBuf_tame (env : WildEnv σ) {k : ErrKind} (hk : k ≠ .interrupted) (e : Encoder σ) (buf : List UInt8) :
    flushBuf (WildEnv.tame env k) e buf = (Unwind.flushBuf env e buf).map (tameP k) := by
  cases h : Unwind.flushBuf env e buf with
  | some y => exact flushBuf_tame_of env hk e buf y h
  | none =>
    cases h' : flushBuf (WildEnv.tame env k) e buf with
    | none => rfl
    | some x =>
      obtain ⟨y, h2, -⟩ := flushBuf_of_tame env hk e buf x h'
      rw [h] at h2
      cases h2

/-- what is seen of the result of the copy loop -/
abbrev tameC (k : ErrKind) (x : Except Fault Unit × Encoder σ × List UInt8 × Bool) : Except ErrKind Unit × Encoder σ × List UInt8 :=
  (tameR k x.1, x.2.1, x.2.2.1)

theorem copyLoop_of_tame (env : WildEnv σ) (R : WildReader ρ) {k : ErrKind} (hk : k ≠ .interrupted) (r : ρ) (e : Encoder σ) (buf : List UInt8) (x) :
    copyLoop (WildEnv.tame env k) (tameReader k R) r e buf = some x → ∃ y, Unwind.copyLoop env R r e buf = some y ∧ x = tameC k y := by
  refine copyLoop.partial_correctness (env := WildEnv.tame env k) (R := tameReader k R)
    (motive := fun r e buf x => ∃ y, Unwind.copyLoop env R r e buf = some y ∧ x = tameC k y) ?_ r e buf x
  intro rec ih r e buf x h
  obtain ⟨Rr⟩ := R
  rw [Unwind.copyLoop]
  dsimp only at h ⊢
  split at h
  · rw [if_pos ‹_›]
    simp only [tameReader] at h
    generalize Rr r (MASTER_BLOCK_SIZE - buf.length) = q at h ⊢
    rcases q with ⟨(f | _) | l, r'⟩
    · rcases f with _ | _ | m
      · exact ih _ _ _ _ h
      · cases h; exact ⟨_, rfl, rfl⟩
      · cases h; exact ⟨_, rfl, rfl⟩
    · cases k with
      | interrupted => exact absurd rfl hk
      | _ => cases h; exact ⟨_, rfl, rfl⟩
    · rcases l with _ | ⟨b, bs⟩
      · simp only [List.length_nil, Nat.zero_le, if_true] at h
        cases h; exact ⟨_, rfl, rfl⟩
      · dsimp only at h ⊢
        by_cases hl : (b :: bs).length ≤ MASTER_BLOCK_SIZE - buf.length
        · rw [if_pos hl] at h ⊢
          simp only [hl, if_true] at h
          exact ih _ _ _ _ h
        · rw [if_neg hl] at h ⊢
          cases k with
          | interrupted => exact absurd rfl hk
          | _ => cases h; exact ⟨_, rfl, rfl⟩
  · rw [if_neg ‹_›]
    rw [flushBuf_tame env hk] at h
    rcases hw : Unwind.flushBuf env e buf with _ | ⟨(f | _) | _, e', b'⟩ <;> rw [hw] at h
    · cases h
    · cases h; exact ⟨_, rfl, rfl⟩
    · cases h; exact ⟨_, rfl, rfl⟩
    · exact ih _ _ _ _ h

theorem copyLoop_tame_of (env : WildEnv σ) (R : WildReader ρ) {k : ErrKind} (hk : k ≠ .interrupted) (r : ρ) (e : Encoder σ) (buf : List UInt8) (y) :
    Unwind.copyLoop env R r e buf = some y → copyLoop (WildEnv.tame env k) (tameReader k R) r e buf = some (tameC k y) := by
  refine Unwind.copyLoop.partial_correctness (env := env) (R := R)
    (motive := fun r e buf y => copyLoop (WildEnv.tame env k) (tameReader k R) r e buf = some (tameC k y)) ?_ r e buf y
  intro rec ih r e buf x h
  obtain ⟨Rr⟩ := R
  rw [copyLoop]
  dsimp only at h ⊢
  split at h
  · rw [if_pos ‹_›]
    simp only [tameReader]
    simp only [tameReader] at ih
    generalize Rr r (MASTER_BLOCK_SIZE - buf.length) = q at h ⊢
    rcases q with ⟨(f | _) | l, r'⟩
    · rcases f with _ | _ | m
      · exact ih _ _ _ _ h
      · cases h; rfl
      · cases h; rfl
    · cases k with
      | interrupted => exact absurd rfl hk
      | _ => cases h; rfl
    · rcases l with _ | ⟨b, bs⟩
      · simp only [List.length_nil, Nat.zero_le, if_true]
        cases h; rfl
      · dsimp only at h ⊢
        by_cases hl : (b :: bs).length ≤ MASTER_BLOCK_SIZE - buf.length
        · rw [if_pos hl] at h ⊢
          simp only [hl, if_true]
          exact ih _ _ _ _ h
        · rw [if_neg hl] at h ⊢
          cases k with
          | interrupted => exact absurd rfl hk
          | _ => cases h; rfl
  · rw [if_neg ‹_›]
    rw [flushBuf_tame env hk]
    rcases hw : Unwind.flushBuf env e buf with _ | ⟨(f | _) | _, e', b'⟩ <;> rw [hw] at h
    · cases h
    · cases h; rfl
    · cases h; rfl
    · exact ih _ _ _ _ h

theorem copyLoop_tame (env : WildEnv σ) (R : WildReader ρ) {k : ErrKind} (hk : k ≠ .interrupted) (r : ρ) (e : Encoder σ) (buf : List UInt8) :
    copyLoop (WildEnv.tame env k) (tameReader k R) r e buf = (Unwind.copyLoop env R r e buf).map (tameC k) := by
  cases h : Unwind.copyLoop env R r e buf with
  | some y => exact copyLoop_tame_of env R hk r e buf y h
  | none =>
    cases h' : copyLoop (WildEnv.tame env k) (tameReader k R) r e buf with
    | none => rfl
    | some x =>
      obtain ⟨y, h2, -⟩ := copyLoop_of_tame env R hk r e buf x h'
      rw [h] at h2
      cases h2

/-! ## What happens to the sink -/

theorem flushBuf_post {env : WildEnv σ} (hS : PanicsAtMostOnce env.S I Q) (e : Encoder σ) (buf : List UInt8) (x) :
    Unwind.flushBuf env e buf = some x → ∀ s, e.sink? = some s → ∃ t, x.2.1.sink? = some t ∧ Post I Q s x.1 t := by
  refine Unwind.flushBuf.partial_correctness (env := env) (motive := fun e buf x => ∀ s, e.sink? = some s → ∃ t, x.2.1.sink? = some t ∧ Post I Q s x.1 t) ?_ e buf x
  intro rec ih e buf x h s hs
  split at h
  · cases h; exact ⟨s, hs, .refl (by nofun)⟩
  · simp only [Option.bind_eq_bind, Option.bind_eq_some_iff, Prod.exists] at h
    obtain ⟨r, e', h1, h2⟩ := h
    obtain ⟨t, g1, g2⟩ := write_post hS hs h1
    rcases r with (f | _) | n
    · rcases f with _ | _ | m
      · obtain ⟨u, g3, g4⟩ := ih _ _ _ h2 t g1
        exact ⟨u, g3, g2.trans g4⟩
      · cases h2; exact ⟨t, g1, g2.congr (by constructor <;> nofun)⟩
      · cases h2; exact ⟨t, g1, g2.congr (by constructor <;> nofun)⟩
    · cases h2; exact ⟨t, g1, g2.congr (by simp)⟩
    · rcases n with _ | n
      · cases h2; exact ⟨t, g1, g2.congr (by constructor <;> nofun)⟩
      · obtain ⟨u, g3, g4⟩ := ih _ _ _ h2 t g1
        exact ⟨u, g3, g2.trans g4⟩

/-- whether the panic was the sink's -/
abbrev broke (b : Bool) : Except Fault Unit := if b then .error .panic else .ok ()

theorem copyLoop_post {env : WildEnv σ} (hS : PanicsAtMostOnce env.S I Q) (R : WildReader ρ) (r : ρ) (e : Encoder σ) (buf : List UInt8) (x) :
    Unwind.copyLoop env R r e buf = some x → ∀ s, e.sink? = some s →
      (x.2.2.2 = true → x.1 = .error .panic) ∧ ∃ t, x.2.1.sink? = some t ∧ Post I Q s (broke x.2.2.2) t := by
  refine Unwind.copyLoop.partial_correctness (env := env) (R := R)
    (motive := fun r e buf x => ∀ s, e.sink? = some s → (x.2.2.2 = true → x.1 = .error .panic) ∧ ∃ t, x.2.1.sink? = some t ∧ Post I Q s (broke x.2.2.2) t) ?_ r e buf x
  intro rec ih r e buf x h s hs
  have here : ∀ y : Except Fault Unit, x = (y, e, buf, false) → (x.2.2.2 = true → x.1 = .error .panic) ∧ ∃ t, x.2.1.sink? = some t ∧ Post I Q s (broke x.2.2.2) t := by
    rintro y rfl
    exact ⟨by nofun, s, hs, .refl (by nofun)⟩
  dsimp only at h
  split at h
  · rcases hr : R.read r (MASTER_BLOCK_SIZE - buf.length) with ⟨(f | _) | l, r'⟩ <;> rw [hr] at h
    · rcases f with _ | _ | m
      · exact ih _ _ _ _ h s hs
      · cases h; exact here _ rfl
      · cases h; exact here _ rfl
    · cases h; exact here _ rfl
    · rcases l with _ | ⟨b, bs⟩
      · cases h; exact here _ rfl
      · dsimp only at h
        split at h
        · exact ih _ _ _ _ h s hs
        · cases h; exact here _ rfl
  · rcases hw : Unwind.flushBuf env e buf with _ | ⟨(f | _) | _, e', b'⟩ <;> rw [hw] at h
    · cases h
    · cases h
      obtain ⟨t, g1, g2⟩ := flushBuf_post hS _ _ _ hw s hs
      exact ⟨by nofun, t, g1, g2.congr (by constructor <;> nofun)⟩
    · cases h
      obtain ⟨t, g1, g2⟩ := flushBuf_post hS _ _ _ hw s hs
      exact ⟨fun _ => rfl, t, g1, g2⟩
    · obtain ⟨t, g1, g2⟩ := flushBuf_post hS _ _ _ hw s hs
      obtain ⟨g3, u, g4, g5⟩ := ih _ _ _ _ h t g1
      exact ⟨g3, u, g4, g2.trans g5⟩

/-! ## All of `compress` -/

/-- `e` is the encoder at some point of `compress`. -/
def Reached (env : Env σ) (R : Reader ρ) (fmt : Format) (r : ρ) (s : σ) (e : Encoder σ) : Prop :=
  ∃ e0 t q e1 b1, Encoder.new env fmt s = some (.ok e0, t) ∧ copyLoop env R r e0 [] = some (q, e1, b1) ∧
    (e = e1 ∨ ∃ q2 b2, flushBuf env e1 b1 = some (q2, e, b2))

/-- Two ways to leave `compress`: as if the sink and the reader had returned the error `k`; or the sink has broken the `BufWriter`, whose
contents are lost. -/
def WaysOut (env : WildEnv σ) (R : WildReader ρ) (fmt : Format) (r : ρ) (k : ErrKind) (I Q : σ → Prop) (s : σ) (x : Option (Fate × σ)) (y : Option (Except ErrKind Unit × σ)) : Prop :=
  Agree x y ∨ ∃ (e : Encoder σ) (buf : List UInt8) (t : σ), e.sink? = some t ∧ (I s → Q t) ∧ ¬ Q s ∧
    Reached (WildEnv.tame env k) (tameReader k R) fmt r s e ∧
    y = (dropBuffered (WildEnv.tame env k) e buf).map (fun u => (.error k, u)) ∧
    x = (Unwind.drop env true e).map fun d => (afterDrop false .panicked d.1, d.2)

theorem dropBuffered_tame (env : WildEnv σ) {k : ErrKind} (hk : k ≠ .interrupted) (u : Bool) (e : Encoder σ) (buf : List UInt8) :
    match Unwind.dropBuffered env u e buf false with
    | none => dropBuffered (WildEnv.tame env k) e buf = none
    | some (o, s) => o = .aborted ∨ dropBuffered (WildEnv.tame env k) e buf = some s ∧ (o = .returned (.ok ()) ∨ o = .panicked) := by
  simp only [Unwind.dropBuffered, dropBuffered]
  rw [flushBuf_tame env hk]
  rcases Unwind.flushBuf env e buf with _ | ⟨(f | _) | _, e', b'⟩
  · rfl
  · have h := drop_tame env hk u e'
    simp only [Option.map_some, some_bind, tameP] at h ⊢
    generalize Unwind.drop env u e' = x at h ⊢
    exact h
  · have h := drop_tame env hk true e'
    cases u with
    | true =>
      simp only [Option.map_some, some_bind, tameP] at h ⊢
      generalize Unwind.drop env true e' = x at h ⊢
      rcases x with _ | ⟨o, s⟩
      · exact h
      · exact .inl rfl
    | false =>
      simp only [Option.map_some, some_bind, tameP] at h ⊢
      generalize Unwind.drop env true e' = x at h ⊢
      rcases x with _ | ⟨o, s⟩
      · exact h
      · rcases h with rfl | ⟨h1, rfl | rfl⟩
        · exact .inl rfl
        · exact .inr ⟨h1, .inr rfl⟩
        · exact .inl rfl
  · have h := drop_tame env hk u e'
    simp only [Option.map_some, some_bind, tameP] at h ⊢
    generalize Unwind.drop env u e' = x at h ⊢
    exact h

theorem abandon_tame (env : WildEnv σ) {k : ErrKind} (hk : k ≠ .interrupted) (e : Encoder σ) (buf : List UInt8) (f : Fault) :
    Agree (Unwind.compress.abandon env e buf false f) ((dropBuffered (WildEnv.tame env k) e buf).map fun u => (.error (f.tame k), u)) := by
  rcases f with f | _
  · have h := dropBuffered_tame env hk false e buf
    simp only [Unwind.compress.abandon]
    generalize Unwind.dropBuffered env false e buf false = x at h ⊢
    rcases x with _ | ⟨o, s⟩
    · dsimp only at h
      rw [h]; rfl
    · rcases h with rfl | ⟨h1, rfl | rfl⟩
      · exact .inl rfl
      · rw [h1]; exact .inr ⟨_, rfl, rfl⟩
      · rw [h1]; exact .inr ⟨_, rfl, ⟨_, rfl⟩⟩
  · have h := dropBuffered_tame env hk true e buf
    simp only [Unwind.compress.abandon]
    generalize Unwind.dropBuffered env true e buf false = x at h ⊢
    rcases x with _ | ⟨o, s⟩
    · dsimp only at h
      rw [h]; rfl
    · rcases h with rfl | ⟨h1, rfl | rfl⟩
      · exact .inl rfl
      · rw [h1]; exact .inr ⟨_, rfl, ⟨_, rfl⟩⟩
      · exact .inl rfl

theorem abandon_broken (env : WildEnv σ) (e : Encoder σ) (buf : List UInt8) :
    Unwind.compress.abandon env e buf true .panic = (Unwind.drop env true e).map fun d => (afterDrop false .panicked d.1, d.2) := by
  simp only [Unwind.compress.abandon, Unwind.dropBuffered, if_true]
  rcases Unwind.drop env true e with _ | ⟨o, s⟩ <;> rfl

theorem compress_tame {F : FloatOps} {S : WildSink σ} (hS : PanicsAtMostOnce S I Q) (R : WildReader ρ) {k : ErrKind} (hk : k ≠ .interrupted)
    (o : Options) (fmt : Format) (r : ρ) (s : σ) :
    WaysOut ⟨F, S, o, .dynamic⟩ R fmt r k I Q s (Unwind.compress F S R o fmt r s) (compress F (tame k S) (tameReader k R) o fmt r s) := by
  simp only [compress, Unwind.compress]
  have he : (⟨F, tame k S, o, .dynamic⟩ : Env σ) = WildEnv.tame ⟨F, S, o, .dynamic⟩ k := rfl
  simp only [he]
  have hS' : PanicsAtMostOnce (⟨F, S, o, .dynamic⟩ : WildEnv σ).S I Q := hS
  generalize (⟨F, S, o, .dynamic⟩ : WildEnv σ) = env at hS' ⊢
  rw [new_tame env hk]
  rcases hn : Unwind.new env fmt s with _ | ⟨(f | _) | e, t⟩
  · exact .inl rfl
  · exact .inl (.inr ⟨_, rfl, rfl⟩)
  · exact .inl (.inr ⟨_, rfl, _, rfl⟩)
  · obtain ⟨p1, p2⟩ := new_post hS' hn
    have p2 := p2 e rfl
    simp only [Option.map_some, some_bind, tameP, tameR_ok]
    have hn' := new_tame env hk fmt s
    rw [hn] at hn'
    have hc' := copyLoop_tame env R hk r e []
    rw [hc']
    rcases hc : Unwind.copyLoop env R r e [] with _ | ⟨f | _, e', buf, b⟩ <;> rw [hc] at hc'
    · exact .inl rfl
    · obtain ⟨q1, u, q2, q3⟩ := copyLoop_post hS' R _ _ _ _ hc t p2
      simp only [Option.map_some, some_bind, tameC, tameR]
      cases b with
      | false =>
        refine .inl ?_
        have h := abandon_tame env hk e' buf f
        generalize dropBuffered (WildEnv.tame env k) e' buf = y at h ⊢
        rcases y <;> exact h
      | true =>
        have q1 := q1 rfl
        cases q1
        refine .inr ⟨e', buf, u, q2, ?_, ?_, ⟨_, _, _, _, _, hn', hc', .inl rfl⟩, ?_, abandon_broken env e' buf⟩
        · intro h
          exact (q3.1 (p1.1 h).1).2 rfl
        · intro h
          exact (q3.2 (p1.2 h).1).2 rfl
        · rcases dropBuffered (WildEnv.tame env k) e' buf <;> rfl
    · obtain ⟨q1, u, q2, q3⟩ := copyLoop_post hS' R _ _ _ _ hc t p2
      cases b with
      | true => cases q1 rfl
      | false =>
      simp only [Option.map_some, some_bind, tameC, tameR_ok]
      have hf' := flushBuf_tame env hk e' buf
      rw [hf']
      rcases hf : Unwind.flushBuf env e' buf with _ | ⟨(f | _) | _, e2, b2⟩ <;> rw [hf] at hf'
      · exact .inl rfl
      · refine .inl ?_
        simp only [Option.map_some, some_bind, tameP, tameR_error]
        have h := abandon_tame env hk e2 b2 (.error f)
        generalize dropBuffered (WildEnv.tame env k) e2 b2 = y at h ⊢
        rcases y <;> exact h
      · obtain ⟨v, j1, j2⟩ := flushBuf_post hS' _ _ _ hf u q2
        simp only [Option.map_some, some_bind, tameP, tameR_panic]
        refine .inr ⟨e2, b2, v, j1, ?_, ?_, ⟨_, _, _, _, _, hn', hc', .inr ⟨_, _, hf'⟩⟩, ?_, abandon_broken env e2 b2⟩
        · intro h
          exact (j2.1 (q3.1 (p1.1 h).1).1).2 rfl
        · intro h
          exact (j2.2 (q3.2 (p1.2 h).1).1).2 rfl
        · rcases dropBuffered (WildEnv.tame env k) e2 b2 <;> rfl
      · refine .inl ?_
        simp only [Option.map_some, some_bind, tameP, tameR_ok]
        exact finish_tame env hk false e2

/-! ## No abort -/

theorem afterDrop_returned {a d : Fate} {r : Except ErrKind Unit} (h1 : a ≠ .aborted) (h2 : d = .returned r) : afterDrop false a d = a := by
  subst h2
  rcases a with _ | _ | _
  · rfl
  · rfl
  · exact absurd rfl h1

theorem dropBuffered_post {env : WildEnv σ} (hS : PanicsAtMostOnce env.S I Q) {u : Bool} {e : Encoder σ} {buf : List UInt8} {b : Bool} {s : σ}
    (hs : e.sink? = some s) {x} (h : Unwind.dropBuffered env u e buf b = some x) :
    (Q s → Q x.2 ∧ ∃ r, x.1 = .returned r) ∧ (u = false → I s → x.1 ≠ .aborted ∧ (x.1 = .panicked → Q x.2)) := by
  unfold Unwind.dropBuffered at h
  split at h
  · have := drop_post hS hs h
    exact ⟨fun j => this.1 j, fun j1 j2 => (this.2 j1 j2).2⟩
  · simp only [Option.bind_eq_bind, Option.bind_eq_some_iff, Prod.exists] at h
    obtain ⟨r, e', b', h1, h2⟩ := h
    obtain ⟨t, g1, g2⟩ := flushBuf_post hS _ _ _ h1 s hs
    have key : Unwind.drop env u e' = some x → (Q s → Q x.2 ∧ ∃ r, x.1 = .returned r) ∧ (u = false → I s → x.1 ≠ .aborted ∧ (x.1 = .panicked → Q x.2)) := by
      intro h
      have g3 := drop_post hS g1 h
      exact ⟨fun j => g3.1 (g2.2 j).1, fun j1 j2 => (g3.2 j1 (g2.1 j2).1).2⟩
    rcases r with (f | _) | _
    · exact key h2
    · refine ⟨fun j => absurd rfl (g2.2 j).2, ?_⟩
      rintro rfl j
      simp only [Bool.false_eq_true, if_false, Option.bind_eq_some_iff, Prod.exists] at h2
      obtain ⟨d, s', h3, h4⟩ := h2
      cases h4
      obtain ⟨g4, r, g3⟩ := (drop_post hS g1 h3).1 ((g2.1 j).2 rfl)
      rw [afterDrop_returned (by nofun) g3]
      exact ⟨by nofun, fun _ => g4⟩
    · exact key h2

/-- `compress`: with a sink that does not panic any more, the process is not aborted, and `compress` returns unless the reader panics; with a
sink that panics at most once the process is not aborted unless the reader panics. -/
theorem compress_post {F : FloatOps} {S : WildSink σ} (hS : PanicsAtMostOnce S I Q) {R : WildReader ρ} {o : Options} {fmt : Format} {r : ρ} {s : σ} {x}
    (h : Unwind.compress F S R o fmt r s = some x) :
    (Q s → x.1 ≠ .aborted) ∧
    ((∀ e y, Unwind.copyLoop ⟨F, S, o, .dynamic⟩ R r e [] = some y → y.1 = .error .panic → y.2.2.2 = true) →
      (Q s → ∃ q, x.1 = .returned q) ∧ (I s → x.1 ≠ .aborted ∧ (x.1 = .panicked → Q x.2))) := by
  have hS' : PanicsAtMostOnce (⟨F, S, o, .dynamic⟩ : WildEnv σ).S I Q := hS
  simp only [Unwind.compress, Option.bind_eq_bind, Option.bind_eq_some_iff, Prod.exists] at h
  obtain ⟨q, t, h1, h2⟩ := h
  generalize (⟨F, S, o, .dynamic⟩ : WildEnv σ) = env at hS' h1 h2 ⊢
  obtain ⟨p1, p2⟩ := new_post hS' h1
  -- leaving with a returned error
  have ab : ∀ {e : Encoder σ} {buf : List UInt8} {k : ErrKind} {v : σ}, e.sink? = some v → Unwind.compress.abandon env e buf false (.error k) = some x →
      (Q v → ∃ r, x.1 = .returned r) ∧ (I v → x.1 ≠ .aborted ∧ (x.1 = .panicked → Q x.2)) := by
    intro e buf k v hv h
    simp only [Unwind.compress.abandon, Option.bind_eq_bind, Option.bind_eq_some_iff, Prod.exists] at h
    obtain ⟨d, s', h3, h4⟩ := h
    cases h4
    obtain ⟨g1, g2⟩ := dropBuffered_post hS' hv h3
    constructor
    · intro j
      obtain ⟨-, r, g⟩ := g1 j
      exact ⟨_, afterDrop_returned (by nofun) g⟩
    · intro j
      obtain ⟨this, g3⟩ := g2 rfl j
      rcases d with _ | _ | _
      · exact ⟨by nofun, by nofun⟩
      · exact ⟨by nofun, fun _ => g3 rfl⟩
      · exact absurd rfl this
  -- leaving with a panic
  have abp : ∀ {e : Encoder σ} {buf : List UInt8} {b : Bool} {v : σ}, e.sink? = some v → Unwind.compress.abandon env e buf b .panic = some x →
      Q v → x.1 ≠ .aborted ∧ (x.1 = .panicked → Q x.2) := by
    intro e buf b v hv h j
    simp only [Unwind.compress.abandon, Option.bind_eq_bind, Option.bind_eq_some_iff, Prod.exists] at h
    obtain ⟨d, s', h3, h4⟩ := h
    cases h4
    obtain ⟨g3, r, g⟩ := (dropBuffered_post hS' hv h3).1 j
    rw [afterDrop_returned (by nofun) g]
    exact ⟨by nofun, fun _ => g3⟩
  rcases q with k | e
  · cases h2
    have g3 := (p1.congr (r' := (.error k : Except Fault Unit)) (by simp)).fate false
    refine ⟨fun j => ?_, fun _ => ⟨fun j => (g3.1 j).2, fun j => (g3.2 rfl j).2⟩⟩
    obtain ⟨-, r, g⟩ := g3.1 j
    rw [g]; nofun
  · simp only [Option.bind_eq_some_iff, Prod.exists] at h2
    obtain ⟨q, e1, buf, b, h3, h4⟩ := h2
    obtain ⟨q1, u, q2, q3⟩ := copyLoop_post hS' R _ _ _ _ h3 t (p2 e rfl)
    have toQ : Q s → Q u := fun j => (q3.2 (p1.2 j).1).1
    have toI : I s → I u := fun j => (q3.1 (p1.1 j).1).1
    rcases q with (k | _) | _
    · cases b with
      | true => cases q1 rfl
      | false =>
        obtain ⟨g1, g2⟩ := ab q2 h4
        refine ⟨fun j => ?_, fun _ => ⟨fun j => g1 (toQ j), fun j => g2 (toI j)⟩⟩
        obtain ⟨r, g⟩ := g1 (toQ j)
        rw [g]; nofun
    · refine ⟨fun j => (abp q2 h4 (toQ j)).1, fun hc => ?_⟩
      have hb : b = true := hc _ _ h3 rfl
      subst hb
      refine ⟨fun j => absurd rfl (q3.2 (p1.2 j).1).2, fun j => abp q2 h4 ((q3.1 (p1.1 j).1).2 rfl)⟩
    · simp only [Option.bind_eq_some_iff, Prod.exists] at h4
      obtain ⟨q, e2, b2, h5, h6⟩ := h4
      obtain ⟨v, j1, j2⟩ := flushBuf_post hS' _ _ _ h5 u q2
      rcases q with (k | _) | _
      · obtain ⟨g1, g2⟩ := ab j1 h6
        refine ⟨fun j => ?_, fun _ => ⟨fun j => g1 (j2.2 (toQ j)).1, fun j => g2 (j2.1 (toI j)).1⟩⟩
        obtain ⟨r, g⟩ := g1 (j2.2 (toQ j)).1
        rw [g]; nofun
      · refine ⟨fun j => absurd rfl (j2.2 (toQ j)).2, fun _ => ⟨fun j => absurd rfl (j2.2 (toQ j)).2, fun j => ?_⟩⟩
        exact abp j1 h6 ((j2.1 (toI j)).2 rfl)
      · have g6 := finish_post hS' j1 h6
        refine ⟨fun j => ?_, fun _ => ⟨fun j => (g6.1 (j2.2 (toQ j)).1).2, fun j => (g6.2 rfl (j2.1 (toI j)).1).2⟩⟩
        obtain ⟨-, r, g⟩ := g6.1 (j2.2 (toQ j)).1
        rw [g]; nofun

/-- A reader that does not panic does not panic. -/
theorem copyLoop_calm {env : WildEnv σ} {R : Reader ρ} {J : ρ → Prop} {rest : ρ → List UInt8} {res : Except ErrKind Unit} {ν : ρ → Nat}
    (hR : Delivers R J rest res ν) (r : ρ) (e : Encoder σ) (buf : List UInt8) (x) :
    Unwind.copyLoop env R.wild r e buf = some x → J r → x.1 = .error .panic → x.2.2.2 = true := by
  refine Unwind.copyLoop.partial_correctness (env := env) (R := R.wild)
    (motive := fun r e buf x => J r → x.1 = .error .panic → x.2.2.2 = true) ?_ r e buf x
  intro rec ih r e buf x h hJ
  dsimp only at h
  split at h
  · rename_i hroom
    have h0 : 0 < MASTER_BLOCK_SIZE - buf.length := Nat.lt_of_lt_of_le (by decide) hroom
    simp only [Reader.wild] at h
    rcases hR.read r _ hJ h0 with ⟨l, r', e1, h1, h2, h3, h4⟩ | ⟨r', e1, h1, h2, h3⟩ | ⟨r', e1, h1⟩
    · rw [e1] at h
      cases l with
      | nil => exact absurd rfl h1
      | cons b bs =>
        simp only [Except.mapError] at h
        rw [if_pos h2] at h
        exact ih _ _ _ _ h h4
    · rw [e1] at h
      exact ih _ _ _ _ h h3
    · rw [e1] at h
      rcases res with k | _
      · rcases k with _ | _ | m
        · exact absurd rfl hR.not_interrupted
        · cases h; nofun
        · cases h; nofun
      · cases h; nofun
  · rcases hw : Unwind.flushBuf env e buf with _ | ⟨(f | _) | _, e', b'⟩ <;> rw [hw] at h
    · cases h
    · cases h; nofun
    · cases h; exact fun _ => rfl
    · exact ih _ _ _ _ h hJ

theorem copyLoop_calm_honest {env : WildEnv σ} {R : Reader ρ} (hR : ∀ r room l, (R.read r room).1 = .ok l → l.length ≤ room)
    (r : ρ) (e : Encoder σ) (buf : List UInt8) (x) :
    Unwind.copyLoop env R.wild r e buf = some x → x.1 = .error .panic → x.2.2.2 = true := by
  refine Unwind.copyLoop.partial_correctness (env := env) (R := R.wild)
    (motive := fun r e buf x => x.1 = .error .panic → x.2.2.2 = true) ?_ r e buf x
  intro rec ih r e buf x h
  obtain ⟨rd⟩ := R
  dsimp only at h
  split at h
  · simp only [Reader.wild] at h
    have hl := hR r (MASTER_BLOCK_SIZE - buf.length)
    dsimp only at hl
    generalize rd r (MASTER_BLOCK_SIZE - buf.length) = q at h hl
    rcases q with ⟨f | l, r'⟩
    · rcases f with _ | _ | m
      · exact ih _ _ _ _ h
      · cases h; nofun
      · cases h; nofun
    · rcases l with _ | ⟨b, bs⟩
      · cases h; nofun
      · simp only [Except.mapError] at h
        rw [if_pos (hl _ rfl)] at h
        exact ih _ _ _ _ h
  · rcases hw : Unwind.flushBuf env e buf with _ | ⟨(f | _) | _, e', b'⟩ <;> rw [hw] at h
    · cases h
    · cases h; nofun
    · cases h; exact fun _ => rfl
    · exact ih _ _ _ _ h

/-- What is left of the encoder when the sink panics is fit to be dropped. -/
theorem Reached.sane {env : Env σ} (L : FloatLaws env.F) {μ : σ → Nat} (hS : Honest env.S I μ)
    {R : Reader ρ} {J : ρ → Prop} {rest : ρ → List UInt8} {res : Except ErrKind Unit} {ν : ρ → Nat} (hR : Delivers R J rest res ν)
    {fmt : Format} {r : ρ} (hJ : J r) {s : σ} (hI : I s) {e : Encoder σ} (h : Reached env R fmt r s e) : ESane L.lim I e := by
  obtain ⟨e0, t, q, e1, b1, h1, h2, h3⟩ := h
  obtain ⟨x, g1, -, g2⟩ := ESane.new L.lim_ge (env := env) hS fmt hI
  rw [h1] at g1
  cases g1
  obtain ⟨x, g3, g4, g5⟩ := copyLoop_total env L hS hR _ _ _ r e0 [] rfl rfl rfl hJ (by simp) (g2 e0 rfl)
  rw [h2] at g3
  cases g3
  rcases h3 with rfl | ⟨q2, b2, h3⟩
  · exact g4
  · dsimp only [MASTER_BLOCK_SIZE] at g5
    obtain ⟨x, g6, g7, -⟩ := flushBuf_total env L hS g4 (buf := b1) (by have := L.lim_ge; omega)
    rw [h3] at g6
    cases g6
    exact g7

/-! ## The record -/

theorem wildSpy_write_sink (S : WildSink σ) (t : WildSpy σ) (buf : List UInt8) : ((wildSpy S).write t buf).2.sink = (S.write t.sink buf).2 := by
  obtain ⟨Sw, Sf⟩ := S
  simp only [wildSpy]
  generalize Sw t.sink buf = q
  rcases q with ⟨(f | _) | n, u⟩
  · rcases t.failed with _ | g
    · rcases f with _ | _ | m <;> rfl
    · rfl
  · rcases t.failed with _ | g <;> rfl
  · rcases t.failed with _ | g
    · dsimp only
      split
      · rfl
      · split <;> rfl
    · rfl

theorem wildSpy_write_result (S : WildSink σ) (t : WildSpy σ) (buf : List UInt8) : ((wildSpy S).write t buf).1 = (S.write t.sink buf).1 := rfl

theorem wildSpy_flush_sink (S : WildSink σ) (t : WildSpy σ) : ((wildSpy S).flush t).2.sink = (S.flush t.sink).2 := by
  obtain ⟨Sw, Sf⟩ := S
  simp only [wildSpy]
  generalize Sf t.sink = q
  rcases q with ⟨f | n, u⟩ <;> rcases t.failed with _ | g <;> rfl

theorem wildSpy_failed_write (S : WildSink σ) (t : WildSpy σ) (buf : List UInt8) (h : t.failed ≠ none ∨ Panics (S.write t.sink buf).1 buf) :
    ((wildSpy S).write t buf).2.failed ≠ none := by
  obtain ⟨Sw, Sf⟩ := S
  simp only [wildSpy] at h ⊢
  rcases hf : t.failed with _ | g
  · rcases h with h | h
    · exact absurd hf h
    · dsimp only
      generalize Sw t.sink buf = q at h ⊢
      rcases q with ⟨r, u⟩
      rcases h with h | ⟨n, h, h2⟩
      · dsimp only at h
        subst h
        nofun
      · dsimp only at h
        subst h
        dsimp only
        rw [if_neg (by omega), if_neg (by omega)]
        nofun
  · nofun

theorem wildSpy_failed_flush (S : WildSink σ) (t : WildSpy σ) (h : t.failed ≠ none ∨ (S.flush t.sink).1 = .error .panic) :
    ((wildSpy S).flush t).2.failed ≠ none := by
  obtain ⟨Sw, Sf⟩ := S
  simp only [wildSpy] at h ⊢
  rcases hf : t.failed with _ | g
  · rcases h with h | h
    · exact absurd hf h
    · dsimp only
      generalize Sf t.sink = q at h ⊢
      rcases q with ⟨r, u⟩
      dsimp only at h
      subst h
      nofun
  · nofun

theorem wildSpy_once {S : WildSink σ} (hS : PanicsAtMostOnce S I Q) :
    PanicsAtMostOnce (wildSpy S) (fun t => I t.sink) (fun t => Q t.sink ∧ t.failed ≠ none) where
  write t buf h := by
    have := hS.write t.sink buf h
    rw [wildSpy_write_sink, wildSpy_write_result]
    exact ⟨this.1, fun hp => ⟨this.2 hp, wildSpy_failed_write S t buf (.inr hp)⟩⟩
  flush t h := by
    have := hS.flush t.sink h
    rw [wildSpy_flush_sink]
    exact ⟨this.1, fun hp => ⟨this.2 hp, wildSpy_failed_flush S t (.inr hp)⟩⟩
  write_quiet t buf hb h := by
    have := hS.write_quiet t.sink buf hb h.1
    rw [wildSpy_write_sink, wildSpy_write_result]
    exact ⟨⟨this.1, wildSpy_failed_write S t buf (.inl h.2)⟩, this.2⟩
  flush_quiet t h := by
    have := hS.flush_quiet t.sink h.1
    rw [wildSpy_flush_sink]
    exact ⟨⟨this.1, wildSpy_failed_flush S t (.inl h.2)⟩, this.2⟩

end Zopfli
