import Verif.Model.UnwindBuffered
import Verif.Spec.Buffered
import Verif.Proofs.UnwindCompress
import Verif.Proofs.Buffered
/-!
# Buffered encoders with a sink that panics
-/

namespace Zopfli
open Unwind

variable {σ : Type} {I Q : σ → Prop}

abbrev tameB {α : Type} (k : ErrKind) (x : Except Fault α × BufEncoder σ × Bool) : Except ErrKind α × BufEncoder σ := (tameR k x.1, x.2.1)

theorem bufWrite_tame (env : WildEnv σ) {k : ErrKind} (hk : k ≠ .interrupted) (b : BufEncoder σ) (data : List UInt8) :
    BufEncoder.write (WildEnv.tame env k) b data = (Unwind.bufWrite env b data).map (tameB k) := by
  unfold BufEncoder.write Unwind.bufWrite
  dsimp only
  split
  · rfl
  · have hf : (if data.length > MASTER_BLOCK_SIZE - b.buf.length then flushBuf (WildEnv.tame env k) b.inner b.buf else some (.ok (), b.inner, b.buf)) =
        (if data.length > MASTER_BLOCK_SIZE - b.buf.length then Unwind.flushBuf env b.inner b.buf else some (.ok (), b.inner, b.buf)).map (tameP k) := by
      split
      · exact flushBuf_tame env hk _ _
      · rfl
    rw [hf]
    generalize (if data.length > MASTER_BLOCK_SIZE - b.buf.length then Unwind.flushBuf env b.inner b.buf else some (.ok (), b.inner, b.buf)) = x
    rcases x with _ | ⟨f | _, e, buf⟩
    · rfl
    · rfl
    · simp only [Option.map_some, some_bind, tameP, tameR_ok]
      split
      · rw [write_tame env hk]
        rcases Unwind.write env e data with _ | ⟨r, e'⟩ <;> rfl
      · rfl

theorem bufFlush_tame (env : WildEnv σ) {k : ErrKind} (hk : k ≠ .interrupted) (b : BufEncoder σ) :
    BufEncoder.flush (WildEnv.tame env k) b = (Unwind.bufFlush env b).map (tameB k) := by
  unfold BufEncoder.flush Unwind.bufFlush
  rw [flushBuf_tame env hk]
  rcases Unwind.flushBuf env b.inner b.buf with _ | ⟨f | _, e, buf⟩
  · rfl
  · rfl
  · simp only [Option.map_some, some_bind, tameP, tameR_ok]
    rw [flush_tame env]
    rcases Unwind.flush env e with _ | ⟨r, e'⟩ <;> rfl

theorem bufRun_tame (env : WildEnv σ) {k : ErrKind} (hk : k ≠ .interrupted) (calls : List Call) (b : BufEncoder σ) :
    b.run (WildEnv.tame env k) calls = (Unwind.bufRun env calls b).map (tameB k) := by
  induction calls generalizing b with
  | nil => rfl
  | cons c l ih =>
    cases c with
    | write data =>
      unfold BufEncoder.run Unwind.bufRun
      rw [bufWrite_tame env hk]
      rcases Unwind.bufWrite env b data with _ | ⟨f | n, b', p⟩
      · rfl
      · rfl
      · exact ih b'
    | flush =>
      unfold BufEncoder.run Unwind.bufRun
      rw [bufFlush_tame env hk]
      rcases Unwind.bufFlush env b with _ | ⟨f | n, b', p⟩
      · rfl
      · rfl
      · exact ih b'

/-! ## What happens to the sink -/

/-- the flag is only set by a panic -/
theorem bufWrite_post {env : WildEnv σ} (hS : PanicsAtMostOnce env.S I Q) {b : BufEncoder σ} {data : List UInt8} {s : σ} (hs : b.inner.sink? = some s) {x}
    (h : Unwind.bufWrite env b data = some x) : ∃ t, x.2.1.inner.sink? = some t ∧ Post I Q s x.1 t := by
  unfold Unwind.bufWrite at h
  dsimp only at h
  split at h
  · cases h; exact ⟨s, hs, .refl (by nofun)⟩
  · simp only [Option.bind_eq_bind, Option.bind_eq_some_iff, Prod.exists] at h
    obtain ⟨r, e, buf, h1, h2⟩ := h
    have g : ∃ t, e.sink? = some t ∧ Post I Q s r t := by
      split at h1
      · exact flushBuf_post hS _ _ _ h1 s hs
      · cases h1; exact ⟨s, hs, .refl (by nofun)⟩
    obtain ⟨t, g1, g2⟩ := g
    rcases r with f | _
    · cases h2; exact ⟨t, g1, g2.congr (by simp)⟩
    · dsimp only at h2
      split at h2
      · simp only [Option.bind_eq_some_iff, Prod.exists] at h2
        obtain ⟨r, e', h3, h4⟩ := h2
        obtain ⟨u, g3, g4⟩ := write_post hS g1 h3
        cases h4
        exact ⟨u, g3, g2.trans g4⟩
      · cases h2; exact ⟨t, g1, g2.congr (by constructor <;> nofun)⟩

theorem bufFlush_post {env : WildEnv σ} (hS : PanicsAtMostOnce env.S I Q) {b : BufEncoder σ} {s : σ} (hs : b.inner.sink? = some s) {x}
    (h : Unwind.bufFlush env b = some x) : ∃ t, x.2.1.inner.sink? = some t ∧ Post I Q s x.1 t := by
  simp only [Unwind.bufFlush, Option.bind_eq_bind, Option.bind_eq_some_iff, Prod.exists] at h
  obtain ⟨r, e, buf, h1, h2⟩ := h
  obtain ⟨t, g1, g2⟩ := flushBuf_post hS _ _ _ h1 s hs
  rcases r with f | _
  · cases h2; exact ⟨t, g1, g2⟩
  · simp only [Option.bind_eq_some_iff, Prod.exists] at h2
    obtain ⟨r, e', h3, h4⟩ := h2
    obtain ⟨u, g3, g4⟩ := flush_post hS g1 h3
    cases h4
    exact ⟨u, g3, g2.trans g4⟩

theorem bufRun_post {env : WildEnv σ} (hS : PanicsAtMostOnce env.S I Q) {calls : List Call} {b : BufEncoder σ} {s : σ} (hs : b.inner.sink? = some s) {x}
    (h : Unwind.bufRun env calls b = some x) : ∃ t, x.2.1.inner.sink? = some t ∧ Post I Q s x.1 t := by
  induction calls generalizing b s with
  | nil => cases h; exact ⟨s, hs, .refl (by nofun)⟩
  | cons c l ih =>
    cases c with
    | write data =>
      simp only [Unwind.bufRun, Option.bind_eq_bind, Option.bind_eq_some_iff, Prod.exists] at h
      obtain ⟨r, b', p, h1, h2⟩ := h
      obtain ⟨t, g1, g2⟩ := bufWrite_post hS hs h1
      rcases r with f | n
      · cases h2; exact ⟨t, g1, g2.congr (by simp)⟩
      · obtain ⟨u, g3, g4⟩ := ih g1 h2
        exact ⟨u, g3, g2.trans g4⟩
    | flush =>
      simp only [Unwind.bufRun, Option.bind_eq_bind, Option.bind_eq_some_iff, Prod.exists] at h
      obtain ⟨r, b', p, h1, h2⟩ := h
      obtain ⟨t, g1, g2⟩ := bufFlush_post hS hs h1
      rcases r with f | n
      · cases h2; exact ⟨t, g1, g2⟩
      · obtain ⟨u, g3, g4⟩ := ih g1 h2
        exact ⟨u, g3, g2.trans g4⟩

/-- leaving early -/
theorem abandon_post {env : WildEnv σ} (hS : PanicsAtMostOnce env.S I Q) {e : Encoder σ} {buf : List UInt8} {p : Bool} {f : Fault} {s t : σ}
    (hs : e.sink? = some t) (hp : Post I Q s (.error f : Except Fault Unit) t) {x} (h : Unwind.compress.abandon env e buf p f = some x) :
    (Q s → ∃ r, x.1 = .returned r) ∧ (I s → x.1 ≠ .aborted ∧ (x.1 = .panicked → Q x.2)) := by
  rcases f with k | _
  · simp only [Unwind.compress.abandon, Option.bind_eq_bind, Option.bind_eq_some_iff, Prod.exists] at h
    obtain ⟨d, s', h3, h4⟩ := h
    cases h4
    obtain ⟨g1, g2⟩ := dropBuffered_post hS hs h3
    constructor
    · intro j
      obtain ⟨-, r, g⟩ := g1 (hp.2 j).1
      exact ⟨_, afterDrop_returned (by nofun) g⟩
    · intro j
      obtain ⟨this, g3⟩ := g2 rfl (hp.1 j).1
      rcases d with _ | _ | _
      · exact ⟨by nofun, by nofun⟩
      · exact ⟨by nofun, fun _ => g3 rfl⟩
      · exact absurd rfl this
  · refine ⟨fun j => absurd rfl (hp.2 j).2, fun j => ?_⟩
    simp only [Unwind.compress.abandon, Option.bind_eq_bind, Option.bind_eq_some_iff, Prod.exists] at h
    obtain ⟨d, s', h3, h4⟩ := h
    cases h4
    obtain ⟨g3, r, g⟩ := (dropBuffered_post hS hs h3).1 ((hp.1 j).2 rfl)
    rw [afterDrop_returned (by nofun) g]
    exact ⟨by nofun, fun _ => g3⟩

theorem bufferedSession_post {env : WildEnv σ} (hS : PanicsAtMostOnce env.S I Q) {fmt : Format} {calls : List Call} {ending : Ending} {s : σ} {x}
    (h : Unwind.bufferedSession env fmt calls ending s = some x) :
    (Q s → ∃ r, x.1 = .returned r) ∧ (I s → x.1 ≠ .aborted ∧ (x.1 = .panicked → Q x.2)) := by
  unfold Unwind.bufferedSession Unwind.bufNew at h
  rcases hn : Unwind.new env fmt s with _ | ⟨f | e, t⟩ <;> rw [hn] at h
  · cases h
  · cases h
    have g3 := ((new_post hS hn).1.congr (r' := (.error f : Except Fault Unit)) (by simp)).fate false
    exact ⟨fun j => (g3.1 j).2, fun j => (g3.2 rfl j).2⟩
  · obtain ⟨g1, g2⟩ := new_post hS hn
    simp only [some_bind] at h
    change (Unwind.bufRun env calls ⟨e, []⟩ >>= _) = _ at h
    rcases hr : Unwind.bufRun env calls ⟨e, []⟩ with _ | ⟨f | _, b, p⟩ <;> rw [hr] at h
    · cases h
    · obtain ⟨u, g3, g4⟩ := bufRun_post hS (b := ⟨e, []⟩) (g2 e rfl) hr
      exact abandon_post hS g3 (g1.trans g4) h
    · obtain ⟨u, g3, g4⟩ := bufRun_post hS (b := ⟨e, []⟩) (g2 e rfl) hr
      have g5 := g1.trans g4
      simp only [some_bind] at h
      cases ending with
      | finish =>
        dsimp only at h
        rcases hf : Unwind.flushBuf env b.inner b.buf with _ | ⟨f | _, e', buf⟩ <;> rw [hf] at h
        · cases h
        · obtain ⟨v, g6, g7⟩ := flushBuf_post hS _ _ _ hf u g3
          exact abandon_post hS g6 (g5.trans g7) h
        · obtain ⟨v, g6, g7⟩ := flushBuf_post hS _ _ _ hf u g3
          have g8 := g5.trans g7
          have g9 := finish_post hS g6 h
          exact ⟨fun j => (g9.1 (g8.2 j).1).2, fun j => (g9.2 rfl (g8.1 j).1).2⟩
      | drop =>
        obtain ⟨j1, j2⟩ := dropBuffered_post hS g3 h
        exact ⟨fun j => (j1 (g5.2 j).1).2, fun j => j2 rfl (g5.1 j).1⟩

/-! ## As if the sink had returned an error -/

/-- The flag is set only by a panic in the course of which the encoder is written to. -/
theorem bufRun_flag {env : WildEnv σ} {calls : List Call} {b : BufEncoder σ} {x} (h : Unwind.bufRun env calls b = some x) (hx : x.2.2 = true) :
    x.1 = .error .panic := by
  have hu : ∀ {α : Type} {f : Except Fault α}, unwound f = true → f = .error .panic := by
    intro α f h
    rcases f with (f | _) | _
    · cases h
    · rfl
    · cases h
  have hw : ∀ {b : BufEncoder σ} {data} {y}, Unwind.bufWrite env b data = some y → y.2.2 = true → y.1 = .error .panic := by
    intro b data y h hy
    unfold Unwind.bufWrite at h
    dsimp only at h
    split at h
    · cases h; cases hy
    · simp only [Option.bind_eq_bind, Option.bind_eq_some_iff, Prod.exists] at h
      obtain ⟨r, e, buf, h1, h2⟩ := h
      rcases r with f | _
      · cases h2; exact hu hy
      · dsimp only at h2
        split at h2
        · simp only [Option.bind_eq_some_iff, Prod.exists] at h2
          obtain ⟨r, e', h3, h4⟩ := h2
          cases h4; exact hu hy
        · cases h2; cases hy
  have hf : ∀ {b : BufEncoder σ} {y}, Unwind.bufFlush env b = some y → y.2.2 = true → y.1 = .error .panic := by
    intro b y h hy
    simp only [Unwind.bufFlush, Option.bind_eq_bind, Option.bind_eq_some_iff, Prod.exists] at h
    obtain ⟨r, e, buf, h1, h2⟩ := h
    rcases r with f | _
    · cases h2; exact hu hy
    · simp only [Option.bind_eq_some_iff, Prod.exists] at h2
      obtain ⟨r, e', h3, h4⟩ := h2
      cases h4; cases hy
  induction calls generalizing b with
  | nil => cases h; cases hx
  | cons c l ih =>
    cases c with
    | write data =>
      simp only [Unwind.bufRun, Option.bind_eq_bind, Option.bind_eq_some_iff, Prod.exists] at h
      obtain ⟨r, b', p, h1, h2⟩ := h
      rcases r with f | n
      · cases h2
        have := hw h1 hx
        simpa using this
      · exact ih h2
    | flush =>
      simp only [Unwind.bufRun, Option.bind_eq_bind, Option.bind_eq_some_iff, Prod.exists] at h
      obtain ⟨r, b', p, h1, h2⟩ := h
      rcases r with f | n
      · cases h2
        have := hf h1 hx
        simpa using this
      · exact ih h2

/-- The three ways in which a session can end: the process is aborted; as if the sink had returned the error `k`; or what waited in the
buffer is lost, and it is as if the sink had returned `k` to an unbuffered encoder that was given the joined writes. -/
theorem bufferedSession_ways (env : WildEnv σ) {k : ErrKind} (hk : k ≠ .interrupted) (fmt : Format) (calls : List Call) (ending : Ending) (s : σ) :
    match Unwind.bufferedSession env fmt calls ending s with
    | none => bufferedSession (WildEnv.tame env k) fmt calls ending s = none ∨
        (session (WildEnv.tame env k) fmt (coalesce MASTER_BLOCK_SIZE [] calls) ending s = none ∧ ∀ I Q, PanicsAtMostOnce env.S I Q → ¬ Q s)
    | some (o, s') => o = .aborted ∨
        (∃ r, bufferedSession (WildEnv.tame env k) fmt calls ending s = some (r, s') ∧ SessionFate ending o r) ∨
        (o = .panicked ∧ session (WildEnv.tame env k) fmt (coalesce MASTER_BLOCK_SIZE [] calls) ending s = some (.error k, s')) := by
  simp only [bufferedSession, BufEncoder.new, session, Unwind.bufferedSession, Unwind.bufNew]
  rw [new_tame env hk]
  rcases hn : Unwind.new env fmt s with _ | ⟨(f | _) | e, t⟩
  · exact .inl rfl
  · exact .inr (.inl ⟨_, rfl, rfl⟩)
  · exact .inr (.inl ⟨_, rfl, .inl ⟨_, rfl⟩⟩)
  · simp only [Option.map_some, some_bind, tameP, tameR_ok, pure]
    have hrun := bufRun_eq (WildEnv.tame env k) calls e [] (Nat.zero_le _)
    rw [bufRun_tame env hk] at hrun
    rw [bufRun_tame env hk, hrun]
    -- leaving with a broken `BufWriter`
    have broken : ∀ (e1 : Encoder σ) (buf : List UInt8) (A : Option (Except ErrKind Unit × σ)), (∀ I Q, PanicsAtMostOnce env.S I Q → ¬ Q s) →
        match Unwind.compress.abandon env e1 buf true .panic with
        | none => A = none ∨ ((e1.drop (WildEnv.tame env k)).bind (fun u => some ((Except.error k : Except ErrKind Unit), u)) = none ∧
            ∀ I Q, PanicsAtMostOnce env.S I Q → ¬ Q s)
        | some (o, s') => o = .aborted ∨ (∃ r, A = some (r, s') ∧ SessionFate ending o r) ∨
            (o = .panicked ∧ (e1.drop (WildEnv.tame env k)).bind (fun u => some ((Except.error k : Except ErrKind Unit), u)) = some (.error k, s')) := by
      intro e1 buf A hq
      rw [abandon_broken]
      have h := drop_tame env hk true e1
      generalize Unwind.drop env true e1 = x at h ⊢
      rcases x with _ | ⟨d, u⟩
      · have h : e1.drop (WildEnv.tame env k) = none := h
        right
        rw [h]; exact ⟨rfl, hq⟩
      · rcases h with rfl | ⟨h, rfl | rfl⟩
        · exact .inl rfl
        · right; right
          rw [h]; exact ⟨rfl, rfl⟩
        · exact .inl rfl
    -- leaving with a `BufWriter` that still works
    have whole : ∀ (e1 : Encoder σ) (buf : List UInt8) (f : Fault) (B : Option (Except ErrKind Unit × σ)),
        match Unwind.compress.abandon env e1 buf false f with
        | none => (dropBuffered (WildEnv.tame env k) e1 buf).bind (fun u => some ((Except.error (f.tame k) : Except ErrKind Unit), u)) = none ∨ (B = none ∧ ∀ I Q, PanicsAtMostOnce env.S I Q → ¬ Q s)
        | some (o, s') => o = .aborted ∨
            (∃ r, (dropBuffered (WildEnv.tame env k) e1 buf).bind (fun u => some ((Except.error (f.tame k) : Except ErrKind Unit), u)) = some (r, s') ∧ SessionFate ending o r) ∨
            (o = .panicked ∧ B = some (.error k, s')) := by
      intro e1 buf f B
      have h := abandon_tame env hk e1 buf f
      generalize Unwind.compress.abandon env e1 buf false f = x at h ⊢
      generalize dropBuffered (WildEnv.tame env k) e1 buf = y at h ⊢
      rcases x with _ | ⟨o, s'⟩
      · rcases y with _ | y
        · exact .inl rfl
        · cases h
      · rcases h with rfl | ⟨r, h1, h2⟩
        · exact .inl rfl
        · rcases y with _ | y
          · cases h1
          · cases h1
            refine .inr (.inl ⟨_, rfl, ?_⟩)
            rcases o with _ | _ | _
            · exact h2
            · exact .inl h2
            · exact h2
    rcases hr : Unwind.bufRun env calls ⟨e, []⟩ with _ | ⟨f | _, b, p⟩
    · exact .inl rfl
    · simp only [Option.map_some, some_bind, tameB, tameR]
      cases p with
      | true =>
        have hf := bufRun_flag hr rfl
        cases hf
        refine broken b.inner b.buf _ fun I Q hS hQ => ?_
        obtain ⟨g1, g2⟩ := new_post hS hn
        obtain ⟨u, g3, g4⟩ := bufRun_post hS (b := ⟨e, []⟩) (g2 e rfl) hr
        exact ((g1.trans g4).2 hQ).2 rfl
      | false => exact whole b.inner b.buf f _
    · simp only [Option.map_some, some_bind, tameB, tameR_ok]
      have hf' := flushBuf_tame env hk b.inner b.buf
      cases ending with
      | finish =>
        simp only [BufEncoder.intoInnerFinish, BufEncoder.drop]
        rw [hf']
        rcases hf : Unwind.flushBuf env b.inner b.buf with _ | ⟨f | _, e2, b2⟩
        · exact .inl rfl
        · simp only [Option.map_some, some_bind, tameP, tameR, noBuf]
          rcases f with f | _
          · exact whole e2 b2 (.error f) _
          · refine broken e2 b2 _ fun I Q hS hQ => ?_
            obtain ⟨g1, g2⟩ := new_post hS hn
            obtain ⟨u, g3, g4⟩ := bufRun_post hS (b := ⟨e, []⟩) (g2 e rfl) hr
            obtain ⟨v, g5, g6⟩ := flushBuf_post hS _ _ _ hf u g3
            exact (((g1.trans g4).trans g6).2 hQ).2 rfl
        · simp only [Option.map_some, some_bind, tameP, tameR_ok, noBuf]
          have h := finish_tame env hk false e2
          generalize Unwind.finish env false e2 = x at h ⊢
          rcases x with _ | ⟨o, s'⟩
          · exact .inl h
          · rcases h with rfl | ⟨r, h1, h2⟩
            · exact .inl rfl
            · refine .inr (.inl ⟨r, h1, ?_⟩)
              rcases o with _ | _ | _
              · exact h2
              · exact .inl h2
              · exact h2
      | drop =>
        have h := dropBuffered_tame env hk false b.inner b.buf
        simp only [BufEncoder.drop]
        generalize Unwind.dropBuffered env false b.inner b.buf false = x at h ⊢
        rcases x with _ | ⟨o, s'⟩
        · left
          dsimp only at h
          rw [h]; rfl
        · rcases h with rfl | ⟨h1, rfl | rfl⟩
          · exact .inl rfl
          · rw [h1]; exact .inr (.inl ⟨_, rfl, rfl⟩)
          · rw [h1]; exact .inr (.inl ⟨_, rfl, .inr ⟨rfl, rfl⟩⟩)

end Zopfli
