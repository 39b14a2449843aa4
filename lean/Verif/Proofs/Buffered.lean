import Verif.Spec.Buffered
import Verif.Proofs.Faults
import Verif.Proofs.Total
/-! # Sessions with a buffered encoder -/

namespace Zopfli
open Rfc

variable {σ τ : Type}

/-! ## Encoders consume everything or fail -/

theorem addBytes_not_interrupted {S : Sink σ} {w : BitwiseWriter σ} {l : List UInt8} {r : Except ErrKind Unit × BitwiseWriter σ}
    (h : w.addBytes S l = some r) : r.1 ≠ .error .interrupted := by
  unfold BitwiseWriter.addBytes at h
  cases hw : S.writeAll w.out l with
  | none => rw [hw] at h; cases h
  | some p =>
    have := writeAll_not_interrupted hw
    obtain ⟨q, s⟩ := p
    rw [hw, some_bind] at h
    cases h
    exact this

theorem finishPartialBits_not_interrupted {S : Sink σ} {w : BitwiseWriter σ} {r : Except ErrKind Unit × BitwiseWriter σ}
    (h : w.finishPartialBits S = some r) : r.1 ≠ .error .interrupted := by
  unfold BitwiseWriter.finishPartialBits at h
  split at h
  · cases hw : w.addBytes S [w.bit] with
    | none => rw [hw] at h; cases h
    | some p =>
      have := addBytes_not_interrupted hw
      obtain ⟨q, s⟩ := p
      rw [hw, some_bind] at h
      cases q with
      | ok u => cases h; intro h; cases h
      | error k => cases h; exact this
  · cases h; intro h; cases h

theorem execAll_not_interrupted [Checks] {S : Sink σ} : ∀ (ops : List WOp) {w : BitwiseWriter σ} {r : Except ErrKind Unit × BitwiseWriter σ},
    w.execAll S ops = some r → r.1 ≠ .error .interrupted
  | [], w, r, h => by cases h; intro h; cases h
  | op :: ops, w, r, h => by
    rw [BitwiseWriter.execAll] at h
    cases hw : w.exec S op with
    | none => rw [hw] at h; cases h
    | some p =>
      obtain ⟨q, s⟩ := p
      rw [hw, some_bind] at h
      cases q with
      | ok u => exact execAll_not_interrupted ops h
      | error k =>
        cases h
        cases op with
        | bit b =>
          simp only [BitwiseWriter.exec, BitwiseWriter.addBit] at hw
          split at hw
          · cases hw
          · split at hw
            · exact finishPartialBits_not_interrupted hw
            · cases hw
        | align => exact finishPartialBits_not_interrupted hw
        | bytes l => exact addBytes_not_interrupted hw

theorem writeD_result [Checks] (env : Env σ) {d : DeflateEncoder σ} {buf : List UInt8} {r : Except ErrKind Nat × DeflateEncoder σ}
    (h : d.write env buf = some r) : r.1 = .ok buf.length ∨ ∃ k, k ≠ .interrupted ∧ r.1 = .error k := by
  unfold DeflateEncoder.write at h
  split at h
  · cases hc : d.compressChunk env false with
    | none => rw [hc] at h; cases h
    | some p =>
      have hn : p.1 ≠ .error .interrupted := by
        unfold DeflateEncoder.compressChunk at hc
        simp only [Option.bind_eq_bind, Option.bind_eq_some_iff, Prod.exists] at hc
        obtain ⟨w, -, ops, -, q, w', hx, hc⟩ := hc
        cases hc
        exact execAll_not_interrupted ops hx
      obtain ⟨q, d'⟩ := p
      rw [hc, some_bind] at h
      cases q with
      | error k => cases h; exact .inr ⟨k, by rintro rfl; exact hn rfl, rfl⟩
      | ok u => cases h; exact .inl rfl
  · cases h
    exact .inl rfl

theorem Encoder.write_result [Checks] (env : Env σ) {e : Encoder σ} {buf : List UInt8} {r : Except ErrKind Nat × Encoder σ}
    (h : e.write env buf = some r) : r.1 = .ok buf.length ∨ ∃ k, k ≠ .interrupted ∧ r.1 = .error k := by
  cases e with
  | deflate d =>
    simp only [Encoder.write, Option.bind_eq_bind, Option.bind_eq_some_iff, Prod.exists] at h
    obtain ⟨q, d', hw, h⟩ := h
    cases h
    exact writeD_result env hw
  | gzip g =>
    simp only [Encoder.write, GzipEncoder.write, Option.bind_eq_bind, Option.bind_eq_some_iff, Prod.exists] at h
    obtain ⟨q, d', ⟨d, -, q', d'', hw, h'⟩, h⟩ := h
    cases h
    have := writeD_result env hw
    cases q' with
    | error k => cases h'; rcases this with h | ⟨k', h1, h2⟩ <;> [cases h; (cases h2; exact .inr ⟨k, h1, rfl⟩)]
    | ok n => cases h'; rcases this with h | ⟨k', h1, h2⟩ <;> [(cases h; exact .inl rfl); cases h2]
  | zlib g =>
    simp only [Encoder.write, ZlibEncoder.write, Option.bind_eq_bind, Option.bind_eq_some_iff, Prod.exists] at h
    obtain ⟨q, d', ⟨d, -, q', d'', hw, h'⟩, h⟩ := h
    cases h
    have := writeD_result env hw
    cases q' with
    | error k => cases h'; rcases this with h | ⟨k', h1, h2⟩ <;> [cases h; (cases h2; exact .inr ⟨k, h1, rfl⟩)]
    | ok n => cases h'; rcases this with h | ⟨k', h1, h2⟩ <;> [(cases h; exact .inl rfl); cases h2]

/-- One write suffices to empty a buffer. -/
theorem flushBuf_once [Checks] (env : Env σ) (e : Encoder σ) {p : List UInt8} (hp : p ≠ []) : flushBuf env e p = do
    let (r, e) ← e.write env p
    match r with
    | .ok _ => return (.ok (), e, [])
    | .error k => return (.error k, e, p) := by
  rw [flushBuf, if_neg hp]
  cases hw : e.write env p with
  | none => rfl
  | some x =>
    have := Encoder.write_result env hw
    obtain ⟨r, e'⟩ := x
    rw [some_bind, some_bind]
    dsimp only at this ⊢
    have hl : p.length ≠ 0 := by simpa using hp
    obtain ⟨n, hn⟩ : ∃ n, p.length = n + 1 := ⟨p.length - 1, by omega⟩
    rcases this with rfl | ⟨k, h1, rfl⟩
    · rw [hn]
      dsimp only
      rw [← hn, List.drop_length, flushBuf_nil]
      rfl
    · cases k with
      | interrupted => exact absurd rfl h1
      | writeZero => rfl
      | other j => rfl

theorem Encoder.run_append [Checks] (env : Env σ) : ∀ (a b : List Call) (e : Encoder σ), e.run env (a ++ b) = do
    let (r, e) ← e.run env a
    match r with
    | .ok () => e.run env b
    | .error k => return (.error k, e)
  | [], b, e => rfl
  | .write buf :: a, b, e => by
    rw [List.cons_append, Encoder.run, Encoder.run]
    cases e.write env buf with
    | none => rfl
    | some x =>
      obtain ⟨r, e'⟩ := x
      cases r with
      | ok n => exact Encoder.run_append env a b e'
      | error k => rfl
  | .flush :: a, b, e => by
    rw [List.cons_append, Encoder.run, Encoder.run]
    cases e.flush env with
    | none => rfl
    | some x =>
      obtain ⟨r, e'⟩ := x
      cases r with
      | ok n => exact Encoder.run_append env a b e'
      | error k => rfl

/-- Forget the buffer. -/
def noBuf (x : Except ErrKind Unit × Encoder σ × List UInt8) : Except ErrKind Unit × Encoder σ := (x.1, x.2.1)

theorem run_pendingWrite [Checks] (env : Env σ) (p : List UInt8) (e : Encoder σ) : e.run env (pendingWrite p) = (flushBuf env e p).map noBuf := by
  unfold pendingWrite
  by_cases hp : p = []
  · subst hp
    rw [if_pos rfl, flushBuf_nil]
    rfl
  · rw [if_neg hp, flushBuf_once env e hp, Encoder.run]
    cases e.write env p with
    | none => rfl
    | some x =>
      obtain ⟨r, e'⟩ := x
      cases r <;> rfl

theorem flushBuf_ok_nil [Checks] (env : Env σ) {e e' : Encoder σ} {p p' : List UInt8} (h : flushBuf env e p = some (.ok (), e', p')) : p' = [] := by
  by_cases hp : p = []
  · subst hp
    rw [flushBuf_nil] at h
    cases h
    rfl
  · rw [flushBuf_once env e hp] at h
    simp only [Option.bind_eq_bind, Option.bind_eq_some_iff, Prod.exists] at h
    obtain ⟨q, d', hw, h⟩ := h
    cases q <;> cases h
    rfl

/-- **The buffer only joins writes**: whatever the sink does, a run of the buffered encoder, followed by emptying the
buffer, is a run of the encoder on the joined calls. -/
theorem bufRun_eq [Checks] (env : Env σ) : ∀ (calls : List Call) (e : Encoder σ) (p : List UInt8), p.length ≤ MASTER_BLOCK_SIZE →
    e.run env (coalesce MASTER_BLOCK_SIZE p calls) = do
      let (r, b) ← BufEncoder.run env calls ⟨e, p⟩
      match r with
      | .ok () => (flushBuf env b.inner b.buf).map noBuf
      | .error k => return (.error k, b.inner)
  | [], e, p, _ => by
    rw [coalesce, run_pendingWrite]
    rfl
  | .flush :: l, e, p, _ => by
    rw [coalesce, Encoder.run_append, run_pendingWrite, BufEncoder.run, BufEncoder.flush]
    dsimp only
    cases hf : flushBuf env e p with
    | none => rfl
    | some x =>
      obtain ⟨r, e', p'⟩ := x
      cases r with
      | error k => rfl
      | ok u =>
        obtain rfl := flushBuf_ok_nil env hf
        rw [Option.map_some, some_bind, some_bind]
        dsimp only [noBuf]
        rw [Encoder.run]
        cases hg : e'.flush env with
        | none => rfl
        | some y =>
          obtain ⟨r, e2⟩ := y
          cases r with
          | error k => rfl
          | ok u => exact bufRun_eq env l e2 [] (Nat.zero_le _)
  | .write d :: l, e, p, hp => by
    rw [coalesce, BufEncoder.run, BufEncoder.write]
    dsimp only
    by_cases h1 : p.length + d.length ≤ MASTER_BLOCK_SIZE ∧ d.length < MASTER_BLOCK_SIZE
    · obtain ⟨h1, h2⟩ := h1
      rw [if_pos ⟨h1, h2⟩]
      have ih := bufRun_eq env l e (p ++ d) (by rw [List.length_append]; exact h1)
      by_cases h3 : d.length < MASTER_BLOCK_SIZE - p.length
      · rw [if_pos h3, ih]
        rfl
      · rw [if_neg h3, if_neg (by omega), some_bind]
        dsimp only
        rw [if_neg (by omega), ih]
        rfl
    · rw [if_neg h1]
      have h6 : ¬ d.length < MASTER_BLOCK_SIZE - p.length := by dsimp only [MASTER_BLOCK_SIZE] at *; omega
      by_cases h4 : MASTER_BLOCK_SIZE ≤ d.length
      · rw [if_pos h4, if_neg h6, Encoder.run_append, run_pendingWrite]
        have h5 : (if d.length > MASTER_BLOCK_SIZE - p.length then flushBuf env e p else some (.ok (), e, p)) = flushBuf env e p := by
          split
          · rfl
          · have : p = [] := by
              rcases p with _ | ⟨x, p⟩
              · rfl
              · rw [List.length_cons] at *
                dsimp only [MASTER_BLOCK_SIZE] at *
                omega
            subst this
            rw [flushBuf_nil]
        rw [h5]
        cases hf : flushBuf env e p with
        | none => rfl
        | some x =>
          obtain ⟨r, e', p'⟩ := x
          cases r with
          | error k => rfl
          | ok u =>
            obtain rfl := flushBuf_ok_nil env hf
            rw [Option.map_some, some_bind, some_bind]
            dsimp only [noBuf]
            rw [if_pos h4, Encoder.run]
            cases hg : e'.write env d with
            | none => rfl
            | some y =>
              obtain ⟨r, e2⟩ := y
              cases r with
              | error k => rfl
              | ok u => exact bufRun_eq env l e2 [] (Nat.zero_le _)
      · have h7 : d.length > MASTER_BLOCK_SIZE - p.length := by dsimp only [MASTER_BLOCK_SIZE] at *; omega
        rw [if_neg h4, if_neg h6, if_pos h7, Encoder.run_append, run_pendingWrite]
        cases hf : flushBuf env e p with
        | none => rfl
        | some x =>
          obtain ⟨r, e', p'⟩ := x
          cases r with
          | error k => rfl
          | ok u =>
            obtain rfl := flushBuf_ok_nil env hf
            rw [Option.map_some, some_bind, some_bind]
            dsimp only [noBuf]
            rw [if_neg h4, List.nil_append]
            exact bufRun_eq env l e' d (by omega)

/-! ## What joining does -/

theorem writesOf_append : ∀ (a b : List Call), writesOf (a ++ b) = writesOf a ++ writesOf b
  | [], b => rfl
  | .write d :: a, b => by rw [List.cons_append, writesOf, writesOf, writesOf_append a b]; rfl
  | .flush :: a, b => by rw [List.cons_append, writesOf, writesOf, writesOf_append a b]

theorem writesOf_pending (p : List UInt8) : (writesOf (pendingWrite p)).flatten = p := by
  unfold pendingWrite
  split
  · rename_i h; subst h; rfl
  · simp [writesOf]

theorem coalesce_flatten (cap : Nat) : ∀ (calls : List Call) (p : List UInt8),
    (writesOf (coalesce cap p calls)).flatten = p ++ (writesOf calls).flatten
  | [], p => by rw [coalesce, writesOf_pending]; simp [writesOf]
  | .flush :: l, p => by
    rw [coalesce, writesOf_append, List.flatten_append, writesOf_pending, writesOf, coalesce_flatten cap l [], writesOf]
    simp
  | .write d :: l, p => by
    rw [coalesce, writesOf]
    split
    · rw [coalesce_flatten cap l (p ++ d)]; simp
    · split
      · rw [writesOf_append, List.flatten_append, writesOf_pending, writesOf, List.flatten_cons, coalesce_flatten cap l []]; simp
      · rw [writesOf_append, List.flatten_append, writesOf_pending, coalesce_flatten cap l d]; simp

theorem coalesce_sizes (cap : Nat) : ∀ (calls : List Call) (p : List UInt8), p.length ≤ cap →
    ∀ w ∈ writesOf (coalesce cap p calls), w.length ≤ cap ∨ w ∈ writesOf calls := by
  have hpend : ∀ (p : List UInt8), p.length ≤ cap → ∀ w ∈ writesOf (pendingWrite p), w.length ≤ cap := by
    intro p hp w hw
    unfold pendingWrite at hw
    split at hw
    · cases hw
    · simp [writesOf] at hw; subst hw; exact hp
  intro calls
  induction calls with
  | nil => intro p hp w hw; rw [coalesce] at hw; exact .inl (hpend p hp w hw)
  | cons c l ih =>
    intro p hp w hw
    cases c with
    | flush =>
      rw [coalesce, writesOf_append, List.mem_append] at hw
      rcases hw with hw | hw
      · exact .inl (hpend p hp w hw)
      · exact ih [] (Nat.zero_le _) w hw
    | write d =>
      rw [coalesce] at hw
      rw [writesOf, List.mem_cons]
      split at hw
      · rename_i h
        exact (ih (p ++ d) (by rw [List.length_append]; exact h.1) w hw).imp id .inr
      · split at hw
        · rw [writesOf_append, List.mem_append, writesOf, List.mem_cons] at hw
          rcases hw with hw | hw | hw
          · exact .inl (hpend p hp w hw)
          · exact .inr (.inl hw)
          · exact (ih [] (Nat.zero_le _) w hw).imp id .inr
        · rw [writesOf_append, List.mem_append] at hw
          rcases hw with hw | hw
          · exact .inl (hpend p hp w hw)
          · exact (ih d (by omega) w hw).imp id .inr

/-- A sequence of joined calls begins, if with a write, with one at least as long as what was waiting. -/
theorem coalesce_head (cap : Nat) : ∀ (calls : List Call) (p d : List UInt8) (l : List Call),
    coalesce cap p calls = .write d :: l → p ≠ [] → p.length ≤ d.length := by
  have hpend : ∀ (p d : List UInt8) (m l : List Call), pendingWrite p ++ m = .write d :: l → p ≠ [] → p = d := by
    intro p d m l h hp
    unfold pendingWrite at h
    rw [if_neg hp] at h
    cases h
    rfl
  intro calls
  induction calls with
  | nil => intro p d l h hp; rw [coalesce, ← List.append_nil (pendingWrite p)] at h; rw [hpend p d [] l h hp]
  | cons c m ih =>
    intro p d l h hp
    cases c with
    | flush => rw [coalesce] at h; rw [hpend p d _ l h hp]
    | write x =>
      rw [coalesce] at h
      split at h
      · have := ih (p ++ x) d l h (by simp [hp])
        rw [List.length_append] at this
        omega
      · split at h
        · rw [hpend p d _ l h hp]
        · rw [hpend p d _ l h hp]

theorem joined_pending (cap : Nat) (p : List UInt8) (m : List Call) (hm : Joined cap m)
    (h : ∀ d' l', p ≠ [] → m = .write d' :: l' → cap < p.length + d'.length) : Joined cap (pendingWrite p ++ m) := by
  unfold pendingWrite
  split
  · exact hm
  · rename_i hp
    exact ⟨hp, fun d' l' => h d' l' hp, hm⟩

theorem coalesce_joined (cap : Nat) (hcap : 0 < cap) : ∀ (calls : List Call) (p : List UInt8), p.length ≤ cap → Joined cap (coalesce cap p calls) := by
  intro calls
  induction calls with
  | nil =>
    intro p hp0
    rw [coalesce, ← List.append_nil (pendingWrite p)]
    exact joined_pending cap p [] trivial (by intro d' l' _ h; cases h)
  | cons c m ih =>
    intro p hp0
    cases c with
    | flush =>
      rw [coalesce]
      exact joined_pending cap p _ (ih [] (Nat.zero_le _)) (by intro d' l' _ h; cases h)
    | write x =>
      rw [coalesce]
      split
      · rename_i h; exact ih _ (by rw [List.length_append]; exact h.1)
      · rename_i h0
        split
        · rename_i h1
          refine joined_pending cap p _ ⟨?_, ?_, ih [] (Nat.zero_le _)⟩ ?_
          · rintro rfl; simp at h1; omega
          · intro d' l' h
            have h2 := ih [] (Nat.zero_le _)
            rw [h] at h2
            have : 0 < d'.length := List.length_pos_iff.2 h2.1
            omega
          · intro d' l' hp h
            cases h
            have : 0 < p.length := List.length_pos_iff.2 hp
            omega
        · rename_i h1
          refine joined_pending cap p _ (ih x (by omega)) ?_
          intro d' l' hp h
          have hx : x ≠ [] := by
            rintro rfl
            apply h0
            exact ⟨by simpa using hp0, by simpa using hcap⟩
          have := coalesce_head cap m x d' l' h hx
          omega

theorem coalesce_fits {lim : Nat} (cap : Nat) (hcap : cap < lim) (calls : List Call) (h : ∀ w ∈ writesOf calls, w.length < lim) :
    ∀ w ∈ writesOf (coalesce cap [] calls), w.length < lim := by
  intro w hw
  rcases coalesce_sizes cap calls [] (Nat.zero_le _) w hw with h1 | h1
  · exact Nat.lt_of_le_of_lt h1 hcap
  · exact h w h1

/-! ## Whole sessions -/

/-- A buffered session is the session of the joined calls, except for what happens after a failure. -/
theorem bufferedSession_cases (env : Env σ) (fmt : Format) (calls : List Call) (ending : Ending) {s s' : σ} {r : Except ErrKind Unit}
    (h : bufferedSession env fmt calls ending s = some (r, s')) :
    session env fmt (coalesce MASTER_BLOCK_SIZE [] calls) ending s = some (r, s') ∨
    ∃ e s0 k e1, Encoder.new env fmt s = some (.ok e, s0) ∧ e.run env (coalesce MASTER_BLOCK_SIZE [] calls) = some (.error k, e1) ∧
      (r = .error k ∨ ending = .drop ∧ r = .ok ()) ∧
      ∀ t, e1.sink? = some t → ∀ I : σ → Prop, SinkInv env.S I → I t → I s' := by
  unfold bufferedSession BufEncoder.new at h
  unfold session
  cases hn : Encoder.new env fmt s with
  | none => rw [hn] at h; cases h
  | some p =>
    obtain ⟨q, s0⟩ := p
    rw [hn, some_bind] at h
    rw [some_bind]
    cases q with
    | error k => exact .inl h
    | ok e =>
      have hrun := bufRun_eq env calls e [] (Nat.zero_le _)
      dsimp only at h ⊢
      change (BufEncoder.run env calls ⟨e, []⟩ >>= _) = _ at h
      cases hb : BufEncoder.run env calls ⟨e, []⟩ with
      | none => rw [hb] at h; cases h
      | some p =>
        obtain ⟨q, b⟩ := p
        rw [hb, some_bind] at h hrun
        cases q with
        | error k =>
          dsimp only at h hrun
          cases hd : b.drop env with
          | none => rw [hd] at h; cases h
          | some s2 =>
            rw [hd] at h
            cases h
            exact .inr ⟨e, s0, k, b.inner, rfl, hrun, .inl rfl, fun t ht I hI h0 => dropBuffered_inv env hI hd ht h0⟩
        | ok u =>
          dsimp only at h hrun
          cases ending with
          | finish =>
            dsimp only [BufEncoder.intoInnerFinish] at h
            cases hf : flushBuf env b.inner b.buf with
            | none => rw [hf] at h; cases h
            | some p =>
              obtain ⟨q, e1, buf⟩ := p
              rw [hf, some_bind] at h
              rw [hf, Option.map_some] at hrun
              cases q with
              | error k =>
                dsimp only [BufEncoder.drop] at h
                cases hd : dropBuffered env e1 buf with
                | none => rw [hd] at h; cases h
                | some s2 =>
                  rw [hd] at h
                  cases h
                  exact .inr ⟨e, s0, k, e1, rfl, hrun, .inl rfl, fun t ht I hI h0 => dropBuffered_inv env hI hd ht h0⟩
              | ok u =>
                dsimp only [noBuf] at hrun
                rw [hrun]
                exact .inl h
          | drop =>
            dsimp only [BufEncoder.drop, dropBuffered] at h
            cases hf : flushBuf env b.inner b.buf with
            | none => rw [hf] at h; cases h
            | some p =>
              obtain ⟨q, e1, buf⟩ := p
              rw [hf, some_bind] at h
              rw [hf, Option.map_some] at hrun
              dsimp only at h
              cases q with
              | error k =>
                cases hd : e1.drop env with
                | none => rw [hd] at h; cases h
                | some s2 =>
                  rw [hd] at h
                  cases h
                  exact .inr ⟨e, s0, k, e1, rfl, hrun, .inr ⟨rfl, rfl⟩, fun t ht I hI h0 => Encoder.drop_inv env hI hd ht h0⟩
              | ok u =>
                dsimp only [noBuf] at hrun
                rw [hrun]
                exact .inl h

/-- If the session of the joined calls succeeds, the buffered session is the same. -/
theorem bufferedSession_ok [Checks] (env : Env σ) (fmt : Format) (calls : List Call) (ending : Ending) {s s' : σ}
    (h : session env fmt (coalesce MASTER_BLOCK_SIZE [] calls) ending s = some (.ok (), s')) :
    bufferedSession env fmt calls ending s = some (.ok (), s') := by
  unfold bufferedSession BufEncoder.new
  unfold session at h
  cases hn : Encoder.new env fmt s with
  | none => rw [hn] at h; cases h
  | some p =>
    obtain ⟨q, s0⟩ := p
    rw [hn, some_bind] at h
    rw [some_bind]
    cases q with
    | error k => exact h
    | ok e =>
      have hrun := bufRun_eq env calls e [] (Nat.zero_le _)
      dsimp only at h ⊢
      rw [hrun] at h
      change (BufEncoder.run env calls ⟨e, []⟩ >>= _) = _
      cases hb : BufEncoder.run env calls ⟨e, []⟩ with
      | none => rw [hb] at h; cases h
      | some p =>
        obtain ⟨q, b⟩ := p
        rw [hb, some_bind] at h
        rw [some_bind]
        cases q with
        | error k =>
          change (b.inner.drop env >>= fun x => some ((Except.error k : Except ErrKind Unit), x)) = _ at h
          cases hd : b.inner.drop env with
          | none => rw [hd] at h; cases h
          | some s2 => rw [hd] at h; cases h
        | ok u =>
          dsimp only at h ⊢
          cases hf : flushBuf env b.inner b.buf with
          | none => rw [hf] at h; cases h
          | some p =>
            obtain ⟨q, e1, buf⟩ := p
            rw [hf] at h
            cases q with
            | error k =>
              simp only [Option.map_some, noBuf, some_bind] at h
              cases hd : e1.drop env with
              | none => rw [hd] at h; cases h
              | some s2 => rw [hd] at h; cases h
            | ok u =>
              simp only [Option.map_some, noBuf, some_bind] at h
              cases ending with
              | finish => simp only [BufEncoder.intoInnerFinish, hf, some_bind]; exact h
              | drop => simp only [BufEncoder.drop, dropBuffered, hf, some_bind]; exact h

/-- A run of calls that fails, over a recording sink. -/
theorem run_fails_recorded (env : Env σ) {log : σ → List UInt8} {failed : σ → Option ErrKind} (hS : Recorded env.S log failed) (fmt : Format)
    (calls : List Call) {s s0 : σ} (hI : failed s = none) {stream : List UInt8} {k : ErrKind} {e e1 : Encoder σ}
    (h : StreamOf env.F env.options env.btype fmt (writesOf calls) stream) (hn : Encoder.new env fmt s = some (.ok e, s0))
    (hr : e.run env calls = some (.error k, e1)) :
    ∃ t, e1.sink? = some t ∧ failed t = some k ∧ ∃ n, (n < stream.length ∨ FlushFails env.S k) ∧ log t = log s ++ stream.take n := by
  obtain ⟨cs, c, cs', hc1, hc2, rfl⟩ := h.core
  have h0 := Encoder.new_outcome env fmt s
  cases hm : writeMany env.S s [header fmt] with
  | none =>
    rw [hm] at h0
    have h0 : _ = none := h0
    rw [h0] at hn
    cases hn
  | some p =>
    obtain ⟨q, s0'⟩ := p
    rw [hm] at h0
    obtain ⟨g1, g2⟩ := hS.writeMany _ hm hI
    rw [List.flatten_cons, List.flatten_nil, List.append_nil] at g1 g2
    cases q with
    | error k =>
      have h0 : _ = some _ := h0
      rw [h0] at hn
      cases hn
    | ok u =>
      obtain ⟨_, h0, e0, rfl, he0⟩ := h0
      rw [h0] at hn
      cases hn
      obtain ⟨i1, i2⟩ := g1 u rfl
      dsimp only at i1 i2
      obtain ⟨-, j2⟩ := run_recorded env hS calls he0 i1 hc1 hr
      obtain ⟨s1, k1, k2, n, hl, k3⟩ := j2 k rfl
      refine ⟨s1, k1, k2, (header fmt).length + n, ?_, ?_⟩
      · simp only [List.length_append]
        exact hl.imp (by omega) And.left
      · rw [k3, i2, List.take_length_add_append, List.take_append_of_le_length (by rcases hl with hl | hl <;> omega), List.append_assoc]

theorem bufferedSession_recorded (env : Env σ) {log : σ → List UInt8} {failed : σ → Option ErrKind} (hS : Recorded env.S log failed) (fmt : Format)
    (calls : List Call) (ending : Ending) {s s' : σ} (hI : failed s = none) {stream : List UInt8} {r : Except ErrKind Unit}
    (h : StreamOf env.F env.options env.btype fmt (writesOf (coalesce MASTER_BLOCK_SIZE [] calls)) stream)
    (hr : bufferedSession env fmt calls ending s = some (r, s')) :
    (failed s' = none → r = .ok () ∧ log s' = log s ++ stream) ∧
    (∀ k, failed s' = some k → (r = .error k ∨ ending = .drop ∧ r = .ok ()) ∧
      ∃ n, (n < stream.length ∨ FlushFails env.S k) ∧ log s' = log s ++ stream.take n) := by
  rcases bufferedSession_cases env fmt calls ending hr with hr | ⟨e, s0, k, e1, h1, h2, h3, h4⟩
  · cases ending with
    | finish =>
      obtain ⟨g1, g2⟩ := session_recorded env hS fmt _ hI h hr
      cases r with
      | ok u =>
        obtain ⟨i1, i2⟩ := g1 u rfl
        exact ⟨fun _ => ⟨rfl, i2⟩, fun k hk => by rw [i1] at hk; cases hk⟩
      | error k =>
        obtain ⟨i1, n, i2, i3⟩ := g2 k rfl
        refine ⟨(by intro h; rw [i1] at h; cases h), fun k' hk => ?_⟩
        rw [i1] at hk
        cases hk
        exact ⟨.inl rfl, n, i2, i3⟩
    | drop =>
      obtain ⟨g1, g2⟩ := session_drop_recorded env hS fmt _ hI h hr
      refine ⟨g1, fun k hk => ?_⟩
      obtain ⟨i1, i2⟩ := g2 k hk
      exact ⟨i1.symm.imp id (fun h => ⟨rfl, h⟩), i2⟩
  · obtain ⟨t, i1, i2, n, i3, i4⟩ := run_fails_recorded env hS fmt _ hI h h1 h2
    obtain ⟨j1, j2⟩ := h4 t i1 _ (hS.inv k (log t)) ⟨i2, rfl⟩
    refine ⟨(by intro h; rw [j1] at h; cases h), fun k' hk => ?_⟩
    rw [j1] at hk
    cases hk
    exact ⟨h3, n, i3, by rw [j2, i4]⟩

/-! ## Observation changes nothing -/

def BufEncoder.mapSink (h : τ → σ) (b : BufEncoder τ) : BufEncoder σ := ⟨b.inner.mapSink h, b.buf⟩

section
variable {F : FloatOps} {o : Options} {bt : BlockType}

theorem WHom.bufWrite {S' : Sink τ} {S : Sink σ} {h : τ → σ} (H : WHom S' S h) (b : BufEncoder τ) (data : List UInt8) :
    (b.mapSink h).write ⟨F, S, o, bt⟩ data = (b.write ⟨F, S', o, bt⟩ data).map (onSnd (·.mapSink h)) := by
  unfold BufEncoder.write BufEncoder.mapSink
  dsimp only
  split
  · rfl
  · have key : ∀ (x : Option (Except ErrKind Unit × Encoder τ × List UInt8)),
        (x.map (onMid (·.mapSink h)) >>= fun p => match p.1 with
          | .error k => pure ((Except.error k : Except ErrKind Nat), (⟨p.2.1, p.2.2⟩ : BufEncoder σ))
          | .ok () => if data.length ≥ MASTER_BLOCK_SIZE then do
              let (r, e) ← p.2.1.write ⟨F, S, o, bt⟩ data
              return (r, ⟨e, p.2.2⟩)
            else return (.ok data.length, ⟨p.2.1, p.2.2 ++ data⟩)) =
        (x >>= fun p => match p.1 with
          | .error k => pure ((Except.error k : Except ErrKind Nat), (⟨p.2.1, p.2.2⟩ : BufEncoder τ))
          | .ok () => if data.length ≥ MASTER_BLOCK_SIZE then do
              let (r, e) ← p.2.1.write ⟨F, S', o, bt⟩ data
              return (r, ⟨e, p.2.2⟩)
            else return (.ok data.length, ⟨p.2.1, p.2.2 ++ data⟩)).map (onSnd fun b => ⟨b.inner.mapSink h, b.buf⟩) := by
      intro x
      cases x with
      | none => rfl
      | some p =>
        obtain ⟨q, e, buf⟩ := p
        rw [Option.map_some, some_bind, some_bind]
        cases q with
        | error k => rfl
        | ok u =>
          dsimp only [onMid]
          split
          · rw [H.writeE]
            cases e.write ⟨F, S', o, bt⟩ data <;> rfl
          · rfl
    split
    · rw [H.flushBuf]
      exact key _
    · exact key (some (.ok (), b.inner, b.buf))

theorem Hom.bufFlush {S' : Sink τ} {S : Sink σ} {h : τ → σ} (H : Hom S' S h) (b : BufEncoder τ) :
    (b.mapSink h).flush ⟨F, S, o, bt⟩ = (b.flush ⟨F, S', o, bt⟩).map (onSnd (·.mapSink h)) := by
  unfold BufEncoder.flush BufEncoder.mapSink
  dsimp only
  rw [H.flushBuf]
  cases Zopfli.flushBuf ⟨F, S', o, bt⟩ b.inner b.buf with
  | none => rfl
  | some p =>
    obtain ⟨q, e, buf⟩ := p
    rw [Option.map_some, some_bind, some_bind]
    cases q with
    | error k => rfl
    | ok u =>
      dsimp only [onMid]
      rw [H.flushE]
      cases e.flush ⟨F, S', o, bt⟩ <;> rfl

theorem Hom.bufRun {S' : Sink τ} {S : Sink σ} {h : τ → σ} (H : Hom S' S h) : ∀ (calls : List Call) (b : BufEncoder τ),
    (b.mapSink h).run ⟨F, S, o, bt⟩ calls = (b.run ⟨F, S', o, bt⟩ calls).map (onSnd (·.mapSink h))
  | [], e => rfl
  | .flush :: l, e => by
    rw [BufEncoder.run, BufEncoder.run, H.bufFlush]
    cases e.flush ⟨F, S', o, bt⟩ with
    | none => rfl
    | some p =>
      obtain ⟨r, e'⟩ := p
      cases r with
      | error k => rfl
      | ok u => exact H.bufRun l e'
  | .write buf :: l, e => by
    rw [BufEncoder.run, BufEncoder.run, H.bufWrite]
    cases e.write ⟨F, S', o, bt⟩ buf with
    | none => rfl
    | some p =>
      obtain ⟨r, e'⟩ := p
      cases r with
      | error k => rfl
      | ok u => exact H.bufRun l e'

/-- Without flushes, the sink's `flush` does not matter. -/
theorem WHom.bufRun {S' : Sink τ} {S : Sink σ} {h : τ → σ} (H : WHom S' S h) : ∀ (fs : List (List UInt8)) (b : BufEncoder τ),
    (b.mapSink h).run ⟨F, S, o, bt⟩ (fs.map .write) = (b.run ⟨F, S', o, bt⟩ (fs.map .write)).map (onSnd (·.mapSink h))
  | [], e => rfl
  | buf :: l, e => by
    rw [List.map_cons, BufEncoder.run, BufEncoder.run, H.bufWrite]
    cases e.write ⟨F, S', o, bt⟩ buf with
    | none => rfl
    | some p =>
      obtain ⟨r, e'⟩ := p
      cases r with
      | error k => rfl
      | ok u => exact H.bufRun l e'

theorem WHom.bufferedSession_of {S' : Sink τ} {S : Sink σ} {h : τ → σ} (H : WHom S' S h) (fmt : Format) (calls : List Call)
    (hrun : ∀ b : BufEncoder τ, (b.mapSink h).run ⟨F, S, o, bt⟩ calls = (b.run ⟨F, S', o, bt⟩ calls).map (onSnd (·.mapSink h))) (ending : Ending) (t : τ) :
    bufferedSession ⟨F, S, o, bt⟩ fmt calls ending (h t) = (bufferedSession ⟨F, S', o, bt⟩ fmt calls ending t).map (onSnd h) := by
  unfold Zopfli.bufferedSession BufEncoder.new
  rw [H.newE]
  cases Encoder.new ⟨F, S', o, bt⟩ fmt t with
  | none => rfl
  | some p =>
    obtain ⟨r, t'⟩ := p
    rw [Option.map_some, some_bind, some_bind]
    cases r with
    | error k => rfl
    | ok e =>
      dsimp only [Except.map]
      change (BufEncoder.run ⟨F, S, o, bt⟩ calls ((⟨e, []⟩ : BufEncoder τ).mapSink h) >>= _) = (BufEncoder.run ⟨F, S', o, bt⟩ calls ⟨e, []⟩ >>= _).map _
      rw [hrun]
      cases BufEncoder.run ⟨F, S', o, bt⟩ calls ⟨e, []⟩ with
      | none => rfl
      | some p =>
        obtain ⟨r, b⟩ := p
        rw [Option.map_some, some_bind, some_bind]
        cases r with
        | error k =>
          dsimp only [onSnd, BufEncoder.drop, BufEncoder.mapSink]
          rw [H.dropBuffered]
          cases Zopfli.dropBuffered ⟨F, S', o, bt⟩ b.inner b.buf <;> rfl
        | ok u =>
          dsimp only [onSnd]
          cases ending with
          | finish =>
            dsimp only [BufEncoder.intoInnerFinish, BufEncoder.mapSink]
            rw [H.flushBuf]
            cases Zopfli.flushBuf ⟨F, S', o, bt⟩ b.inner b.buf with
            | none => rfl
            | some p =>
              obtain ⟨q, e, buf⟩ := p
              rw [Option.map_some, some_bind, some_bind]
              cases q with
              | error k =>
                dsimp only [onMid, BufEncoder.drop]
                rw [H.dropBuffered]
                cases Zopfli.dropBuffered ⟨F, S', o, bt⟩ e buf <;> rfl
              | ok u => exact H.finishE e
          | drop =>
            dsimp only [BufEncoder.drop, BufEncoder.mapSink]
            rw [H.dropBuffered]
            cases Zopfli.dropBuffered ⟨F, S', o, bt⟩ b.inner b.buf <;> rfl

theorem Hom.bufferedSession {S' : Sink τ} {S : Sink σ} {h : τ → σ} (H : Hom S' S h) (fmt : Format) (calls : List Call) (ending : Ending) (t : τ) :
    bufferedSession ⟨F, S, o, bt⟩ fmt calls ending (h t) = (bufferedSession ⟨F, S', o, bt⟩ fmt calls ending t).map (onSnd h) :=
  H.bufferedSession_of fmt calls (H.bufRun calls) ending t

theorem WHom.bufferedSession {S' : Sink τ} {S : Sink σ} {h : τ → σ} (H : WHom S' S h) (fmt : Format) (fs : List (List UInt8)) (ending : Ending) (t : τ) :
    bufferedSession ⟨F, S, o, bt⟩ fmt (fs.map .write) ending (h t) = (bufferedSession ⟨F, S', o, bt⟩ fmt (fs.map .write) ending t).map (onSnd h) :=
  H.bufferedSession_of fmt _ (H.bufRun fs) ending t

end

/-! ## No panic -/

def BSane (lim : Nat) (I : σ → Prop) (b : BufEncoder σ) : Prop := ESane lim I b.inner ∧ b.buf.length ≤ MASTER_BLOCK_SIZE

theorem BSane.write {env : Env σ} (L : FloatLaws env.F) {I : σ → Prop} {μ : σ → Nat} (hS : Honest env.S I μ) {b : BufEncoder σ} (h : BSane L.lim I b)
    {data : List UInt8} (hd : data.length < L.lim) : Ret (b.write env data) fun r => BSane L.lim I r.2 := by
  obtain ⟨h1, h2⟩ := h
  unfold BufEncoder.write
  dsimp only
  split
  · rename_i h3
    exact ⟨_, rfl, h1, by rw [List.length_append]; omega⟩
  · rename_i h3
    have hf : Ret (if data.length > MASTER_BLOCK_SIZE - b.buf.length then flushBuf env b.inner b.buf else some (.ok (), b.inner, b.buf))
        fun r => ESane L.lim I r.2.1 ∧ r.2.2.length ≤ MASTER_BLOCK_SIZE ∧ ∀ u, r.1 = .ok u → data.length < MASTER_BLOCK_SIZE → (r.2.2 ++ data).length ≤ MASTER_BLOCK_SIZE := by
      split
      · refine Ret.mono (flushBuf_total env L hS h1 (Nat.lt_of_le_of_lt h2 (by have := L.lim_ge; dsimp only [MASTER_BLOCK_SIZE]; omega))) ?_
        rintro ⟨q, e, buf⟩ ⟨g1, g2⟩
        rcases g2 with ⟨g2, g3⟩ | ⟨k, g2, g3⟩
        · dsimp only at g2 g3
          subst g2 g3
          exact ⟨g1, Nat.zero_le _, fun _ _ h => by simpa using Nat.le_of_lt h⟩
        · dsimp only at g2 g3
          subst g2 g3
          exact ⟨g1, h2, fun u hu => by cases hu⟩
      · exact ⟨_, rfl, h1, h2, fun _ _ _ => by rw [List.length_append]; dsimp only; omega⟩
    refine Ret.bind' hf ?_
    rintro ⟨q, e, buf⟩ ⟨g1, g2, g3⟩
    cases q with
    | error k => exact ⟨_, rfl, g1, g2⟩
    | ok u =>
      dsimp only
      split
      · refine Ret.bind' (g1.write L hS hd) ?_
        rintro ⟨q, e'⟩ ⟨i1, -⟩
        exact ⟨_, rfl, i1, g2⟩
      · exact ⟨_, rfl, g1, g3 u rfl (by omega)⟩

theorem BSane.flush {env : Env σ} (L : FloatLaws env.F) {I : σ → Prop} {μ : σ → Nat} (hS : Honest env.S I μ) {b : BufEncoder σ} (h : BSane L.lim I b) :
    Ret (b.flush env) fun r => BSane L.lim I r.2 := by
  obtain ⟨h1, h2⟩ := h
  unfold BufEncoder.flush
  refine Ret.bind' (flushBuf_total env L hS h1 (Nat.lt_of_le_of_lt h2 (by have := L.lim_ge; dsimp only [MASTER_BLOCK_SIZE]; omega))) ?_
  rintro ⟨q, e, buf⟩ ⟨g1, g2⟩
  have g3 : buf.length ≤ MASTER_BLOCK_SIZE := by
    rcases g2 with ⟨g2, g3⟩ | ⟨k, g2, g3⟩ <;> dsimp only at g3 <;> subst g3 <;> [exact Nat.zero_le _; exact h2]
  cases q with
  | error k => exact ⟨_, rfl, g1, g3⟩
  | ok u =>
    dsimp only
    refine Ret.bind' (g1.flush hS) ?_
    rintro ⟨q, e'⟩ i1
    exact ⟨_, rfl, i1, g3⟩

theorem BSane.run {env : Env σ} (L : FloatLaws env.F) {I : σ → Prop} {μ : σ → Nat} (hS : Honest env.S I μ) : ∀ (calls : List Call) {b : BufEncoder σ}, BSane L.lim I b →
    (∀ w ∈ writesOf calls, w.length < L.lim) → Ret (b.run env calls) fun r => BSane L.lim I r.2
  | [], e, h, _ => ⟨_, rfl, h⟩
  | .flush :: l, e, h, hw => by
    rw [BufEncoder.run]
    refine Ret.bind' (h.flush L hS) ?_
    rintro ⟨r, e'⟩ h1
    cases r with
    | ok u => exact BSane.run L hS l h1 hw
    | error k => exact ⟨_, rfl, h1⟩
  | .write buf :: l, e, h, hw => by
    rw [BufEncoder.run]
    refine Ret.bind' (h.write L hS (hw buf (by simp [writesOf]))) ?_
    rintro ⟨r, e'⟩ h1
    cases r with
    | ok u => exact BSane.run L hS l h1 fun w hw' => hw w (by simp [writesOf, hw'])
    | error k => exact ⟨_, rfl, h1⟩

theorem BSane.drop {env : Env σ} (L : FloatLaws env.F) {I : σ → Prop} {μ : σ → Nat} (hS : Honest env.S I μ) {b : BufEncoder σ} (h : BSane L.lim I b) :
    Ret (b.drop env) I := by
  unfold BufEncoder.drop dropBuffered
  refine Ret.bind' (flushBuf_total env L hS h.1 (Nat.lt_of_le_of_lt h.2 (by have := L.lim_ge; dsimp only [MASTER_BLOCK_SIZE]; omega))) ?_
  rintro ⟨q, e, buf⟩ ⟨g1, g2⟩
  exact (g1.finish_drop L hS).2

theorem bufferedSession_total (env : Env σ) (L : FloatLaws env.F) {I : σ → Prop} {μ : σ → Nat} (hS : Honest env.S I μ) (fmt : Format)
    (calls : List Call) (ending : Ending) {s : σ} (hI : I s) (hw : ∀ w ∈ writesOf calls, w.length < L.lim) :
    Ret (bufferedSession env fmt calls ending s) fun r => I r.2 := by
  unfold bufferedSession BufEncoder.new
  have hn : Ret (Encoder.new env fmt s >>= fun p => match p.1 with
      | .ok e => some ((Except.ok ⟨e, []⟩ : Except ErrKind (BufEncoder σ)), p.2)
      | .error k => some (.error k, p.2)) fun r => I r.2 ∧ ∀ e, r.1 = .ok e → BSane L.lim I e := by
    refine Ret.bind' (ESane.new L.lim_ge hS fmt hI) ?_
    rintro ⟨r, s'⟩ ⟨h1, h2⟩
    cases r with
    | error k => exact ⟨_, rfl, h1, by intro e he; cases he⟩
    | ok e => exact ⟨_, rfl, h1, by intro b hb; cases hb; exact ⟨h2 e rfl, Nat.zero_le _⟩⟩
  refine Ret.bind' hn ?_
  rintro ⟨r, s'⟩ ⟨h1, h2⟩
  cases r with
  | error k => exact ⟨_, rfl, h1⟩
  | ok e =>
    dsimp only
    refine Ret.bind' (BSane.run L hS calls (h2 e rfl) hw) ?_
    rintro ⟨r, b⟩ h3
    cases r with
    | error k => exact Ret.bind' (h3.drop L hS) fun s hs => ⟨_, rfl, hs⟩
    | ok u =>
      dsimp only
      cases ending with
      | finish =>
        dsimp only [BufEncoder.intoInnerFinish]
        refine Ret.bind' (flushBuf_total env L hS h3.1 (Nat.lt_of_le_of_lt h3.2 (by have := L.lim_ge; dsimp only [MASTER_BLOCK_SIZE]; omega))) ?_
        rintro ⟨q, e, buf⟩ ⟨g1, g2⟩
        cases q with
        | error k =>
          have g3 : buf.length ≤ MASTER_BLOCK_SIZE := by
            rcases g2 with ⟨g2, g3⟩ | ⟨k, g2, g3⟩ <;> dsimp only at g3 <;> subst g3 <;> [exact Nat.zero_le _; exact h3.2]
          exact Ret.bind' (BSane.drop L hS (b := ⟨e, buf⟩) ⟨g1, g3⟩) fun s hs => ⟨_, rfl, hs⟩
        | ok u => exact (g1.finish_drop L hS).1
      | drop => exact Ret.bind' (h3.drop L hS) fun s hs => ⟨_, rfl, hs⟩

end Zopfli
