import Verif.Proofs.CheckedPanic
/-! # A build with overflow checks does not panic unless the sink fails -/

namespace Zopfli

variable {σ ρ : Type}

theorem Le.eq {α : Type} {a b : Option α} (h : Le a b) (h' : Le b a) : a = b := by
  cases a with
  | some x => exact (h x rfl).symm
  | none =>
    cases b with
    | none => rfl
    | some x => exact h' x rfl

/-- In a state satisfying `I` the sink does not fail. -/
structure Faultless (S : Sink σ) (I : σ → Prop) : Prop where
  write : ∀ s buf r, I s → S.writeAll s buf = some r → r.1 = .ok () ∧ I r.2
  flush : ∀ s, I s → (S.flush s).1 = .ok () ∧ I (S.flush s).2

theorem Reliable.faultless {S : Sink σ} {I : σ → Prop} {log : σ → List UInt8} {μ : σ → Nat} (hS : Reliable S I log μ) : Faultless S I := by
  constructor
  · intro s buf r hI h
    obtain ⟨r', h1, h2, -, h3⟩ := hS.writeAll _ _ s buf rfl rfl hI
    rw [h1] at h
    cases h
    exact ⟨h2, h3⟩
  · intro s hI
    obtain ⟨s', h1, -, h3⟩ := hS.flush s hI
    rw [h1]
    exact ⟨rfl, h3⟩

section
variable {S : Sink σ} {I : σ → Prop} (hS : Faultless S I)
include hS

theorem Faultless.addBytes {w w' : BitwiseWriter σ} {l : List UInt8} {r : Except ErrKind Unit} (hI : I w.out) (h : w.addBytes S l = some (r, w')) :
    r = .ok () ∧ I w'.out := by
  unfold BitwiseWriter.addBytes at h
  simp only [Option.bind_eq_bind, Option.bind_eq_some_iff, Prod.exists] at h
  obtain ⟨q, s, hw, h⟩ := h
  have := hS.write _ _ _ hI hw
  cases h
  exact this

theorem Faultless.finishPartialBits {w w' : BitwiseWriter σ} {r : Except ErrKind Unit} (hI : I w.out) (h : w.finishPartialBits S = some (r, w')) :
    r = .ok () ∧ I w'.out := by
  unfold BitwiseWriter.finishPartialBits at h
  split at h
  · simp only [Option.bind_eq_bind, Option.bind_eq_some_iff, Prod.exists] at h
    obtain ⟨q, s, hw, h⟩ := h
    obtain ⟨h1, h2⟩ := hS.addBytes hI hw
    subst h1
    cases h
    exact ⟨rfl, h2⟩
  · cases h; exact ⟨rfl, hI⟩

theorem Faultless.exec [Checks] {w w' : BitwiseWriter σ} {op : WOp} {r : Except ErrKind Unit} (hI : I w.out) (h : w.exec S op = some (r, w')) :
    r = .ok () ∧ I w'.out := by
  cases op with
  | bit b =>
    have h : w.addBit S b = some (r, w') := h
    unfold BitwiseWriter.addBit at h
    split at h
    · cases h
    · dsimp only at h
      split at h
      · exact hS.finishPartialBits (w := { w with bit := w.bit ||| ((if b then 1 else 0) <<< w.bp), bp := w.bp + 1 }) hI h
      · cases h; exact ⟨rfl, hI⟩
  | align => exact hS.finishPartialBits hI h
  | bytes l => exact hS.addBytes hI h

theorem Faultless.execAll [Checks] : ∀ (ops : List WOp) {w w' : BitwiseWriter σ} {r : Except ErrKind Unit}, I w.out → w.execAll S ops = some (r, w') →
    r = .ok () ∧ I w'.out
  | [], w, w', r, hI, h => by cases h; exact ⟨rfl, hI⟩
  | op :: ops, w, w', r, hI, h => by
    simp only [BitwiseWriter.execAll, Option.bind_eq_bind, Option.bind_eq_some_iff, Prod.exists] at h
    obtain ⟨q, w1, hw, h⟩ := h
    obtain ⟨h1, h2⟩ := hS.exec hI hw
    subst h1
    exact Faultless.execAll ops h2 h
end

/-- The sink of the encoder is in a state satisfying `I`. -/
def DeflateEncoder.In (I : σ → Prop) (e : DeflateEncoder σ) : Prop := ∀ w, e.bitwiseWriter = some w → I w.out

section
variable {env : Env σ} {I : σ → Prop} (hS : Faultless env.S I)
include hS

theorem Faultless.compressChunk {e e' : DeflateEncoder σ} {last : Bool} {r : Except ErrKind Unit} (hI : e.In I) (h : e.compressChunk env last = some (r, e')) :
    r = .ok () ∧ e'.In I := by
  unfold DeflateEncoder.compressChunk at h
  simp only [Option.bind_eq_bind, Option.bind_eq_some_iff, Prod.exists] at h
  obtain ⟨w, hw, ops, -, q, w', hx, h⟩ := h
  obtain ⟨h1, h2⟩ := hS.execAll ops (hI w hw) hx
  cases h
  exact ⟨h1, fun w2 hw2 => by cases hw2; exact h2⟩

theorem Faultless.writeD {e e' : DeflateEncoder σ} {buf : List UInt8} {r : Except ErrKind Nat} (hI : e.In I) (h : e.write env buf = some (r, e')) :
    r = .ok buf.length ∧ e'.In I := by
  unfold DeflateEncoder.write at h
  simp only [Option.bind_eq_bind, Option.bind_eq_some_iff, Prod.exists] at h
  obtain ⟨q, e1, hc, h⟩ := h
  have h1 : q = .ok () ∧ e1.In I := by
    split at hc
    · exact hS.compressChunk hI hc
    · cases hc; exact ⟨rfl, hI⟩
  obtain ⟨rfl, h1⟩ := h1
  cases h
  exact ⟨rfl, h1⟩

theorem Faultless.finishD {e : DeflateEncoder σ} {s : σ} {r : Except ErrKind Unit} (hI : e.In I) (h : e.finish env = some (r, s)) : r = .ok () ∧ I s := by
  unfold DeflateEncoder.finish DeflateEncoder.finishInner at h
  split at h
  · cases h
  · simp only [Option.bind_eq_bind, Option.bind_eq_some_iff, Prod.exists] at h
    obtain ⟨q, e1, t, ⟨q', e2, hc, h1⟩, h⟩ := h
    obtain ⟨rfl, g⟩ := hS.compressChunk hI hc
    simp only [Option.bind_eq_some_iff, Prod.exists] at h1
    obtain ⟨w, hw, q2, w2, hf, h1⟩ := h1
    obtain ⟨rfl, g2⟩ := hS.finishPartialBits (g w hw) hf
    cases h1
    simp [DeflateEncoder.dropWith, DeflateEncoder.finishInner] at h
    obtain ⟨rfl, rfl⟩ := h
    exact ⟨rfl, g2⟩
end

/-- The same for the three formats. -/
def Encoder.In (I : σ → Prop) : Encoder σ → Prop
  | .deflate d => d.In I
  | .gzip g => ∀ d, g.deflate = some d → d.In I
  | .zlib g => ∀ d, g.deflate = some d → d.In I

section
variable {env : Env σ} {I : σ → Prop} (hS : Faultless env.S I)
include hS

theorem Faultless.new {fmt : Format} {s s' : σ} {q : Except ErrKind (Encoder σ)} (hI : I s) (h : Encoder.new env fmt s = some (q, s')) :
    ∃ e, q = .ok e ∧ e.In I := by
  have key : ∀ s : σ, I s → (DeflateEncoder.new s).In I := by
    intro s hs w hw
    cases hw
    exact hs
  cases fmt with
  | deflate => cases h; exact ⟨_, rfl, key _ hI⟩
  | gzip =>
    simp only [Encoder.new, GzipEncoder.new, Option.bind_eq_bind, Option.bind_eq_some_iff, Prod.exists] at h
    obtain ⟨r, s1, ⟨r', s2, hw, h1⟩, h2⟩ := h
    obtain ⟨g1, g2⟩ := hS.write _ _ _ hI hw
    dsimp only at g1 g2
    subst g1
    cases h1
    cases h2
    exact ⟨_, rfl, fun d hd => by cases hd; exact key _ g2⟩
  | zlib =>
    simp only [Encoder.new, ZlibEncoder.new, Option.bind_eq_bind, Option.bind_eq_some_iff, Prod.exists] at h
    obtain ⟨r, s1, ⟨r', s2, hw, h1⟩, h2⟩ := h
    obtain ⟨g1, g2⟩ := hS.write _ _ _ hI hw
    dsimp only at g1 g2
    subst g1
    cases h1
    cases h2
    exact ⟨_, rfl, fun d hd => by cases hd; exact key _ g2⟩

theorem Faultless.writeE {e e' : Encoder σ} {buf : List UInt8} {r : Except ErrKind Nat} (hI : e.In I) (h : e.write env buf = some (r, e')) :
    r = .ok buf.length ∧ e'.In I := by
  cases e with
  | deflate d =>
    simp only [Encoder.write, Option.bind_eq_bind, Option.bind_eq_some_iff, Prod.exists] at h
    obtain ⟨q, d', hw, h⟩ := h
    cases h
    exact hS.writeD hI hw
  | gzip g =>
    simp only [Encoder.write, GzipEncoder.write, Option.bind_eq_bind, Option.bind_eq_some_iff, Prod.exists] at h
    obtain ⟨q, d', ⟨d, hd, q', d'', hw, h'⟩, h⟩ := h
    obtain ⟨rfl, h1⟩ := hS.writeD (hI d hd) hw
    cases h'
    cases h
    exact ⟨rfl, fun d2 hd2 => by cases hd2; exact h1⟩
  | zlib g =>
    simp only [Encoder.write, ZlibEncoder.write, Option.bind_eq_bind, Option.bind_eq_some_iff, Prod.exists] at h
    obtain ⟨q, d', ⟨d, hd, q', d'', hw, h'⟩, h⟩ := h
    obtain ⟨rfl, h1⟩ := hS.writeD (hI d hd) hw
    cases h'
    cases h
    exact ⟨rfl, fun d2 hd2 => by cases hd2; exact h1⟩

theorem Faultless.finishE {e : Encoder σ} {s : σ} {r : Except ErrKind Unit} (hI : e.In I) (h : e.finish env = some (r, s)) : r = .ok () := by
  cases e with
  | deflate d => exact (hS.finishD hI h).1
  | gzip g =>
    simp only [Encoder.finish, GzipEncoder.finish, GzipEncoder.finishInner, Option.bind_eq_bind, Option.bind_eq_some_iff, Prod.exists] at h
    obtain ⟨d, hd, q, s1, hf, h⟩ := h
    obtain ⟨rfl, h1⟩ := hS.finishD (hI d hd) hf
    simp only [Option.bind_eq_some_iff, Prod.exists] at h
    obtain ⟨q, s2, hw, h⟩ := h
    obtain ⟨g1, g2⟩ := hS.write _ _ _ h1 hw
    dsimp only at g1 g2
    subst g1
    exact (hS.write _ _ _ g2 h).1
  | zlib g =>
    simp only [Encoder.finish, ZlibEncoder.finish, ZlibEncoder.finishInner, Option.bind_eq_bind, Option.bind_eq_some_iff, Prod.exists] at h
    obtain ⟨d, hd, q, s1, hf, h⟩ := h
    obtain ⟨rfl, h1⟩ := hS.finishD (hI d hd) hf
    exact (hS.write _ _ _ h1 h).1

theorem Faultless.finishC_eq {e : Encoder σ} (hI : e.In I) (h : e.Good env) : @Encoder.finish checkedBuild _ env e = e.finish env :=
  (Encoder.finish_le env e h.partOk).eq fun ⟨r, s⟩ hf => by
    have := hS.finishE hI hf
    subst this
    exact Encoder.finishC_ok env e h hf

theorem Faultless.dropC_eq {e : Encoder σ} (hI : e.In I) (h : e.Good env) : @Encoder.drop checkedBuild _ env e = e.drop env := by
  cases e with
  | deflate d => exact Zopfli.dropC_eq env d h
  | gzip g =>
    have := hS.finishC_eq hI h
    simp only [Encoder.finish, GzipEncoder.finish] at this
    simp only [Encoder.drop, GzipEncoder.drop]
    cases hd : g.deflate with
    | none => simp only [Option.bind_eq_bind, Option.bind_none]
    | some d =>
      rw [hd, some_bind, some_bind] at this
      simp only [some_bind, this]
  | zlib g =>
    have := hS.finishC_eq hI h
    simp only [Encoder.finish, ZlibEncoder.finish] at this
    simp only [Encoder.drop, ZlibEncoder.drop]
    cases hd : g.deflate with
    | none => simp only [Option.bind_eq_bind, Option.bind_none]
    | some d =>
      rw [hd, some_bind, some_bind] at this
      simp only [some_bind, this]

theorem Faultless.flushBuf {e e' : Encoder σ} {p p' : List UInt8} {r : Except ErrKind Unit} (hI : e.In I) (h : flushBuf env e p = some (r, e', p')) :
    r = .ok () ∧ e'.In I := by
  by_cases hp : p = []
  · subst hp
    rw [flushBuf_nil] at h
    cases h
    exact ⟨rfl, hI⟩
  · rw [flushBuf_once env e hp] at h
    simp only [Option.bind_eq_bind, Option.bind_eq_some_iff, Prod.exists] at h
    obtain ⟨q, e1, hw, h⟩ := h
    obtain ⟨rfl, h1⟩ := hS.writeE hI hw
    cases h
    exact ⟨rfl, h1⟩
end

theorem flushBufC_eq (env : Env σ) (e : Encoder σ) (p : List UInt8) (hb : PartSame env p) (h : e.Good env) :
    @flushBuf checkedBuild _ env e p = flushBuf env e p ∧ ∀ e' p', flushBuf env e p = some (.ok (), e', p') → e'.Good env := by
  by_cases hp : p = []
  · subst hp
    rw [@flushBuf_nil _ checkedBuild, flushBuf_nil]
    exact ⟨rfl, fun e' p' hf => by cases hf; exact h⟩
  · rw [@flushBuf_once _ checkedBuild env e p hp, flushBuf_once env e hp]
    obtain ⟨h1, h2⟩ := Encoder.writeC_eq env e p hb h
    rw [h1]
    refine ⟨rfl, fun e' p' hf => ?_⟩
    simp only [Option.bind_eq_bind, Option.bind_eq_some_iff, Prod.exists] at hf
    obtain ⟨q, e1, hw, hf⟩ := hf
    cases q with
    | error k => cases hf
    | ok n => cases hf; exact h2 _ _ hw

theorem copyLoopC_eq (env : Env σ) (hb : ∀ w : List UInt8, w.length ≤ MASTER_BLOCK_SIZE → PartSame env w) (R : Reader ρ) (r : ρ) (e : Encoder σ) (p : List UInt8)
    (h : e.Good env) (hp : p.length ≤ MASTER_BLOCK_SIZE) :
    ∀ x, copyLoop env R r e p = some x → @copyLoop checkedBuild _ _ env R r e p = some x ∧ x.2.2.length ≤ MASTER_BLOCK_SIZE ∧ (x.1 = .ok () → x.2.1.Good env) ∧
      ∀ I, Faultless env.S I → e.In I → x.2.1.Good env ∧ x.2.1.In I := by
  have := copyLoop.partial_correctness (env := env) (R := R) (motive := fun r e p x => e.Good env → p.length ≤ MASTER_BLOCK_SIZE →
    @copyLoop checkedBuild _ _ env R r e p = some x ∧ x.2.2.length ≤ MASTER_BLOCK_SIZE ∧ (x.1 = .ok () → x.2.1.Good env) ∧
      ∀ I, Faultless env.S I → e.In I → x.2.1.Good env ∧ x.2.1.In I) (by
      intro f ih r e p x hx h hp
      rw [@copyLoop.eq_def checkedBuild]
      dsimp only at hx ⊢
      split at hx
      · rename_i hroom
        rw [if_pos hroom]
        cases hr : R.read r (MASTER_BLOCK_SIZE - p.length) with
        | mk q r' =>
          rw [hr] at hx
          rcases q with k | l
          · cases k with
            | interrupted => exact ih _ _ _ _ hx h hp
            | writeZero => cases hx; exact ⟨rfl, hp, fun _ => h, fun I _ hI => ⟨h, hI⟩⟩
            | other n => cases hx; exact ⟨rfl, hp, fun _ => h, fun I _ hI => ⟨h, hI⟩⟩
          · cases l with
            | nil => cases hx; exact ⟨rfl, hp, fun _ => h, fun I _ hI => ⟨h, hI⟩⟩
            | cons b bs =>
              dsimp only at hx ⊢
              split at hx
              · rename_i hl
                rw [if_pos hl]
                exact ih _ _ _ _ hx h (by rw [List.length_append]; omega)
              · cases hx
      · rename_i hroom
        rw [if_neg hroom]
        obtain ⟨g1, g2⟩ := flushBufC_eq env e p (hb p hp) h
        rw [g1]
        cases hf : flushBuf env e p with
        | none => rw [hf] at hx; cases hx
        | some y =>
          obtain ⟨q, e1, p1⟩ := y
          rw [hf] at hx
          have h3 : p1.length ≤ MASTER_BLOCK_SIZE := by
            rcases (flushBuf_part env (hb p hp) h.partOk hf).2 with rfl | rfl <;> simp_all
          cases q with
          | error k =>
            cases hx
            refine ⟨rfl, h3, (fun h => by cases h), fun I hS hI => ?_⟩
            obtain ⟨h4, -⟩ := hS.flushBuf hI hf
            cases h4
          | ok u =>
            obtain ⟨a1, a2, a3, a4⟩ := ih _ _ _ _ hx (g2 e1 p1 hf) h3
            exact ⟨a1, a2, a3, fun I hS hI => a4 I hS (hS.flushBuf hI hf).2⟩)
  exact fun x hx => this r e p x hx h hp

/-- When `compress` succeeds, the build does not matter. -/
theorem compressC_ok (F : FloatOps) (S : Sink σ) (R : Reader ρ) (o : Options) (fmt : Format)
    (hb : ∀ w : List UInt8, w.length ≤ MASTER_BLOCK_SIZE → PartSame ⟨F, S, o, .dynamic⟩ w) {r : ρ} {s s' : σ}
    (h : compress F S R o fmt r s = some (.ok (), s')) : @compress checkedBuild _ _ F S R o fmt r s = some (.ok (), s') := by
  simp only [compress, Option.bind_eq_bind, Option.bind_eq_some_iff, Prod.exists] at h
  obtain ⟨q, s0, hn, h⟩ := h
  unfold compress
  dsimp only
  rw [hn, some_bind]
  cases q with
  | error k => cases h
  | ok e =>
    simp only [Option.bind_eq_some_iff, Prod.exists] at h
    obtain ⟨q, e1, p, hc, h⟩ := h
    obtain ⟨c1, c2, c3, -⟩ := copyLoopC_eq _ hb R r e [] (Encoder.new_good _ (hb [] (Nat.zero_le _)) fmt hn) (Nat.zero_le _) _ hc
    dsimp only
    rw [c1, some_bind]
    cases q with
    | error k =>
      simp only [Option.bind_eq_some_iff] at h
      obtain ⟨t, -, h⟩ := h
      cases h
    | ok u =>
      simp only [Option.bind_eq_some_iff, Prod.exists] at h
      obtain ⟨q, e2, p2, hf, h⟩ := h
      obtain ⟨g1, g2⟩ := flushBufC_eq _ e1 p (hb p c2) (c3 rfl)
      dsimp only
      rw [g1, hf, some_bind]
      cases q with
      | error k =>
        simp only [Option.bind_eq_some_iff] at h
        obtain ⟨t, -, h⟩ := h
        cases h
      | ok u => exact Encoder.finishC_ok _ e2 (g2 e2 p2 hf) h

/-- When the sink does not fail, the build does not matter either, whatever the reader does. -/
theorem compressC_faultless (F : FloatOps) {S : Sink σ} {I : σ → Prop} (hS : Faultless S I) (R : Reader ρ) (o : Options) (fmt : Format)
    (hb : ∀ w : List UInt8, w.length ≤ MASTER_BLOCK_SIZE → PartSame ⟨F, S, o, .dynamic⟩ w) (r : ρ) {s : σ} (hI : I s) :
    @compress checkedBuild _ _ F S R o fmt r s = compress F S R o fmt r s := by
  refine (compress_le F S R o fmt hb r s).eq fun x hx => ?_
  obtain ⟨res, s'⟩ := x
  cases res with
  | ok u => exact compressC_ok F S R o fmt hb hx
  | error k =>
    simp only [compress, Option.bind_eq_bind, Option.bind_eq_some_iff, Prod.exists] at hx
    obtain ⟨q, s0, hn, hx⟩ := hx
    obtain ⟨e, rfl, hIe⟩ := Faultless.new (env := ⟨F, S, o, .dynamic⟩) hS hI hn
    unfold compress
    dsimp only
    rw [hn, some_bind]
    simp only [Option.bind_eq_some_iff, Prod.exists] at hx
    obtain ⟨q, e1, p, hc, hx⟩ := hx
    obtain ⟨c1, c2, -, c4⟩ := copyLoopC_eq _ hb R r e [] (Encoder.new_good _ (hb [] (Nat.zero_le _)) fmt hn) (Nat.zero_le _) _ hc
    obtain ⟨c5, c6⟩ := c4 I hS hIe
    obtain ⟨g1, g2⟩ := flushBufC_eq _ e1 p (hb p c2) c5
    dsimp only
    rw [c1, some_bind]
    cases q with
    | error k' =>
      dsimp only at hx ⊢
      simp only [dropBuffered, Option.bind_eq_bind, Option.bind_eq_some_iff, Prod.exists] at hx
      obtain ⟨t, ⟨q, e2, p2, hf, hd⟩, hx⟩ := hx
      obtain ⟨rfl, f2⟩ := Faultless.flushBuf (env := ⟨F, S, o, .dynamic⟩) hS c6 hf
      rw [@dropBuffered.eq_def checkedBuild, g1, hf, some_bind]
      dsimp only
      rw [Faultless.dropC_eq (env := ⟨F, S, o, .dynamic⟩) hS f2 (g2 e2 p2 hf), hd, some_bind]
      exact hx
    | ok u =>
      simp only [Option.bind_eq_some_iff, Prod.exists] at hx
      obtain ⟨q, e2, p2, hf, hx⟩ := hx
      obtain ⟨rfl, f2⟩ := Faultless.flushBuf (env := ⟨F, S, o, .dynamic⟩) hS c6 hf
      have := Faultless.finishE (env := ⟨F, S, o, .dynamic⟩) hS f2 hx
      cases this

end Zopfli
