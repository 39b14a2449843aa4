import Verif.Proofs.WorkPart
import Verif.Model.WorkEncoder
/-!
# The steps of calls on an encoder and of whole sessions
-/

namespace Zopfli
namespace Work

variable {σ : Type}

/-- The bytes an encoder holds back. -/
def held (d : DeflateEncoder σ) : Nat := d.windowAndChunk.size - d.chunkStart

/-- The buffers fit in the address space. -/
def Good (lim : Nat) (d : DeflateEncoder σ) : Prop := d.chunkStart ≤ d.windowAndChunk.size ∧ d.windowAndChunk.size < 2 * lim

/-- The two encoders hold the same data. -/
def Same (d d' : DeflateEncoder σ) : Prop := d'.windowAndChunk = d.windowAndChunk ∧ d'.chunkStart = d.chunkStart

theorem Same.refl (d : DeflateEncoder σ) : Same d d := ⟨rfl, rfl⟩

theorem Same.held {d d' : DeflateEncoder σ} (h : Same d d') : Work.held d' = Work.held d := by
  unfold Work.held
  rw [h.1, h.2]

theorem Same.good {d d' : DeflateEncoder σ} {lim : Nat} (h : Same d d') (hg : Good lim d) : Good lim d' := by
  unfold Good
  rw [h.1, h.2]
  exact hg

/-- The steps to compress what is held. -/
def stepsFor (o : Options) (E n : Nat) : Nat := stepsPerByte o.iterationCount * n + stepsPerPart o.iterationCount o.maximumBlockSplits E

theorem compressChunk_cost (E : Nat) (env : Env σ) (L : FloatLaws env.F) (d : DeflateEncoder σ) (hg : Good L.lim d) (isLast : Bool) :
    Cost (compressChunk E env d isLast) (d.compressChunk env isLast) fun r t => Same d r.2 ∧ t ≤ stepsFor env.options E (held d) := by
  unfold compressChunk DeflateEncoder.compressChunk
  refine Cost.liftBind fun w _ => ?_
  have hlim := L.lim_le
  refine Cost.bind (deflatePart_cost L E env.options env.btype isLast hg.1 (Nat.le_refl _) hg.2 (by have := hg.2; omega)) fun ops t _ p => ?_
  refine Cost.liftBind fun r _ => Cost.pure ⟨⟨rfl, rfl⟩, ?_⟩
  unfold stepsFor held
  omega

theorem finishInner_cost (E : Nat) (env : Env σ) (L : FloatLaws env.F) (d : DeflateEncoder σ) (hg : Good L.lim d) :
    Cost (finishInner E env d) (d.finishInner env) fun r t => Same d r.2.1 ∧ t ≤ stepsFor env.options E (held d) + 8 ∧
      (d.bitwiseWriter = none → t = 0) ∧ ∀ s, r.1 = .ok (some s) → r.2.1.bitwiseWriter = none := by
  unfold finishInner DeflateEncoder.finishInner
  cases hb : d.bitwiseWriter with
  | none => exact Cost.pure ⟨Same.refl _, Nat.zero_le _, fun _ => rfl, nofun⟩
  | some w0 =>
    dsimp only
    refine Cost.bind (compressChunk_cost E env L d hg true) fun r t _ p => ?_
    obtain ⟨r, e⟩ := r
    dsimp only at p ⊢
    cases r with
    | error k => exact Cost.pure ⟨p.1, by omega, nofun, nofun⟩
    | ok u =>
      refine Cost.liftBind fun w _ => Cost.tick (Cost.liftBind fun x _ => ?_)
      obtain ⟨r, w'⟩ := x
      dsimp only
      cases r with
      | error k => exact Cost.pure ⟨p.1, by omega, nofun, nofun⟩
      | ok u => exact Cost.pure ⟨p.1, by omega, nofun, fun _ _ => rfl⟩

theorem dropWith_cost (E : Nat) (env : Env σ) (L : FloatLaws env.F) (d : DeflateEncoder σ) (hg : Good L.lim d) (sink : σ) :
    Cost (dropWith E env d sink) (d.dropWith env sink) fun _ t => t ≤ stepsFor env.options E (held d) + 8 ∧ (d.bitwiseWriter = none → t = 0) := by
  unfold dropWith DeflateEncoder.dropWith
  refine Cost.bind (finishInner_cost E env L d hg) fun r t _ p => Cost.pure ⟨?_, ?_⟩
  · have := p.2.1
    omega
  · intro h
    have := p.2.2.1 h
    omega

theorem deflateFinish_cost (E : Nat) (env : Env σ) (L : FloatLaws env.F) (d : DeflateEncoder σ) (hg : Good L.lim d) :
    Cost (deflateFinish E env d) (d.finish env) fun r t => t ≤ 2 * (stepsFor env.options E (held d) + 8) ∧
      (r.1 = .ok () → t ≤ stepsFor env.options E (held d) + 8) := by
  unfold deflateFinish DeflateEncoder.finish
  refine Cost.bind (finishInner_cost E env L d hg) fun r t _ p => ?_
  obtain ⟨r, e, s⟩ := r
  dsimp only at p ⊢
  obtain ⟨p1, p2, -, p4⟩ := p
  have hh := p1.held
  have hg' := p1.good hg
  cases r with
  | error k =>
    refine Cost.liftBind fun s _ => Cost.bind (dropWith_cost E env L e hg' s) fun s' t' _ q => Cost.pure ⟨?_, nofun⟩
    rw [hh] at q
    omega
  | ok o =>
    cases o with
    | none => exact Cost.none
    | some x =>
      refine Cost.liftBind fun s _ => Cost.bind (dropWith_cost E env L e hg' s) fun s' t' _ q => Cost.pure ?_
      have := q.2 (p4 x rfl)
      exact ⟨by omega, fun _ => by omega⟩

theorem deflateWrite_cost (E : Nat) (env : Env σ) (L : FloatLaws env.F) (d : DeflateEncoder σ) (hg : Good L.lim d) (buf : List UInt8)
    (hb : buf.length < L.lim) :
    Cost (deflateWrite E env d buf) (d.write env buf) fun r t => Good L.lim r.2 ∧ t ≤ stepsFor env.options E (held d) + 32768 + buf.length ∧
      (∀ n, r.1 = .ok n → n = buf.length ∧ held r.2 = buf.length) ∧ (∀ k, r.1 = .error k → held r.2 = held d) := by
  unfold deflateWrite DeflateEncoder.write
  refine Cost.bind (P := fun r t => Same d r.2 ∧ t ≤ stepsFor env.options E (held d)) ?_ fun r t _ p => ?_
  · exact Cost.ite (fun _ => compressChunk_cost E env L d hg false) fun _ => Cost.pure ⟨Same.refl _, Nat.zero_le _⟩
  · obtain ⟨r, e⟩ := r
    dsimp only at p ⊢
    cases r with
    | error k => exact Cost.pure ⟨p.1.good hg, by omega, nofun, fun _ _ => p.1.held⟩
    | ok u =>
      unfold setChunk
      refine Cost.bindPure (P := fun _ t => t = 32768 + buf.length) (Cost.tick (Cost.pure (Nat.add_zero _))) fun t' p' => Cost.pure ?_
      have hw : (e.windowAndChunk.extract (e.windowAndChunk.size - WINDOW_SIZE) e.windowAndChunk.size).size ≤ 32768 := by
        rw [Array.size_extract]
        simp only [WINDOW_SIZE]
        omega
      have hl := L.lim_ge
      have hbuf : buf.toArray.size = buf.length := List.size_toArray ..
      refine ⟨⟨?_, ?_⟩, by omega, ?_, nofun⟩
      · unfold DeflateEncoder.setChunk
        dsimp only
        rw [Array.size_append]
        omega
      · unfold DeflateEncoder.setChunk
        dsimp only
        rw [Array.size_append, hbuf]
        omega
      · rintro n ⟨⟩
        unfold held DeflateEncoder.setChunk
        dsimp only
        rw [Array.size_append, hbuf]
        exact ⟨rfl, by omega⟩

/-- The inner encoder, if it is there. -/
def inner : Encoder σ → Option (DeflateEncoder σ)
  | .gzip e => e.deflate
  | .zlib e => e.deflate
  | .deflate e => some e

/-- What an encoder holds back. -/
def heldBy (e : Encoder σ) : Nat := ((inner e).map held).getD 0

/-- The encoder is in a state to go on. -/
def Ready (lim : Nat) (e : Encoder σ) : Prop := ∀ d, inner e = some d → Good lim d

theorem write_cost (E : Nat) (env : Env σ) (L : FloatLaws env.F) (e : Encoder σ) (hg : Ready L.lim e) (buf : List UInt8)
    (hb : buf.length < L.lim) :
    Cost (write E env e buf) (e.write env buf) fun r t => Ready L.lim r.2 ∧ t ≤ stepsFor env.options E (heldBy e) + 32768 + 2 * buf.length ∧
      (∀ n, r.1 = .ok n → heldBy r.2 = buf.length) ∧ (∀ k, r.1 = .error k → heldBy r.2 = heldBy e) := by
  unfold write Encoder.write
  cases e with
  | gzip e =>
    dsimp only
    unfold gzipWrite GzipEncoder.write
    refine Cost.bind (P := fun r t => Ready L.lim (.gzip r.2) ∧ t ≤ stepsFor env.options E (heldBy (.gzip e)) + 32768 + 2 * buf.length ∧
      (∀ n, r.1 = .ok n → heldBy (.gzip r.2) = buf.length) ∧ (∀ k, r.1 = .error k → heldBy (.gzip r.2) = heldBy (.gzip e))) ?_
      fun r t _ p => Cost.pure p
    refine Cost.liftBind fun d hd => ?_
    have hh : heldBy (.gzip e) = held d := by
      simp only [heldBy, inner, hd, Option.map_some, Option.getD_some]
    rw [hh]
    refine Cost.bind (deflateWrite_cost E env L d (hg d hd) buf hb) fun r t _ p => ?_
    obtain ⟨r, d'⟩ := r
    dsimp only at p ⊢
    obtain ⟨p1, p2, p3, p4⟩ := p
    cases r with
    | error k =>
      refine Cost.pure ⟨?_, by omega, nofun, fun k' _ => p4 k rfl⟩
      rintro _ ⟨⟩
      exact p1
    | ok n =>
      obtain ⟨rfl, q⟩ := p3 _ rfl
      refine Cost.tick (Cost.pure ⟨?_, by rw [List.take_length]; omega, fun _ _ => q, nofun⟩)
      rintro _ ⟨⟩
      exact p1
  | zlib e =>
    dsimp only
    unfold zlibWrite ZlibEncoder.write
    refine Cost.bind (P := fun r t => Ready L.lim (.zlib r.2) ∧ t ≤ stepsFor env.options E (heldBy (.zlib e)) + 32768 + 2 * buf.length ∧
      (∀ n, r.1 = .ok n → heldBy (.zlib r.2) = buf.length) ∧ (∀ k, r.1 = .error k → heldBy (.zlib r.2) = heldBy (.zlib e))) ?_
      fun r t _ p => Cost.pure p
    refine Cost.liftBind fun d hd => ?_
    have hh : heldBy (.zlib e) = held d := by
      simp only [heldBy, inner, hd, Option.map_some, Option.getD_some]
    rw [hh]
    refine Cost.bind (deflateWrite_cost E env L d (hg d hd) buf hb) fun r t _ p => ?_
    obtain ⟨r, d'⟩ := r
    dsimp only at p ⊢
    obtain ⟨p1, p2, p3, p4⟩ := p
    cases r with
    | error k =>
      refine Cost.pure ⟨?_, by omega, nofun, fun k' _ => p4 k rfl⟩
      rintro _ ⟨⟩
      exact p1
    | ok n =>
      obtain ⟨rfl, q⟩ := p3 _ rfl
      refine Cost.tick (Cost.pure ⟨?_, by rw [List.take_length]; omega, fun _ _ => q, nofun⟩)
      rintro _ ⟨⟩
      exact p1
  | deflate e =>
    dsimp only
    refine Cost.bind (deflateWrite_cost E env L e (hg e rfl) buf hb) fun r t _ p => Cost.pure ?_
    obtain ⟨p1, p2, p3, p4⟩ := p
    have hh : heldBy (.deflate e) = held e := rfl
    rw [hh]
    refine ⟨?_, by omega, fun n h => (p3 n h).2, p4⟩
    rintro _ ⟨⟩
    exact p1

theorem flush_same (env : Env σ) {e e' : Encoder σ} {r : Except ErrKind Unit} (h : e.flush env = some (r, e')) {lim : Nat} (hg : Ready lim e) :
    Ready lim e' ∧ heldBy e' = heldBy e := by
  have hd : ∀ {d d' : DeflateEncoder σ} {r : Except ErrKind Unit}, d.flush env = some (r, d') → Same d d' := by
    intro d d' r h
    unfold DeflateEncoder.flush at h
    rw [Option.bind_eq_bind, Option.bind_eq_some_iff] at h
    obtain ⟨w, -, h⟩ := h
    cases h
    exact ⟨rfl, rfl⟩
  unfold Encoder.flush at h
  cases e with
  | gzip e =>
    dsimp only at h
    unfold GzipEncoder.flush at h
    simp only [Option.bind_eq_bind, Option.bind_eq_some_iff, Prod.exists] at h
    obtain ⟨r1, e1, ⟨d, hi, r2, d', h1, h2⟩, h3⟩ := h
    cases h2
    cases h3
    have hs := hd h1
    refine ⟨?_, ?_⟩
    · rintro _ ⟨⟩
      exact hs.good (hg d hi)
    · simp only [heldBy, inner, hi, Option.map_some, Option.getD_some]
      exact hs.held
  | zlib e =>
    dsimp only at h
    unfold ZlibEncoder.flush at h
    simp only [Option.bind_eq_bind, Option.bind_eq_some_iff, Prod.exists] at h
    obtain ⟨r1, e1, ⟨d, hi, r2, d', h1, h2⟩, h3⟩ := h
    cases h2
    cases h3
    have hs := hd h1
    refine ⟨?_, ?_⟩
    · rintro _ ⟨⟩
      exact hs.good (hg d hi)
    · simp only [heldBy, inner, hi, Option.map_some, Option.getD_some]
      exact hs.held
  | deflate e =>
    dsimp only at h
    simp only [Option.bind_eq_bind, Option.bind_eq_some_iff, Prod.exists] at h
    obtain ⟨r1, e1, h1, h2⟩ := h
    cases h2
    have hs := hd h1
    refine ⟨?_, hs.held⟩
    rintro _ ⟨⟩
    exact hs.good (hg e rfl)

theorem gzipFinishInner_cost (E : Nat) (env : Env σ) (L : FloatLaws env.F) (e : GzipEncoder σ) (d : DeflateEncoder σ) (hg : Good L.lim d) :
    Cost (gzipFinishInner E env e d) (e.finishInner env d) fun r t => t ≤ 2 * (stepsFor env.options E (held d) + 8) + 8 ∧
      (r.1 = .ok () → t ≤ stepsFor env.options E (held d) + 16) := by
  unfold gzipFinishInner GzipEncoder.finishInner
  refine Cost.bind (deflateFinish_cost E env L d hg) fun r t _ p => ?_
  obtain ⟨r, sink⟩ := r
  dsimp only at p ⊢
  cases r with
  | error k => exact Cost.pure ⟨by omega, nofun⟩
  | ok u =>
    have p2 := p.2 rfl
    refine Cost.tick (Cost.liftBind fun x _ => ?_)
    obtain ⟨r, sink⟩ := x
    dsimp only
    cases r with
    | error k => exact Cost.pure ⟨by omega, nofun⟩
    | ok u => exact Cost.lift fun _ _ => ⟨by omega, fun _ => by omega⟩

theorem zlibFinishInner_cost (E : Nat) (env : Env σ) (L : FloatLaws env.F) (e : ZlibEncoder σ) (d : DeflateEncoder σ) (hg : Good L.lim d) :
    Cost (zlibFinishInner E env e d) (e.finishInner env d) fun r t => t ≤ 2 * (stepsFor env.options E (held d) + 8) + 8 ∧
      (r.1 = .ok () → t ≤ stepsFor env.options E (held d) + 16) := by
  unfold zlibFinishInner ZlibEncoder.finishInner
  refine Cost.bind (deflateFinish_cost E env L d hg) fun r t _ p => ?_
  obtain ⟨r, sink⟩ := r
  dsimp only at p ⊢
  cases r with
  | error k => exact Cost.pure ⟨by omega, nofun⟩
  | ok u =>
    have p2 := p.2 rfl
    exact Cost.tick (Cost.lift fun _ _ => ⟨by omega, fun _ => by omega⟩)

theorem finish_cost (E : Nat) (env : Env σ) (L : FloatLaws env.F) (e : Encoder σ) (hg : Ready L.lim e) :
    Cost (finish E env e) (e.finish env) fun r t => t ≤ 2 * stepsFor env.options E (heldBy e) + 24 ∧
      (r.1 = .ok () → t ≤ stepsFor env.options E (heldBy e) + 16) := by
  unfold finish Encoder.finish
  cases e with
  | gzip e =>
    dsimp only
    unfold GzipEncoder.finish
    refine Cost.liftBind fun d hd => (gzipFinishInner_cost E env L e d (hg d hd)).mono fun r t _ p => ?_
    simp only [heldBy, inner, hd, Option.map_some, Option.getD_some]
    exact ⟨by omega, p.2⟩
  | zlib e =>
    dsimp only
    unfold ZlibEncoder.finish
    refine Cost.liftBind fun d hd => (zlibFinishInner_cost E env L e d (hg d hd)).mono fun r t _ p => ?_
    simp only [heldBy, inner, hd, Option.map_some, Option.getD_some]
    exact ⟨by omega, p.2⟩
  | deflate e =>
    dsimp only
    refine (deflateFinish_cost E env L e (hg e rfl)).mono fun r t _ p => ?_
    have hh : heldBy (.deflate e) = held e := rfl
    rw [hh]
    exact ⟨by omega, fun h => by have := p.2 h; omega⟩

theorem drop_cost (E : Nat) (env : Env σ) (L : FloatLaws env.F) (e : Encoder σ) (hg : Ready L.lim e) :
    Cost (drop E env e) (e.drop env) fun _ t => t ≤ 2 * stepsFor env.options E (heldBy e) + 24 := by
  unfold drop Encoder.drop
  cases e with
  | gzip e =>
    dsimp only
    unfold GzipEncoder.drop
    refine Cost.liftBind fun d hd => Cost.bind (gzipFinishInner_cost E env L e d (hg d hd)) fun r t _ p => Cost.pure ?_
    simp only [heldBy, inner, hd, Option.map_some, Option.getD_some]
    omega
  | zlib e =>
    dsimp only
    unfold ZlibEncoder.drop
    refine Cost.liftBind fun d hd => Cost.bind (zlibFinishInner_cost E env L e d (hg d hd)) fun r t _ p => Cost.pure ?_
    simp only [heldBy, inner, hd, Option.map_some, Option.getD_some]
    omega
  | deflate e =>
    dsimp only
    unfold deflateDrop DeflateEncoder.drop
    refine Cost.liftBind fun w _ => (dropWith_cost E env L e (hg e rfl) w.out).mono fun r t _ p => ?_
    have hh : heldBy (.deflate e) = held e := rfl
    rw [hh]
    omega

/-- The bytes of a sequence of calls. -/
def bytesOf (calls : List Call) : Nat := ((writesOf calls).map List.length).sum

theorem calls_cost (E : Nat) (env : Env σ) (L : FloatLaws env.F) (A K K2 : Nat) (hK : K2 = K + 32768) (hA : ∀ n, stepsFor env.options E n = A * n + K) :
    ∀ (calls : List Call) (e : Encoder σ), Ready L.lim e → (∀ w ∈ writesOf calls, w.length < L.lim) →
    Cost (run E env calls e) (e.run env calls) fun r t => Ready L.lim r.2 ∧ heldBy r.2 ≤ heldBy e + bytesOf calls ∧
      t ≤ A * (heldBy e + bytesOf calls) + 2 * bytesOf calls + calls.length * K2 ∧
      (r.1 = .ok () → t + A * heldBy r.2 ≤ A * (heldBy e + bytesOf calls) + 2 * bytesOf calls + calls.length * K2)
  | [], e, hg, _ => Cost.pure ⟨hg, Nat.le_add_right _ _, Nat.zero_le _, fun _ => by
      have : bytesOf [] = 0 := rfl
      rw [this]
      dsimp only
      rw [Nat.add_zero (heldBy e)]
      omega⟩
  | .write buf :: l, e, hg, hw => by
    unfold run Encoder.run
    have hbytes : bytesOf (.write buf :: l) = buf.length + bytesOf l := rfl
    have hw' := hw buf (by simp [writesOf])
    refine Cost.bind (write_cost E env L e hg buf hw') fun r t _ p => ?_
    obtain ⟨r, e'⟩ := r
    dsimp only at p ⊢
    obtain ⟨p1, p2, p3, p4⟩ := p
    rw [hA] at p2
    rw [hbytes, List.length_cons, Nat.add_mul, Nat.one_mul, Nat.mul_add, Nat.mul_add]
    generalize hlk : l.length * K2 = lk
    cases r with
    | error k =>
      have h4 := p4 k rfl
      refine Cost.pure ⟨p1, by dsimp only; omega, ?_, nofun⟩
      omega
    | ok n =>
      have h3 := p3 n rfl
      refine (calls_cost E env L A K K2 hK hA l e' p1 (fun w h => hw w (by simp [writesOf, h]))).mono fun x t' _ q => ?_
      rw [h3, hlk, Nat.mul_add] at q
      obtain ⟨q1, q2, q3, q4⟩ := q
      exact ⟨q1, by omega, by omega, fun h => by have := q4 h; omega⟩
  | .flush :: l, e, hg, hw => by
    unfold run Encoder.run
    have hbytes : bytesOf (.flush :: l) = bytesOf l := rfl
    refine Cost.bind (P := fun x t => (Ready L.lim x.2 ∧ heldBy x.2 = heldBy e) ∧ t = 1) (Cost.tick (Cost.lift fun x hx => ⟨flush_same env hx hg, Nat.add_zero _⟩)) fun r t _ p => ?_
    obtain ⟨r, e'⟩ := r
    dsimp only at p ⊢
    obtain ⟨⟨p1, p2⟩, p3⟩ := p
    rw [hbytes, List.length_cons, Nat.add_mul, Nat.one_mul]
    generalize hlk : l.length * K2 = lk
    cases r with
    | error k =>
      refine Cost.pure ⟨p1, by dsimp only; omega, ?_, nofun⟩
      omega
    | ok u =>
      refine (calls_cost E env L A K K2 hK hA l e' p1 hw).mono fun x t' _ q => ?_
      rw [p2, hlk] at q
      obtain ⟨q1, q2, q3, q4⟩ := q
      exact ⟨q1, by omega, by omega, fun h => by have := q4 h; omega⟩

theorem new_ready (env : Env σ) (fmt : Format) {sink s : σ} {e : Encoder σ} (h : Encoder.new env fmt sink = some (.ok e, s)) {lim : Nat} (hl : 0 < lim) :
    Ready lim e ∧ heldBy e = 0 := by
  have hd : ∀ sink : σ, Good lim (DeflateEncoder.new sink) ∧ held (DeflateEncoder.new sink) = 0 := by
    intro sink
    refine ⟨⟨Nat.le_refl _, ?_⟩, rfl⟩
    show 0 < 2 * lim
    omega
  unfold Encoder.new at h
  cases fmt with
  | gzip =>
    dsimp only at h
    unfold GzipEncoder.new at h
    simp only [Option.bind_eq_bind, Option.bind_eq_some_iff, Prod.exists] at h
    obtain ⟨r1, s1, ⟨r2, s2, -, h2⟩, h3⟩ := h
    cases r2 with
    | error k => cases h2; cases h3
    | ok u =>
      cases h2
      cases h3
      refine ⟨?_, rfl⟩
      rintro _ ⟨⟩
      exact (hd _).1
  | zlib =>
    dsimp only at h
    unfold ZlibEncoder.new at h
    simp only [Option.bind_eq_bind, Option.bind_eq_some_iff, Prod.exists] at h
    obtain ⟨r1, s1, ⟨r2, s2, -, h2⟩, h3⟩ := h
    cases r2 with
    | error k => cases h2; cases h3
    | ok u =>
      cases h2
      cases h3
      refine ⟨?_, rfl⟩
      rintro _ ⟨⟩
      exact (hd _).1
  | deflate =>
    cases h
    refine ⟨?_, rfl⟩
    rintro _ ⟨⟩
    exact (hd _).1

/-- A whole session: `A` steps for a byte and `K` for a call; if it ends with an error the last buffer may have been compressed three times. -/
theorem session_cost (E : Nat) (env : Env σ) (L : FloatLaws env.F) (A K K2 : Nat) (hK : K2 = K + 32768) (hA : ∀ n, stepsFor env.options E n = A * n + K) (fmt : Format)
    (calls : List Call) (ending : Ending) (sink : σ) (hw : ∀ w ∈ writesOf calls, w.length < L.lim) :
    Cost (session E env fmt calls ending sink) (Zopfli.session env fmt calls ending sink) fun r t =>
      t ≤ (3 * A + 2) * bytesOf calls + (calls.length + 2) * K2 ∧
      (r.1 = .ok () → ending = .finish → t ≤ (A + 2) * bytesOf calls + (calls.length + 1) * K2) := by
  unfold session Zopfli.session
  refine Cost.tick (Cost.liftBind fun x hx => ?_)
  obtain ⟨r, s⟩ := x
  dsimp only
  have e1 : (3 * A + 2) * bytesOf calls = 3 * (A * bytesOf calls) + 2 * bytesOf calls := by rw [Nat.add_mul, Nat.mul_assoc]
  have e2 : (A + 2) * bytesOf calls = A * bytesOf calls + 2 * bytesOf calls := Nat.add_mul ..
  have e3 : (calls.length + 2) * K2 = calls.length * K2 + 2 * K2 := Nat.add_mul ..
  have e4 : (calls.length + 1) * K2 = calls.length * K2 + 1 * K2 := Nat.add_mul ..
  generalize hlk : calls.length * K2 = lk at e3 e4
  generalize (calls.length + 2) * K2 = l2 at e3 ⊢
  generalize (calls.length + 1) * K2 = l1 at e4 ⊢
  cases r with
  | error k => exact Cost.pure ⟨by omega, nofun⟩
  | ok e =>
    obtain ⟨hr, h0⟩ := new_ready env fmt hx L.lim_pos
    dsimp only
    refine Cost.bind (calls_cost E env L A K K2 hK hA calls e hr hw) fun y t1 _ p => ?_
    obtain ⟨r, e'⟩ := y
    dsimp only at p ⊢
    rw [h0, Nat.zero_add, hlk] at p
    obtain ⟨p1, p2, p3, p4⟩ := p
    have hm : A * heldBy e' ≤ A * bytesOf calls := Nat.mul_le_mul_left _ p2
    cases r with
    | error k =>
      refine Cost.bind (drop_cost E env L e' p1) fun s t2 _ q => Cost.pure ⟨?_, nofun⟩
      rw [hA] at q
      omega
    | ok u =>
      have p4 := p4 rfl
      cases ending with
      | finish =>
        dsimp only
        refine (finish_cost E env L e' p1).mono fun x t2 _ q => ?_
        rw [hA] at q
        exact ⟨by omega, fun h _ => by have := q.2 h; omega⟩
      | drop =>
        dsimp only
        refine Cost.bind (drop_cost E env L e' p1) fun s t2 _ q => Cost.pure ⟨?_, nofun⟩
        rw [hA] at q
        omega

end Work
end Zopfli
