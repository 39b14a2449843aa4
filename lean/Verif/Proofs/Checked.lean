import Verif.Proofs.Buffered
import Verif.Proofs.Hom
import Verif.Proofs.OverflowPart
import Verif.Proofs.Ieee
/-! # Builds with overflow checks behave like release builds until a call fails -/

namespace Zopfli

variable {σ : Type}

theorem finishPartialBits_bp {S : Sink σ} {w w' : BitwiseWriter σ} (h : w.finishPartialBits S = some (.ok (), w')) : w'.bp = 0 := by
  unfold BitwiseWriter.finishPartialBits at h
  split at h
  · cases hw : w.addBytes S [w.bit] with
    | none => rw [hw] at h; cases h
    | some p =>
      obtain ⟨q, s⟩ := p
      rw [hw, some_bind] at h
      cases q with
      | ok u => cases h; rfl
      | error k => cases h
  · rename_i hb
    cases h
    simpa using hb

theorem addBytes_bp {S : Sink σ} {w w' : BitwiseWriter σ} {l : List UInt8} {r : Except ErrKind Unit} (h : w.addBytes S l = some (r, w')) : w'.bp = w.bp := by
  unfold BitwiseWriter.addBytes at h
  cases hw : S.writeAll w.out l with
  | none => rw [hw] at h; cases h
  | some p => rw [hw, some_bind] at h; cases h; rfl

theorem bp_succ (b : UInt8) (h : b < 8) (h' : b + 1 ≠ 8) : b + 1 < 8 := by
  have h1 : b.toNat < 8 := h
  have h2 : (b + 1).toNat = b.toNat + 1 := by
    rw [UInt8.toNat_add]
    have : (1 : UInt8).toNat = 1 := rfl
    rw [this]
    omega
  have h3 : (b + 1).toNat ≠ 8 := by
    intro h3
    exact h' (UInt8.toNat_inj.1 (by rw [h3]; rfl))
  show (b + 1).toNat < 8
  omega

theorem execC_eq (S : Sink σ) (w : BitwiseWriter σ) (op : WOp) (h : w.bp < 8) :
    @BitwiseWriter.exec checkedBuild _ S w op = w.exec S op ∧ ∀ w', w.exec S op = some (.ok (), w') → w'.bp < 8 := by
  cases op with
  | bit b =>
    refine ⟨?_, fun w' hw => ?_⟩
    · have h' : ¬ 8 ≤ w.bp := by
        intro h'
        exact absurd (show w.bp.toNat < 8 from h) (Nat.not_lt.2 (show 8 ≤ w.bp.toNat from h'))
      show @BitwiseWriter.addBit checkedBuild _ S w b = w.addBit S b
      exact (if_neg fun h => h' h.2).trans (if_neg fun h => h' h.2).symm
    have hw : w.addBit S b = some (.ok (), w') := hw
    rw [addBit_release] at hw
    split at hw
    · rw [finishPartialBits_bp hw]; decide
    · rename_i hb
      cases hw
      exact bp_succ _ h hb
  | align => exact ⟨rfl, fun w' hw => by rw [finishPartialBits_bp hw]; decide⟩
  | bytes l => exact ⟨rfl, fun w' hw => by rw [addBytes_bp hw]; exact h⟩

theorem execAllC_eq (S : Sink σ) : ∀ (ops : List WOp) (w : BitwiseWriter σ), w.bp < 8 →
    @BitwiseWriter.execAll checkedBuild _ S w ops = w.execAll S ops ∧ ∀ w', w.execAll S ops = some (.ok (), w') → w'.bp < 8
  | [], w, h => ⟨rfl, fun w' hw => by cases hw; exact h⟩
  | op :: ops, w, h => by
    obtain ⟨h1, h2⟩ := execC_eq S w op h
    simp only [BitwiseWriter.execAll]
    rw [h1]
    cases hx : w.exec S op with
    | none => exact ⟨rfl, fun w' hw => by cases hw⟩
    | some p =>
      obtain ⟨q, w1⟩ := p
      rw [some_bind, some_bind]
      cases q with
      | error k => exact ⟨rfl, fun w' hw => by cases hw⟩
      | ok u => exact execAllC_eq S ops w1 (h2 w1 hx)

/-- Encoding the data of one write does not overflow, whatever precedes it in the window. -/
def PartSame (env : Env σ) (buf : List UInt8) : Prop := ∀ (w : Array UInt8) (last : Bool), w.size ≤ 32768 →
  @deflatePart checkedBuild env.F env.options env.btype last (w ++ buf.toArray) w.size (w ++ buf.toArray).size =
    @deflatePart releaseBuild env.F env.options env.btype last (w ++ buf.toArray) w.size (w ++ buf.toArray).size

theorem partSame_of (env : Env σ) (L : FloatLaws env.F) (buf : List UInt8) (h : env.btype = .dynamic → buf.length < 2 ^ 28 - 1 ∧ 32768 + buf.length < 2 * L.lim) :
    PartSame env buf := by
  intro w last hw
  cases hb : env.btype with
  | uncompressed => rfl
  | fixed => rfl
  | dynamic =>
    obtain ⟨h1, h2⟩ := h hb
    have hsz : (w ++ buf.toArray).size = w.size + buf.length := by simp
    exact deflatePart_eq checkedBuild L env.options .dynamic last (by omega) (Nat.le_refl _) (by omega) (by omega)

theorem partSame_ieee {log2 : Fp → Fp} (hlog : Log2Ok log2) (S : Sink σ) (o : Options) (bt : BlockType) (buf : List UInt8)
    (h : bt = .dynamic → buf.length < 2 ^ 28 - 1) : PartSame ⟨ieee log2, S, o, bt⟩ buf := by
  refine partSame_of ⟨ieee log2, S, o, bt⟩ (ieeeLaws hlog) buf fun hb => ⟨h hb, ieee_size hlog ?_⟩
  have := h hb
  omega

/-- The writer of the encoder is between two bytes' ends, as it is unless a write failed; and its chunk does not overflow. -/
structure DeflateEncoder.Good (env : Env σ) (e : DeflateEncoder σ) : Prop where
  bp : ∀ w, e.bitwiseWriter = some w → w.bp < 8
  part : ∀ last, @deflatePart checkedBuild env.F env.options env.btype last e.windowAndChunk e.chunkStart e.windowAndChunk.size =
    @deflatePart releaseBuild env.F env.options env.btype last e.windowAndChunk e.chunkStart e.windowAndChunk.size

theorem compressChunkC_eq (env : Env σ) (e : DeflateEncoder σ) (last : Bool) (h : e.Good env) :
    @DeflateEncoder.compressChunk checkedBuild _ env e last = e.compressChunk env last ∧ ∀ e', e.compressChunk env last = some (.ok (), e') → e'.Good env := by
  unfold DeflateEncoder.compressChunk
  cases hw : e.bitwiseWriter with
  | none => exact ⟨by simp only [Option.bind_eq_bind, Option.bind_none], fun e' he => by cases he⟩
  | some w =>
    rw [some_bind, some_bind]
    rw [h.part last]
    cases deflatePart env.F env.options env.btype last e.windowAndChunk e.chunkStart e.windowAndChunk.size with
    | none => exact ⟨rfl, fun e' he => by cases he⟩
    | some ops =>
      rw [some_bind, some_bind]
      obtain ⟨h1, h2⟩ := execAllC_eq env.S ops w (h.bp w hw)
      rw [h1]
      refine ⟨rfl, fun e' he => ?_⟩
      cases hx : w.execAll env.S ops with
      | none => rw [hx] at he; cases he
      | some p =>
        obtain ⟨q, w1⟩ := p
        rw [hx, some_bind] at he
        cases he
        refine ⟨fun w2 hw2 => ?_, h.part⟩
        cases hw2
        exact h2 w1 hx

theorem finishInnerC_eq (env : Env σ) (e : DeflateEncoder σ) (h : e.Good env) : @DeflateEncoder.finishInner checkedBuild _ env e = e.finishInner env := by
  unfold DeflateEncoder.finishInner
  rw [(compressChunkC_eq env e true h).1]

theorem dropC_eq (env : Env σ) (e : DeflateEncoder σ) (h : e.Good env) : @DeflateEncoder.drop checkedBuild _ env e = e.drop env := by
  unfold DeflateEncoder.drop DeflateEncoder.dropWith
  rw [finishInnerC_eq env e h]

theorem dropWithC_none (env : Env σ) (e : DeflateEncoder σ) (h : e.bitwiseWriter = none) (s : σ) : @DeflateEncoder.dropWith checkedBuild _ env e s = e.dropWith env s := by
  unfold DeflateEncoder.dropWith DeflateEncoder.finishInner
  rw [h]

/-- A `finish` that succeeds. -/
theorem finishC_ok (env : Env σ) (e : DeflateEncoder σ) (h : e.Good env) {s : σ} (hf : e.finish env = some (.ok (), s)) : @DeflateEncoder.finish checkedBuild _ env e = some (.ok (), s) := by
  unfold DeflateEncoder.finish at hf
  unfold DeflateEncoder.finish
  rw [finishInnerC_eq env e h]
  cases hi : e.finishInner env with
  | none => rw [hi] at hf; cases hf
  | some p =>
    obtain ⟨q, e', t⟩ := p
    rw [hi, some_bind] at hf
    rw [some_bind]
    have hn : ∀ x, q = .ok (some x) → e'.bitwiseWriter = none := by
      intro x hq
      subst hq
      unfold DeflateEncoder.finishInner at hi
      split at hi
      · cases hi
      · simp only [Option.bind_eq_bind, Option.bind_eq_some_iff, Prod.exists] at hi
        obtain ⟨r, e1, -, hi⟩ := hi
        cases r with
        | error k => cases hi
        | ok u =>
          simp only [Option.bind_eq_some_iff, Prod.exists] at hi
          obtain ⟨w1, -, r, w2, -, hi⟩ := hi
          cases r with
          | error k => cases hi
          | ok u => cases hi; rfl
    rcases q with k | x
    · dsimp only at hf
      cases t with
      | none => cases hf
      | some t =>
        rw [some_bind] at hf
        cases hd : e'.dropWith env t with
        | none => rw [hd] at hf; cases hf
        | some s2 => rw [hd] at hf; cases hf
    · cases x with
      | none => cases hf
      | some x =>
        dsimp only at hf ⊢
        cases t with
        | none => cases hf
        | some t =>
          rw [some_bind] at hf ⊢
          rw [dropWithC_none env e' (hn x rfl)]
          exact hf

theorem setChunk_good {env : Env σ} {e : DeflateEncoder σ} (h : e.Good env) {buf : List UInt8} (hb : PartSame env buf) : (e.setChunk buf).Good env :=
  ⟨h.bp, fun last => by
    unfold DeflateEncoder.setChunk
    dsimp only
    generalize hw : e.windowAndChunk.extract (e.windowAndChunk.size - WINDOW_SIZE) e.windowAndChunk.size = w
    refine hb w last ?_
    rw [← hw, Array.size_extract]
    have : WINDOW_SIZE = 32768 := rfl
    omega⟩

theorem writeC_eq (env : Env σ) (e : DeflateEncoder σ) (buf : List UInt8) (hb : PartSame env buf) (h : e.Good env) :
    @DeflateEncoder.write checkedBuild _ env e buf = e.write env buf ∧ ∀ n e', e.write env buf = some (.ok n, e') → e'.Good env := by
  unfold DeflateEncoder.write
  obtain ⟨h1, h2⟩ := compressChunkC_eq env e false h
  rw [h1]
  refine ⟨rfl, fun n e' hw => ?_⟩
  split at hw
  · cases hc : e.compressChunk env false with
    | none => rw [hc] at hw; cases hw
    | some p =>
      obtain ⟨q, e1⟩ := p
      rw [hc, some_bind] at hw
      cases q with
      | error k => cases hw
      | ok u => cases hw; exact setChunk_good (h2 e1 hc) hb
  · cases hw; exact setChunk_good h hb

/-- The same for the three formats. -/
def Encoder.Good (env : Env σ) : Encoder σ → Prop
  | .deflate d => d.Good env
  | .gzip g => ∀ d, g.deflate = some d → d.Good env
  | .zlib g => ∀ d, g.deflate = some d → d.Good env

theorem Encoder.new_good (env : Env σ) (h0 : PartSame env []) (fmt : Format) {s s' : σ} {e : Encoder σ} (h : Encoder.new env fmt s = some (.ok e, s')) : e.Good env := by
  have key : ∀ s : σ, (DeflateEncoder.new s).Good env := by
    intro s
    refine ⟨fun w hw => ?_, fun last => ?_⟩
    · cases hw
      show (0 : UInt8) < 8
      decide
    · exact h0 #[] last (Nat.zero_le _)
  cases fmt with
  | deflate => cases h; exact key _
  | gzip =>
    simp only [Encoder.new, GzipEncoder.new, Option.bind_eq_bind, Option.bind_eq_some_iff, Prod.exists] at h
    obtain ⟨r, s1, ⟨r', s2, -, h1⟩, h2⟩ := h
    cases r' with
    | error k => cases h1; cases h2
    | ok u => cases h1; cases h2; intro d hd; cases hd; exact key _
  | zlib =>
    simp only [Encoder.new, ZlibEncoder.new, Option.bind_eq_bind, Option.bind_eq_some_iff, Prod.exists] at h
    obtain ⟨r, s1, ⟨r', s2, -, h1⟩, h2⟩ := h
    cases r' with
    | error k => cases h1; cases h2
    | ok u => cases h1; cases h2; intro d hd; cases hd; exact key _

theorem Encoder.writeC_eq (env : Env σ) (e : Encoder σ) (buf : List UInt8) (hb : PartSame env buf) (h : e.Good env) :
    @Encoder.write checkedBuild _ env e buf = e.write env buf ∧ ∀ n e', e.write env buf = some (.ok n, e') → e'.Good env := by
  cases e with
  | deflate d =>
    obtain ⟨h1, h2⟩ := Zopfli.writeC_eq env d buf hb h
    refine ⟨by simp only [Encoder.write, h1], fun n e' hw => ?_⟩
    simp only [Encoder.write, Option.bind_eq_bind, Option.bind_eq_some_iff, Prod.exists] at hw
    obtain ⟨r, d', hw, hr⟩ := hw
    cases hr
    exact h2 n d' hw
  | gzip g =>
    cases hd : g.deflate with
    | none =>
      refine ⟨by simp only [Encoder.write, GzipEncoder.write, hd, Option.bind_eq_bind, Option.bind_none], fun n e' hw => ?_⟩
      simp only [Encoder.write, GzipEncoder.write, hd] at hw
      cases hw
    | some d =>
      obtain ⟨h1, h2⟩ := Zopfli.writeC_eq env d buf hb (h d hd)
      refine ⟨by simp only [Encoder.write, GzipEncoder.write, hd, some_bind, h1], fun n e' hw => ?_⟩
      simp only [Encoder.write, GzipEncoder.write, hd, some_bind, Option.bind_eq_bind, Option.bind_eq_some_iff, Prod.exists] at hw
      obtain ⟨r, g', ⟨r', d', hw, hr⟩, hr2⟩ := hw
      cases r' with
      | error k => cases hr; cases hr2
      | ok m => cases hr; cases hr2; intro d2 hd2; cases hd2; exact h2 _ d' hw
  | zlib g =>
    cases hd : g.deflate with
    | none =>
      refine ⟨by simp only [Encoder.write, ZlibEncoder.write, hd, Option.bind_eq_bind, Option.bind_none], fun n e' hw => ?_⟩
      simp only [Encoder.write, ZlibEncoder.write, hd] at hw
      cases hw
    | some d =>
      obtain ⟨h1, h2⟩ := Zopfli.writeC_eq env d buf hb (h d hd)
      refine ⟨by simp only [Encoder.write, ZlibEncoder.write, hd, some_bind, h1], fun n e' hw => ?_⟩
      simp only [Encoder.write, ZlibEncoder.write, hd, some_bind, Option.bind_eq_bind, Option.bind_eq_some_iff, Prod.exists] at hw
      obtain ⟨r, g', ⟨r', d', hw, hr⟩, hr2⟩ := hw
      cases r' with
      | error k => cases hr; cases hr2
      | ok m => cases hr; cases hr2; intro d2 hd2; cases hd2; exact h2 _ d' hw

theorem flushD_good (env : Env σ) {d d' : DeflateEncoder σ} {r : Except ErrKind Unit} (h : d.Good env) (hf : d.flush env = some (r, d')) : d'.Good env := by
  unfold DeflateEncoder.flush at hf
  cases hw : d.bitwiseWriter with
  | none => rw [hw] at hf; cases hf
  | some w =>
    rw [hw, some_bind] at hf
    cases hf
    refine ⟨fun w' hw' => ?_, h.part⟩
    cases hw'
    exact h.bp w hw

theorem Encoder.flush_good (env : Env σ) {e e' : Encoder σ} {r : Except ErrKind Unit} (h : e.Good env) (hf : e.flush env = some (r, e')) : e'.Good env := by
  cases e with
  | deflate d =>
    simp only [Encoder.flush, Option.bind_eq_bind, Option.bind_eq_some_iff, Prod.exists] at hf
    obtain ⟨r, d', hw, hr⟩ := hf
    cases hr
    exact flushD_good env h hw
  | gzip g =>
    simp only [Encoder.flush, GzipEncoder.flush, Option.bind_eq_bind, Option.bind_eq_some_iff, Prod.exists] at hf
    obtain ⟨r, g', ⟨d, hd, r', d', hw, hr⟩, hr2⟩ := hf
    cases hr; cases hr2
    intro d2 hd2
    cases hd2
    exact flushD_good env (h d hd) hw
  | zlib g =>
    simp only [Encoder.flush, ZlibEncoder.flush, Option.bind_eq_bind, Option.bind_eq_some_iff, Prod.exists] at hf
    obtain ⟨r, g', ⟨d, hd, r', d', hw, hr⟩, hr2⟩ := hf
    cases hr; cases hr2
    intro d2 hd2
    cases hd2
    exact flushD_good env (h d hd) hw

theorem Encoder.runC_eq (env : Env σ) : ∀ (calls : List Call) (e : Encoder σ), (∀ w ∈ writesOf calls, PartSame env w) → e.Good env →
    @Encoder.run checkedBuild _ env calls e = e.run env calls ∧ ∀ e', e.run env calls = some (.ok (), e') → e'.Good env
  | [], e, _, h => ⟨rfl, fun e' he => by cases he; exact h⟩
  | .write buf :: l, e, hp, h => by
    obtain ⟨h1, h2⟩ := Encoder.writeC_eq env e buf (hp buf (by simp [writesOf])) h
    simp only [Encoder.run]
    rw [h1]
    cases hw : e.write env buf with
    | none => exact ⟨rfl, fun e' he => by cases he⟩
    | some p =>
      obtain ⟨q, e1⟩ := p
      rw [some_bind, some_bind]
      cases q with
      | error k => exact ⟨rfl, fun e' he => by cases he⟩
      | ok n => exact Encoder.runC_eq env l e1 (fun w hw => hp w (by simpa [writesOf] using .inr hw)) (h2 n e1 hw)
  | .flush :: l, e, hp, h => by
    simp only [Encoder.run]
    cases hw : e.flush env with
    | none => exact ⟨rfl, fun e' he => by cases he⟩
    | some p =>
      obtain ⟨q, e1⟩ := p
      rw [some_bind, some_bind]
      cases q with
      | error k => exact ⟨rfl, fun e' he => by cases he⟩
      | ok n => exact Encoder.runC_eq env l e1 (fun w hw => hp w (by simpa [writesOf] using hw)) (Encoder.flush_good env h hw)

theorem Encoder.finishC_ok (env : Env σ) (e : Encoder σ) (h : e.Good env) {s : σ} (hf : e.finish env = some (.ok (), s)) : @Encoder.finish checkedBuild _ env e = some (.ok (), s) := by
  cases e with
  | deflate d => exact Zopfli.finishC_ok env d h hf
  | gzip g =>
    simp only [Encoder.finish, GzipEncoder.finish, Option.bind_eq_bind, Option.bind_eq_some_iff] at hf
    obtain ⟨d, hd, hf⟩ := hf
    simp only [GzipEncoder.finishInner, Option.bind_eq_bind, Option.bind_eq_some_iff, Prod.exists] at hf
    obtain ⟨r, s1, h1, h2⟩ := hf
    cases r with
    | error k => cases h2
    | ok u =>
      simp only [Encoder.finish, GzipEncoder.finish, hd, GzipEncoder.finishInner, Option.bind_eq_bind, Option.bind_some, Zopfli.finishC_ok env d (h d hd) h1]
      exact h2
  | zlib g =>
    simp only [Encoder.finish, ZlibEncoder.finish, Option.bind_eq_bind, Option.bind_eq_some_iff] at hf
    obtain ⟨d, hd, hf⟩ := hf
    simp only [ZlibEncoder.finishInner, Option.bind_eq_bind, Option.bind_eq_some_iff, Prod.exists] at hf
    obtain ⟨r, s1, h1, h2⟩ := hf
    cases r with
    | error k => cases h2
    | ok u =>
      simp only [Encoder.finish, ZlibEncoder.finish, hd, ZlibEncoder.finishInner, Option.bind_eq_bind, Option.bind_some, Zopfli.finishC_ok env d (h d hd) h1]
      exact h2

theorem Encoder.dropC_of_finish (env : Env σ) (e : Encoder σ) (h : e.Good env) {s : σ} (hf : e.finish env = some (.ok (), s)) : @Encoder.drop checkedBuild _ env e = e.drop env := by
  cases e with
  | deflate d => exact Zopfli.dropC_eq env d h
  | gzip g =>
    have h1 := Encoder.finishC_ok env (.gzip g) h hf
    have hf : g.finish env = some (.ok (), s) := hf
    simp only [Encoder.finish, GzipEncoder.finish] at h1
    simp only [GzipEncoder.finish] at hf
    cases hd : g.deflate with
    | none => rw [hd] at hf; cases hf
    | some d =>
      rw [hd, some_bind] at h1 hf
      simp only [Encoder.drop, GzipEncoder.drop, hd, some_bind, h1, hf]
  | zlib g =>
    have h1 := Encoder.finishC_ok env (.zlib g) h hf
    have hf : g.finish env = some (.ok (), s) := hf
    simp only [Encoder.finish, ZlibEncoder.finish] at h1
    simp only [ZlibEncoder.finish] at hf
    cases hd : g.deflate with
    | none => rw [hd] at hf; cases hf
    | some d =>
      rw [hd, some_bind] at h1 hf
      simp only [Encoder.drop, ZlibEncoder.drop, hd, some_bind, h1, hf]

/-- As long as every call returns `Ok`, the build does not matter. -/
theorem sessionC_ok (env : Env σ) (fmt : Format) (calls : List Call) (h0 : PartSame env []) (hp : ∀ w ∈ writesOf calls, PartSame env w) {s s' : σ} (h : session env fmt calls .finish s = some (.ok (), s')) :
    @session checkedBuild _ env fmt calls .finish s = some (.ok (), s') ∧ @session checkedBuild _ env fmt calls .drop s = session env fmt calls .drop s := by
  unfold session at h
  unfold session
  cases hn : Encoder.new env fmt s with
  | none => rw [hn] at h; cases h
  | some p =>
    obtain ⟨q, s0⟩ := p
    rw [hn, some_bind] at h
    rw [some_bind, some_bind, some_bind]
    cases q with
    | error k => cases h
    | ok e =>
      obtain ⟨h1, h2⟩ := Encoder.runC_eq env calls e hp (Encoder.new_good env h0 fmt hn)
      dsimp only at h ⊢
      rw [h1]
      cases hr : e.run env calls with
      | none => rw [hr] at h; cases h
      | some p =>
        obtain ⟨q, e1⟩ := p
        rw [hr, some_bind] at h
        rw [some_bind, some_bind, some_bind]
        cases q with
        | error k =>
          dsimp only at h
          cases hd : e1.drop env with
          | none => rw [hd] at h; cases h
          | some s2 => rw [hd] at h; cases h
        | ok u =>
          dsimp only at h ⊢
          exact ⟨Encoder.finishC_ok env e1 (h2 e1 hr) h, by rw [Encoder.dropC_of_finish env e1 (h2 e1 hr) h]⟩

/-- Dropping a `DeflateEncoder` never panics unless an earlier call failed. -/
theorem sessionC_drop (env : Env σ) (calls : List Call) (h0 : PartSame env []) (hp : ∀ w ∈ writesOf calls, PartSame env w) {s s' : σ} (h : session env .deflate calls .drop s = some (.ok (), s')) :
    @session checkedBuild _ env .deflate calls .drop s = some (.ok (), s') := by
  unfold session at h
  unfold session
  cases hn : Encoder.new env .deflate s with
  | none => rw [hn] at h; cases h
  | some p =>
    obtain ⟨q, s0⟩ := p
    rw [hn, some_bind] at h
    rw [some_bind]
    cases q with
    | error k => cases h
    | ok e =>
      obtain ⟨h1, h2⟩ := Encoder.runC_eq env calls e hp (Encoder.new_good env h0 .deflate hn)
      have hfmt : ∀ (calls : List Call) (e : Encoder σ) e1 r, (∃ d, e = .deflate d) → e.run env calls = some (r, e1) → ∃ d, e1 = .deflate d := by
        intro calls
        induction calls with
        | nil => rintro e e1 r ⟨d, rfl⟩ hr; cases hr; exact ⟨d, rfl⟩
        | cons c l ih =>
          rintro e e1 r ⟨d, rfl⟩ hr
          cases c with
          | write buf =>
            simp only [Encoder.run, Encoder.write, Option.bind_eq_bind, Option.bind_eq_some_iff, Prod.exists] at hr
            obtain ⟨q, e', ⟨q', d', hw, h3⟩, h4⟩ := hr
            cases h3
            cases q with
            | error k => cases h4; exact ⟨d', rfl⟩
            | ok n => exact ih _ _ _ ⟨d', rfl⟩ h4
          | flush =>
            simp only [Encoder.run, Encoder.flush, Option.bind_eq_bind, Option.bind_eq_some_iff, Prod.exists] at hr
            obtain ⟨q, e', ⟨q', d', hw, h3⟩, h4⟩ := hr
            cases h3
            cases q with
            | error k => cases h4; exact ⟨d', rfl⟩
            | ok n => exact ih _ _ _ ⟨d', rfl⟩ h4
      dsimp only at h ⊢
      rw [h1]
      cases hr : e.run env calls with
      | none => rw [hr] at h; cases h
      | some p =>
        obtain ⟨q, e1⟩ := p
        rw [hr, some_bind] at h
        rw [some_bind]
        cases q with
        | error k =>
          dsimp only at h
          cases hd : e1.drop env with
          | none => rw [hd] at h; cases h
          | some s2 => rw [hd] at h; cases h
        | ok u =>
          dsimp only at h ⊢
          obtain ⟨d, rfl⟩ := hfmt calls e e1 _ (by cases hn; exact ⟨_, rfl⟩) hr
          have : @Encoder.drop checkedBuild _ env (Encoder.deflate d) = (Encoder.deflate d).drop env := dropC_eq env d (h2 _ hr)
          rw [this]
          exact h

end Zopfli
