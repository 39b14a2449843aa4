import Verif.Proofs.Checked
/-! # A build with overflow checks panics or does what a release build does -/

namespace Zopfli

variable {σ ρ : Type}

/-- The first panics, or has the same result. -/
def Le {α : Type} (a b : Option α) : Prop := ∀ x, a = some x → b = some x

theorem Le.refl {α : Type} (a : Option α) : Le a a := fun _ h => h

theorem Le.of_eq {α : Type} {a b : Option α} (h : a = b) : Le a b := h ▸ Le.refl a

theorem Le.bind {α β : Type} {a b : Option α} {f g : α → Option β} (h : Le a b) (hf : ∀ x, b = some x → Le (f x) (g x)) : Le (a >>= f) (b >>= g) := by
  intro y hy
  cases ha : a with
  | none => rw [ha] at hy; cases hy
  | some x =>
    have hb := h x ha
    rw [ha, some_bind] at hy
    rw [hb, some_bind]
    exact hf x hb y hy

theorem exec_le (S : Sink σ) (w : BitwiseWriter σ) (op : WOp) : Le (@BitwiseWriter.exec checkedBuild _ S w op) (w.exec S op) := by
  cases op with
  | bit b =>
    intro x hx
    have hx : @BitwiseWriter.addBit checkedBuild _ S w b = some x := hx
    show w.addBit S b = some x
    unfold BitwiseWriter.addBit at hx
    split at hx
    · cases hx
    · rw [addBit_release]
      exact hx
  | align => exact Le.refl _
  | bytes l => exact Le.refl _

theorem execAll_le (S : Sink σ) : ∀ (ops : List WOp) (w : BitwiseWriter σ), Le (@BitwiseWriter.execAll checkedBuild _ S w ops) (w.execAll S ops)
  | [], w => Le.refl _
  | op :: ops, w => by
    simp only [BitwiseWriter.execAll]
    refine (exec_le S w op).bind fun ⟨r, w'⟩ _ => ?_
    cases r with
    | ok u => exact execAll_le S ops w'
    | error k => exact Le.refl _

/-- The chunk of the encoder does not overflow. -/
def DeflateEncoder.PartOk (env : Env σ) (e : DeflateEncoder σ) : Prop :=
  ∀ last, @deflatePart checkedBuild env.F env.options env.btype last e.windowAndChunk e.chunkStart e.windowAndChunk.size =
    @deflatePart releaseBuild env.F env.options env.btype last e.windowAndChunk e.chunkStart e.windowAndChunk.size

theorem compressChunk_le (env : Env σ) (e : DeflateEncoder σ) (last : Bool) (h : e.PartOk env) :
    Le (@DeflateEncoder.compressChunk checkedBuild _ env e last) (e.compressChunk env last) := by
  unfold DeflateEncoder.compressChunk
  refine (Le.refl _).bind fun w _ => ?_
  rw [h last]
  refine (Le.refl _).bind fun ops _ => ?_
  exact (execAll_le env.S ops w).bind fun _ _ => Le.refl _

theorem compressChunk_part (env : Env σ) {e e' : DeflateEncoder σ} {last : Bool} {r : Except ErrKind Unit} (h : e.PartOk env)
    (hc : e.compressChunk env last = some (r, e')) : e'.PartOk env := by
  unfold DeflateEncoder.compressChunk at hc
  simp only [Option.bind_eq_bind, Option.bind_eq_some_iff, Prod.exists] at hc
  obtain ⟨w, -, ops, -, q, w', -, hc⟩ := hc
  cases hc
  exact h

theorem finishInner_le (env : Env σ) (e : DeflateEncoder σ) (h : e.PartOk env) : Le (@DeflateEncoder.finishInner checkedBuild _ env e) (e.finishInner env) := by
  unfold DeflateEncoder.finishInner
  split
  · exact Le.refl _
  · refine (compressChunk_le env e true h).bind fun ⟨r, e'⟩ _ => ?_
    cases r with
    | error k => exact Le.refl _
    | ok u => exact Le.refl _

theorem finishInner_part (env : Env σ) {e e' : DeflateEncoder σ} {r : Except ErrKind (Option σ)} {s : Option σ} (h : e.PartOk env)
    (hf : e.finishInner env = some (r, e', s)) : e'.PartOk env := by
  unfold DeflateEncoder.finishInner at hf
  split at hf
  · cases hf; exact h
  · simp only [Option.bind_eq_bind, Option.bind_eq_some_iff, Prod.exists] at hf
    obtain ⟨q, e1, hc, hf⟩ := hf
    have h1 := compressChunk_part env h hc
    cases q with
    | error k => cases hf; exact h1
    | ok u =>
      simp only [Option.bind_eq_some_iff, Prod.exists] at hf
      obtain ⟨w, -, q, w', -, hf⟩ := hf
      cases q with
      | error k => cases hf; exact h1
      | ok u => cases hf; exact h1

theorem dropWith_le (env : Env σ) (e : DeflateEncoder σ) (h : e.PartOk env) (s : σ) : Le (@DeflateEncoder.dropWith checkedBuild _ env e s) (e.dropWith env s) :=
  (finishInner_le env e h).bind fun _ _ => Le.refl _

theorem dropD_le (env : Env σ) (e : DeflateEncoder σ) (h : e.PartOk env) : Le (@DeflateEncoder.drop checkedBuild _ env e) (e.drop env) :=
  (Le.refl e.bitwiseWriter).bind fun w _ => dropWith_le env e h w.out

theorem finishD_le (env : Env σ) (e : DeflateEncoder σ) (h : e.PartOk env) : Le (@DeflateEncoder.finish checkedBuild _ env e) (e.finish env) := by
  unfold DeflateEncoder.finish
  refine (finishInner_le env e h).bind fun ⟨r, e', s⟩ hf => ?_
  have h' := finishInner_part env h hf
  rcases r with k | x
  · exact (Le.refl s).bind fun s _ => (dropWith_le env e' h' s).bind fun _ _ => Le.refl _
  · cases x with
    | none => exact Le.refl _
    | some x => exact (Le.refl s).bind fun s _ => (dropWith_le env e' h' s).bind fun _ _ => Le.refl _

theorem setChunk_part {env : Env σ} {e : DeflateEncoder σ} {buf : List UInt8} (hb : PartSame env buf) : (e.setChunk buf).PartOk env := by
  intro last
  unfold DeflateEncoder.setChunk
  dsimp only
  generalize hw : e.windowAndChunk.extract (e.windowAndChunk.size - WINDOW_SIZE) e.windowAndChunk.size = w
  refine hb w last ?_
  rw [← hw, Array.size_extract]
  have : WINDOW_SIZE = 32768 := rfl
  omega

theorem writeD_le (env : Env σ) (e : DeflateEncoder σ) (buf : List UInt8) (h : e.PartOk env) :
    Le (@DeflateEncoder.write checkedBuild _ env e buf) (e.write env buf) := by
  unfold DeflateEncoder.write
  refine Le.bind ?_ fun _ _ => Le.refl _
  split
  · exact compressChunk_le env e false h
  · exact Le.refl _

theorem writeD_part (env : Env σ) {e e' : DeflateEncoder σ} {buf : List UInt8} {r : Except ErrKind Nat} (hb : PartSame env buf) (h : e.PartOk env)
    (hw : e.write env buf = some (r, e')) : e'.PartOk env := by
  unfold DeflateEncoder.write at hw
  simp only [Option.bind_eq_bind, Option.bind_eq_some_iff, Prod.exists] at hw
  obtain ⟨q, e1, hc, hw⟩ := hw
  cases q with
  | ok u => cases hw; exact setChunk_part hb
  | error k =>
    cases hw
    split at hc
    · exact compressChunk_part env h hc
    · cases hc

/-- The same for the three formats. -/
def Encoder.PartOk (env : Env σ) : Encoder σ → Prop
  | .deflate d => d.PartOk env
  | .gzip g => ∀ d, g.deflate = some d → d.PartOk env
  | .zlib g => ∀ d, g.deflate = some d → d.PartOk env

theorem Encoder.Good.partOk {env : Env σ} {e : Encoder σ} (h : e.Good env) : e.PartOk env := by
  cases e with
  | deflate d => exact h.part
  | gzip g => exact fun d hd => (h d hd).part
  | zlib g => exact fun d hd => (h d hd).part

theorem Encoder.write_le (env : Env σ) (e : Encoder σ) (buf : List UInt8) (h : e.PartOk env) :
    Le (@Encoder.write checkedBuild _ env e buf) (e.write env buf) := by
  cases e with
  | deflate d => exact (writeD_le env d buf h).bind fun _ _ => Le.refl _
  | gzip g =>
    refine Le.bind ?_ fun _ _ => Le.refl _
    exact (Le.refl g.deflate).bind fun d hd => (writeD_le env d buf (h d hd)).bind fun _ _ => Le.refl _
  | zlib g =>
    refine Le.bind ?_ fun _ _ => Le.refl _
    exact (Le.refl g.deflate).bind fun d hd => (writeD_le env d buf (h d hd)).bind fun _ _ => Le.refl _

theorem Encoder.write_part (env : Env σ) {e e' : Encoder σ} {buf : List UInt8} {r : Except ErrKind Nat} (hb : PartSame env buf) (h : e.PartOk env)
    (hw : e.write env buf = some (r, e')) : e'.PartOk env := by
  cases e with
  | deflate d =>
    simp only [Encoder.write, Option.bind_eq_bind, Option.bind_eq_some_iff, Prod.exists] at hw
    obtain ⟨r, d', hw, hr⟩ := hw
    cases hr
    exact writeD_part env hb h hw
  | gzip g =>
    simp only [Encoder.write, GzipEncoder.write, Option.bind_eq_bind, Option.bind_eq_some_iff, Prod.exists] at hw
    obtain ⟨r, g', ⟨d, hd, r', d', hw, hr⟩, hr2⟩ := hw
    have := writeD_part env hb (h d hd) hw
    cases r' with
    | error k => cases hr; cases hr2; intro d2 hd2; cases hd2; exact this
    | ok m => cases hr; cases hr2; intro d2 hd2; cases hd2; exact this
  | zlib g =>
    simp only [Encoder.write, ZlibEncoder.write, Option.bind_eq_bind, Option.bind_eq_some_iff, Prod.exists] at hw
    obtain ⟨r, g', ⟨d, hd, r', d', hw, hr⟩, hr2⟩ := hw
    have := writeD_part env hb (h d hd) hw
    cases r' with
    | error k => cases hr; cases hr2; intro d2 hd2; cases hd2; exact this
    | ok m => cases hr; cases hr2; intro d2 hd2; cases hd2; exact this

theorem flushD_part (env : Env σ) {d d' : DeflateEncoder σ} {r : Except ErrKind Unit} (h : d.PartOk env) (hf : d.flush env = some (r, d')) : d'.PartOk env := by
  unfold DeflateEncoder.flush at hf
  simp only [Option.bind_eq_bind, Option.bind_eq_some_iff] at hf
  obtain ⟨w, -, hf⟩ := hf
  cases hf
  exact h

theorem Encoder.flush_part (env : Env σ) {e e' : Encoder σ} {r : Except ErrKind Unit} (h : e.PartOk env) (hf : e.flush env = some (r, e')) : e'.PartOk env := by
  cases e with
  | deflate d =>
    simp only [Encoder.flush, Option.bind_eq_bind, Option.bind_eq_some_iff, Prod.exists] at hf
    obtain ⟨r, d', hw, hr⟩ := hf
    cases hr
    exact flushD_part env h hw
  | gzip g =>
    simp only [Encoder.flush, GzipEncoder.flush, Option.bind_eq_bind, Option.bind_eq_some_iff, Prod.exists] at hf
    obtain ⟨r, g', ⟨d, hd, r', d', hw, hr⟩, hr2⟩ := hf
    cases hr; cases hr2
    intro d2 hd2
    cases hd2
    exact flushD_part env (h d hd) hw
  | zlib g =>
    simp only [Encoder.flush, ZlibEncoder.flush, Option.bind_eq_bind, Option.bind_eq_some_iff, Prod.exists] at hf
    obtain ⟨r, g', ⟨d, hd, r', d', hw, hr⟩, hr2⟩ := hf
    cases hr; cases hr2
    intro d2 hd2
    cases hd2
    exact flushD_part env (h d hd) hw

theorem gzipFinish_le (env : Env σ) (g : GzipEncoder σ) (d : DeflateEncoder σ) (h : d.PartOk env) :
    Le (@GzipEncoder.finishInner checkedBuild _ env g d) (g.finishInner env d) := (finishD_le env d h).bind fun _ _ => Le.refl _

theorem zlibFinish_le (env : Env σ) (g : ZlibEncoder σ) (d : DeflateEncoder σ) (h : d.PartOk env) :
    Le (@ZlibEncoder.finishInner checkedBuild _ env g d) (g.finishInner env d) := (finishD_le env d h).bind fun _ _ => Le.refl _

theorem Encoder.finish_le (env : Env σ) (e : Encoder σ) (h : e.PartOk env) : Le (@Encoder.finish checkedBuild _ env e) (e.finish env) := by
  cases e with
  | deflate d => exact finishD_le env d h
  | gzip g => exact (Le.refl g.deflate).bind fun d hd => gzipFinish_le env g d (h d hd)
  | zlib g => exact (Le.refl g.deflate).bind fun d hd => zlibFinish_le env g d (h d hd)

theorem Encoder.drop_le (env : Env σ) (e : Encoder σ) (h : e.PartOk env) : Le (@Encoder.drop checkedBuild _ env e) (e.drop env) := by
  cases e with
  | deflate d => exact dropD_le env d h
  | gzip g => exact (Le.refl g.deflate).bind fun d hd => (gzipFinish_le env g d (h d hd)).bind fun _ _ => Le.refl _
  | zlib g => exact (Le.refl g.deflate).bind fun d hd => (zlibFinish_le env g d (h d hd)).bind fun _ _ => Le.refl _

theorem Encoder.run_le (env : Env σ) : ∀ (calls : List Call) (e : Encoder σ), (∀ w ∈ writesOf calls, PartSame env w) → e.PartOk env →
    Le (@Encoder.run checkedBuild _ env calls e) (e.run env calls) ∧ ∀ r e', e.run env calls = some (r, e') → e'.PartOk env
  | [], e, _, h => ⟨Le.refl _, fun r e' he => by cases he; exact h⟩
  | .write buf :: l, e, hp, h => by
    have hb := hp buf (by simp [writesOf])
    have ih := fun e1 => Encoder.run_le env l e1 fun w hw => hp w (by simpa [writesOf] using .inr hw)
    constructor
    · simp only [Encoder.run]
      refine (Encoder.write_le env e buf h).bind fun ⟨r, e1⟩ hw => ?_
      cases r with
      | error k => exact Le.refl _
      | ok n => exact (ih e1 (Encoder.write_part env hb h hw)).1
    · intro r e' he
      simp only [Encoder.run, Option.bind_eq_bind, Option.bind_eq_some_iff, Prod.exists] at he
      obtain ⟨q, e1, hw, he⟩ := he
      have h1 := Encoder.write_part env hb h hw
      cases q with
      | error k => cases he; exact h1
      | ok n => exact (ih e1 h1).2 _ _ he
  | .flush :: l, e, hp, h => by
    have ih := fun e1 => Encoder.run_le env l e1 fun w hw => hp w (by simpa [writesOf] using hw)
    constructor
    · simp only [Encoder.run]
      refine (Le.refl _).bind fun ⟨r, e1⟩ hw => ?_
      cases r with
      | error k => exact Le.refl _
      | ok n => exact (ih e1 (Encoder.flush_part env h hw)).1
    · intro r e' he
      simp only [Encoder.run, Option.bind_eq_bind, Option.bind_eq_some_iff, Prod.exists] at he
      obtain ⟨q, e1, hw, he⟩ := he
      have h1 := Encoder.flush_part env h hw
      cases q with
      | error k => cases he; exact h1
      | ok n => exact (ih e1 h1).2 _ _ he

theorem session_le (env : Env σ) (fmt : Format) (calls : List Call) (h0 : PartSame env []) (hp : ∀ w ∈ writesOf calls, PartSame env w) (ending : Ending) (s : σ) :
    Le (@session checkedBuild _ env fmt calls ending s) (session env fmt calls ending s) := by
  unfold session
  refine (Le.refl _).bind fun ⟨r, s'⟩ hn => ?_
  cases r with
  | error k => exact Le.refl _
  | ok e =>
    obtain ⟨h1, h2⟩ := Encoder.run_le env calls e hp (Encoder.new_good env h0 fmt hn).partOk
    refine h1.bind fun ⟨r, e1⟩ hr => ?_
    have h3 := h2 _ _ hr
    cases r with
    | error k => exact (Encoder.drop_le env e1 h3).bind fun _ _ => Le.refl _
    | ok u =>
      cases ending with
      | finish => exact Encoder.finish_le env e1 h3
      | drop => exact (Encoder.drop_le env e1 h3).bind fun _ _ => Le.refl _

/-! ## Buffering -/

theorem flushBuf_le (env : Env σ) (e : Encoder σ) (p : List UInt8) (h : e.PartOk env) : Le (@flushBuf checkedBuild _ env e p) (flushBuf env e p) := by
  by_cases hp : p = []
  · subst hp
    rw [@flushBuf_nil _ checkedBuild, flushBuf_nil]
    exact Le.refl _
  · rw [@flushBuf_once _ checkedBuild env e p hp, flushBuf_once env e hp]
    refine (Encoder.write_le env e p h).bind fun ⟨r, e'⟩ _ => ?_
    cases r <;> exact Le.refl _

theorem flushBuf_part (env : Env σ) {e e' : Encoder σ} {p p' : List UInt8} {r : Except ErrKind Unit} (hb : PartSame env p) (h : e.PartOk env)
    (hf : flushBuf env e p = some (r, e', p')) : e'.PartOk env ∧ (p' = [] ∨ p' = p) := by
  by_cases hp : p = []
  · subst hp
    rw [flushBuf_nil] at hf
    cases hf
    exact ⟨h, .inl rfl⟩
  · rw [flushBuf_once env e hp] at hf
    simp only [Option.bind_eq_bind, Option.bind_eq_some_iff, Prod.exists] at hf
    obtain ⟨q, e1, hw, hf⟩ := hf
    have h1 := Encoder.write_part env hb h hw
    cases q with
    | error k => cases hf; exact ⟨h1, .inr rfl⟩
    | ok n => cases hf; exact ⟨h1, .inl rfl⟩

theorem dropBuffered_le (env : Env σ) (e : Encoder σ) (p : List UInt8) (hb : PartSame env p) (h : e.PartOk env) :
    Le (@dropBuffered checkedBuild _ env e p) (dropBuffered env e p) := by
  unfold dropBuffered
  exact (flushBuf_le env e p h).bind fun ⟨r, e', p'⟩ hf => Encoder.drop_le env e' (flushBuf_part env hb h hf).1

theorem copyLoop_le (env : Env σ) (hb : ∀ w : List UInt8, w.length ≤ MASTER_BLOCK_SIZE → PartSame env w) (R : Reader ρ) (r : ρ) (e : Encoder σ) (p : List UInt8)
    (h : e.PartOk env) (hp : p.length ≤ MASTER_BLOCK_SIZE) :
    ∀ x, @copyLoop checkedBuild _ _ env R r e p = some x → copyLoop env R r e p = some x ∧ x.2.1.PartOk env ∧ x.2.2.length ≤ MASTER_BLOCK_SIZE := by
  have := @copyLoop.partial_correctness checkedBuild σ ρ env R (motive := fun r e p x => e.PartOk env → p.length ≤ MASTER_BLOCK_SIZE →
    copyLoop env R r e p = some x ∧ x.2.1.PartOk env ∧ x.2.2.length ≤ MASTER_BLOCK_SIZE) (by
      intro f ih r e p x hx h hp
      rw [copyLoop]
      dsimp only at hx ⊢
      split at hx
      · rename_i hroom
        rw [if_pos hroom]
        cases hr : R.read r (MASTER_BLOCK_SIZE - p.length) with
        | mk q r' =>
          rw [hr] at hx
          rcases q with k | l
          · cases k with
            | interrupted => exact ih _ _ _ _ hx h hp
            | writeZero => cases hx; exact ⟨rfl, h, hp⟩
            | other n => cases hx; exact ⟨rfl, h, hp⟩
          · cases l with
            | nil => cases hx; exact ⟨rfl, h, hp⟩
            | cons b bs =>
              dsimp only at hx ⊢
              split at hx
              · rename_i hl
                rw [if_pos hl]
                exact ih _ _ _ _ hx h (by rw [List.length_append]; omega)
              · cases hx
      · rename_i hroom
        rw [if_neg hroom]
        cases hf : @flushBuf checkedBuild _ env e p with
        | none => rw [hf] at hx; cases hx
        | some y =>
          obtain ⟨q, e1, p1⟩ := y
          have hf' := flushBuf_le env e p h _ hf
          obtain ⟨h1, h2⟩ := flushBuf_part env (hb p hp) h hf'
          have h3 : p1.length ≤ MASTER_BLOCK_SIZE := by rcases h2 with rfl | rfl <;> simp_all
          rw [hf] at hx
          rw [hf']
          cases q with
          | error k => cases hx; exact ⟨rfl, h1, h3⟩
          | ok u => exact ih _ _ _ _ hx h1 h3)
  exact fun x hx => this r e p x hx h hp

theorem compress_le (F : FloatOps) (S : Sink σ) (R : Reader ρ) (o : Options) (fmt : Format)
    (hb : ∀ w : List UInt8, w.length ≤ MASTER_BLOCK_SIZE → PartSame ⟨F, S, o, .dynamic⟩ w) (r : ρ) (s : σ) :
    Le (@compress checkedBuild _ _ F S R o fmt r s) (compress F S R o fmt r s) := by
  unfold compress
  dsimp only
  refine (Le.refl _).bind fun ⟨q, s'⟩ hn => ?_
  cases q with
  | error k => exact Le.refl _
  | ok e =>
    have h := (Encoder.new_good _ (hb [] (Nat.zero_le _)) fmt hn).partOk
    have hc := copyLoop_le ⟨F, S, o, .dynamic⟩ hb R r e [] h (Nat.zero_le _)
    intro y hy
    cases hl : @copyLoop checkedBuild _ _ ⟨F, S, o, .dynamic⟩ R r e [] with
    | none => dsimp only at hy; rw [hl] at hy; cases hy
    | some x =>
      obtain ⟨h1, h2, h3⟩ := hc x hl
      obtain ⟨q, e1, p⟩ := x
      dsimp only at hy h1 h2 h3 ⊢
      rw [hl, some_bind] at hy
      rw [h1, some_bind]
      cases q with
      | error k => exact (dropBuffered_le _ e1 p (hb p h3) h2).bind (fun _ _ => Le.refl _) y hy
      | ok u =>
        refine (flushBuf_le _ e1 p h2).bind (fun ⟨q, e2, p2⟩ hf => ?_) y hy
        obtain ⟨g1, g2⟩ := flushBuf_part _ (hb p h3) h2 hf
        have g3 : p2.length ≤ MASTER_BLOCK_SIZE := by rcases g2 with rfl | rfl <;> simp_all
        cases q with
        | error k => exact (dropBuffered_le _ e2 p2 (hb p2 g3) g1).bind fun _ _ => Le.refl _
        | ok u => exact Encoder.finish_le _ e2 g1

theorem BufEncoder.write_le (env : Env σ) (hb : ∀ w : List UInt8, w.length ≤ MASTER_BLOCK_SIZE → PartSame env w) (b : BufEncoder σ) (data : List UInt8)
    (hd : PartSame env data) (h : b.inner.PartOk env) (hp : b.buf.length ≤ MASTER_BLOCK_SIZE) :
    Le (@BufEncoder.write checkedBuild _ env b data) (b.write env data) ∧
      ∀ r b', b.write env data = some (r, b') → b'.inner.PartOk env ∧ b'.buf.length ≤ MASTER_BLOCK_SIZE := by
  unfold BufEncoder.write
  dsimp only
  split
  · exact ⟨Le.refl _, fun r b' hw => by cases hw; exact ⟨h, by dsimp only; rw [List.length_append]; omega⟩⟩
  · have hle : Le (if data.length > MASTER_BLOCK_SIZE - b.buf.length then @flushBuf checkedBuild _ env b.inner b.buf else some (.ok (), b.inner, b.buf))
        (if data.length > MASTER_BLOCK_SIZE - b.buf.length then flushBuf env b.inner b.buf else some (.ok (), b.inner, b.buf)) := by
      split
      · exact flushBuf_le env _ _ h
      · exact Le.refl _
    have hpart : ∀ r e p, (if data.length > MASTER_BLOCK_SIZE - b.buf.length then flushBuf env b.inner b.buf else some (.ok (), b.inner, b.buf)) = some (r, e, p) →
        e.PartOk env ∧ p.length ≤ MASTER_BLOCK_SIZE ∧ (r = .ok () → data.length < MASTER_BLOCK_SIZE → (p ++ data).length ≤ MASTER_BLOCK_SIZE) := by
      intro r e p hx
      split at hx
      · obtain ⟨g1, g2⟩ := flushBuf_part env (hb _ hp) h hx
        have g3 : p.length ≤ MASTER_BLOCK_SIZE := by rcases g2 with rfl | rfl <;> simp_all
        refine ⟨g1, g3, fun hr hl => ?_⟩
        subst hr
        rw [flushBuf_ok_nil env hx]
        simpa using Nat.le_of_lt hl
      · rename_i hgt
        cases hx
        exact ⟨h, hp, fun _ _ => by rw [List.length_append]; omega⟩
    constructor
    · refine hle.bind fun ⟨r, e, p⟩ hx => ?_
      obtain ⟨g1, g2, g3⟩ := hpart r e p hx
      cases r with
      | error k => exact Le.refl _
      | ok u =>
        dsimp only
        split
        · exact (Encoder.write_le env e data g1).bind fun _ _ => Le.refl _
        · exact Le.refl _
    · intro r b' hw
      simp only [Option.bind_eq_bind, Option.bind_eq_some_iff, Prod.exists] at hw
      obtain ⟨q, e, p, hx, hw⟩ := hw
      obtain ⟨g1, g2, g3⟩ := hpart q e p hx
      cases q with
      | error k => cases hw; exact ⟨g1, g2⟩
      | ok u =>
        dsimp only at hw
        split at hw
        · simp only [Option.bind_eq_some_iff, Prod.exists] at hw
          obtain ⟨q, e1, hw1, hw⟩ := hw
          cases hw
          exact ⟨Encoder.write_part env hd g1 hw1, g2⟩
        · rename_i hlt
          cases hw
          exact ⟨g1, g3 rfl (by omega)⟩

theorem BufEncoder.flush_le (env : Env σ) (hb : ∀ w : List UInt8, w.length ≤ MASTER_BLOCK_SIZE → PartSame env w) (b : BufEncoder σ)
    (h : b.inner.PartOk env) (hp : b.buf.length ≤ MASTER_BLOCK_SIZE) :
    Le (@BufEncoder.flush checkedBuild _ env b) (b.flush env) ∧
      ∀ r b', b.flush env = some (r, b') → b'.inner.PartOk env ∧ b'.buf.length ≤ MASTER_BLOCK_SIZE := by
  have hpart : ∀ r e p, flushBuf env b.inner b.buf = some (r, e, p) → e.PartOk env ∧ p.length ≤ MASTER_BLOCK_SIZE := by
    intro r e p hx
    obtain ⟨g1, g2⟩ := flushBuf_part env (hb _ hp) h hx
    exact ⟨g1, by rcases g2 with rfl | rfl <;> simp_all⟩
  unfold BufEncoder.flush
  constructor
  · refine (flushBuf_le env _ _ h).bind fun ⟨r, e, p⟩ hx => ?_
    cases r <;> exact Le.refl _
  · intro r b' hw
    simp only [Option.bind_eq_bind, Option.bind_eq_some_iff, Prod.exists] at hw
    obtain ⟨q, e, p, hx, hw⟩ := hw
    obtain ⟨g1, g2⟩ := hpart q e p hx
    cases q with
    | error k => cases hw; exact ⟨g1, g2⟩
    | ok u =>
      simp only [Option.bind_eq_some_iff, Prod.exists] at hw
      obtain ⟨q, e1, hw1, hw⟩ := hw
      cases hw
      exact ⟨Encoder.flush_part env g1 hw1, g2⟩

theorem BufEncoder.run_le (env : Env σ) (hb : ∀ w : List UInt8, w.length ≤ MASTER_BLOCK_SIZE → PartSame env w) :
    ∀ (calls : List Call) (b : BufEncoder σ), (∀ w ∈ writesOf calls, PartSame env w) → b.inner.PartOk env → b.buf.length ≤ MASTER_BLOCK_SIZE →
    Le (@BufEncoder.run checkedBuild _ env calls b) (b.run env calls) ∧
      ∀ r b', b.run env calls = some (r, b') → b'.inner.PartOk env ∧ b'.buf.length ≤ MASTER_BLOCK_SIZE
  | [], b, _, h, hp => ⟨Le.refl _, fun r b' he => by cases he; exact ⟨h, hp⟩⟩
  | .write buf :: l, b, hl, h, hp => by
    obtain ⟨w1, w2⟩ := BufEncoder.write_le env hb b buf (hl buf (by simp [writesOf])) h hp
    have ih := fun b1 => BufEncoder.run_le env hb l b1 fun w hw => hl w (by simpa [writesOf] using .inr hw)
    constructor
    · simp only [BufEncoder.run]
      refine w1.bind fun ⟨r, b1⟩ hw => ?_
      obtain ⟨g1, g2⟩ := w2 _ _ hw
      cases r with
      | error k => exact Le.refl _
      | ok n => exact (ih b1 g1 g2).1
    · intro r b' he
      simp only [BufEncoder.run, Option.bind_eq_bind, Option.bind_eq_some_iff, Prod.exists] at he
      obtain ⟨q, b1, hw, he⟩ := he
      obtain ⟨g1, g2⟩ := w2 _ _ hw
      cases q with
      | error k => cases he; exact ⟨g1, g2⟩
      | ok n => exact (ih b1 g1 g2).2 _ _ he
  | .flush :: l, b, hl, h, hp => by
    obtain ⟨w1, w2⟩ := BufEncoder.flush_le env hb b h hp
    have ih := fun b1 => BufEncoder.run_le env hb l b1 fun w hw => hl w (by simpa [writesOf] using hw)
    constructor
    · simp only [BufEncoder.run]
      refine w1.bind fun ⟨r, b1⟩ hw => ?_
      obtain ⟨g1, g2⟩ := w2 _ _ hw
      cases r with
      | error k => exact Le.refl _
      | ok n => exact (ih b1 g1 g2).1
    · intro r b' he
      simp only [BufEncoder.run, Option.bind_eq_bind, Option.bind_eq_some_iff, Prod.exists] at he
      obtain ⟨q, b1, hw, he⟩ := he
      obtain ⟨g1, g2⟩ := w2 _ _ hw
      cases q with
      | error k => cases he; exact ⟨g1, g2⟩
      | ok n => exact (ih b1 g1 g2).2 _ _ he

theorem BufEncoder.intoInner_le (env : Env σ) (hb : ∀ w : List UInt8, w.length ≤ MASTER_BLOCK_SIZE → PartSame env w) (b : BufEncoder σ)
    (h : b.inner.PartOk env) (hp : b.buf.length ≤ MASTER_BLOCK_SIZE) : Le (@BufEncoder.intoInnerFinish checkedBuild _ env b) (b.intoInnerFinish env) := by
  unfold BufEncoder.intoInnerFinish
  refine (flushBuf_le env _ _ h).bind fun ⟨r, e, p⟩ hx => ?_
  obtain ⟨g1, g2⟩ := flushBuf_part env (hb _ hp) h hx
  have g3 : p.length ≤ MASTER_BLOCK_SIZE := by rcases g2 with rfl | rfl <;> simp_all
  cases r with
  | error k => exact (dropBuffered_le env e p (hb p g3) g1).bind fun _ _ => Le.refl _
  | ok u => exact Encoder.finish_le env e g1

theorem BufEncoder.new_good (env : Env σ) (h0 : PartSame env []) (fmt : Format) {s s' : σ} {b : BufEncoder σ} (h : BufEncoder.new env fmt s = some (.ok b, s')) :
    b.inner.Good env ∧ b.buf = [] := by
  simp only [BufEncoder.new, Option.bind_eq_bind, Option.bind_eq_some_iff, Prod.exists] at h
  obtain ⟨r, s1, hn, h⟩ := h
  cases r with
  | error k => cases h
  | ok e => cases h; exact ⟨Encoder.new_good env h0 fmt hn, rfl⟩

theorem bufferedSession_le (env : Env σ) (hb : ∀ w : List UInt8, w.length ≤ MASTER_BLOCK_SIZE → PartSame env w) (fmt : Format) (calls : List Call)
    (hp : ∀ w ∈ writesOf calls, PartSame env w) (ending : Ending) (s : σ) :
    Le (@bufferedSession checkedBuild _ env fmt calls ending s) (bufferedSession env fmt calls ending s) := by
  unfold bufferedSession
  refine (Le.refl _).bind fun ⟨r, s'⟩ hn => ?_
  cases r with
  | error k => exact Le.refl _
  | ok b =>
    obtain ⟨n1, n2⟩ := BufEncoder.new_good env (hb [] (Nat.zero_le _)) fmt hn
    obtain ⟨h1, h2⟩ := BufEncoder.run_le env hb calls b hp n1.partOk (by rw [n2]; exact Nat.zero_le _)
    refine h1.bind fun ⟨r, b1⟩ hr => ?_
    obtain ⟨g1, g2⟩ := h2 _ _ hr
    cases r with
    | error k => exact (dropBuffered_le env _ _ (hb _ g2) g1).bind fun _ _ => Le.refl _
    | ok u =>
      cases ending with
      | finish => exact BufEncoder.intoInner_le env hb b1 g1 g2
      | drop => exact (dropBuffered_le env _ _ (hb _ g2) g1).bind fun _ _ => Le.refl _

end Zopfli
