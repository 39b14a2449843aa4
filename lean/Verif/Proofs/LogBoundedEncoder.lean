import Verif.Proofs.LogBounded
import Verif.Model.Main
/-! # Encoders that agree on parts of limited size agree on writes of limited size (release build) -/

namespace Zopfli.LogBounded
open Words

attribute [local instance] releaseBuild

variable {σ ρ : Type} {N : Nat}

/-- The two environments have the same sink and make the same blocks of the same part, as long as it has at most `N` bytes
and a window before it. -/
structure SamePartsUpTo (N : Nat) (env env' : Env σ) : Prop where
  sink : env'.S = env.S
  part : ∀ f (d : Array UInt8) a, a ≤ d.size → a ≤ 32768 → d.size ≤ a + N →
    deflatePart env'.F env'.options env'.btype f d a d.size = deflatePart env.F env.options env.btype f d a d.size

/-! ## What the encoders hold -/

theorem flushBuf_holds {env : Env σ} {e : Encoder σ} {buf : List UInt8} {r : Except ErrKind Unit × Encoder σ × List UInt8}
    (h : flushBuf env e buf = some r) (hg : HoldsE N e) (hb : buf.length ≤ N) : HoldsE N r.2.1 ∧ r.2.2.length ≤ buf.length := by
  have := flushBuf.partial_correctness (env := env) (motive := fun e buf r => HoldsE N e → buf.length ≤ N →
      HoldsE N r.2.1 ∧ r.2.2.length ≤ buf.length) (by
    intro f ih e buf r hr hg hb
    split at hr
    · cases hr; exact ⟨hg, by simp⟩
    · cases hx : e.write env buf with
      | none => rw [hx] at hr; cases hr
      | some p =>
        obtain ⟨q, e1⟩ := p
        have g1 := write_holds hx hb hg
        rw [hx, some_bind] at hr
        dsimp only at hr
        rcases q with k | n
        · cases k with
          | interrupted => exact ih _ _ _ hr g1 hb
          | writeZero => cases hr; exact ⟨g1, Nat.le_refl _⟩
          | other n => cases hr; exact ⟨g1, Nat.le_refl _⟩
        · cases n with
          | zero => cases hr; exact ⟨g1, Nat.le_refl _⟩
          | succ n =>
            have hd : (buf.drop (n + 1)).length ≤ buf.length := by rw [List.length_drop]; exact Nat.sub_le _ _
            obtain ⟨a2, a3⟩ := ih _ _ _ hr g1 (Nat.le_trans hd hb)
            exact ⟨a2, Nat.le_trans a3 hd⟩)
  exact this e buf r h hg hb

theorem copyLoop_holds (hN : MASTER_BLOCK_SIZE ≤ N) {env : Env σ} (R : Reader ρ) {r0 : ρ} {e : Encoder σ} {buf : List UInt8}
    {r : Except ErrKind Unit × Encoder σ × List UInt8} (h : copyLoop env R r0 e buf = some r) (hg : HoldsE N e)
    (hb : buf.length ≤ MASTER_BLOCK_SIZE) : HoldsE N r.2.1 ∧ r.2.2.length ≤ MASTER_BLOCK_SIZE := by
  have := copyLoop.partial_correctness (env := env) (R := R) (motive := fun r0 e buf r => HoldsE N e → buf.length ≤ MASTER_BLOCK_SIZE →
      HoldsE N r.2.1 ∧ r.2.2.length ≤ MASTER_BLOCK_SIZE) (by
    intro f ih r0 e buf r hr hg hb
    dsimp only at hr
    split at hr
    · rcases hq : R.read r0 (MASTER_BLOCK_SIZE - buf.length) with ⟨q, r1⟩
      rw [hq] at hr
      rcases q with k | l
      · cases k with
        | interrupted => exact ih _ _ _ _ hr hg hb
        | writeZero => cases hr; exact ⟨hg, hb⟩
        | other n => cases hr; exact ⟨hg, hb⟩
      · cases l with
        | nil => cases hr; exact ⟨hg, hb⟩
        | cons b bs =>
          dsimp only at hr
          split at hr
          · rename_i hn
            exact ih _ _ _ _ hr hg (by rw [List.length_append]; exact room_lt hb hn)
          · cases hr
    · cases hx : flushBuf env e buf with
      | none => rw [hx] at hr; cases hr
      | some p =>
        obtain ⟨q, e1, buf1⟩ := p
        obtain ⟨g1, g2⟩ := flushBuf_holds hx hg (Nat.le_trans hb hN)
        dsimp only at g1 g2
        rw [hx] at hr
        cases q with
        | error k => cases hr; exact ⟨g1, Nat.le_trans g2 hb⟩
        | ok u => exact ih _ _ _ _ hr g1 (Nat.le_trans g2 hb))
  exact this r0 e buf r h hg hb

section
variable {env env' : Env σ} (h : SamePartsUpTo N env env')
include h

theorem SamePartsUpTo.symm : SamePartsUpTo N env' env := ⟨h.sink.symm, fun f d a h1 h2 h3 => (h.part f d a h1 h2 h3).symm⟩

theorem SamePartsUpTo.chunk {e : DeflateEncoder σ} (hg : Words.Holds N e) (l : Bool) : e.compressChunk env' l = e.compressChunk env l := by
  obtain ⟨h1, h2, h3⟩ := hg
  unfold DeflateEncoder.compressChunk
  rw [h.part l _ _ h1 h2 h3, h.sink]

theorem SamePartsUpTo.finishInner {e : DeflateEncoder σ} (hg : Words.Holds N e) : e.finishInner env' = e.finishInner env := by
  unfold DeflateEncoder.finishInner
  simp only [h.chunk hg, h.sink]

theorem SamePartsUpTo.dropWith {e : DeflateEncoder σ} (hg : Words.Holds N e) (s : σ) : e.dropWith env' s = e.dropWith env s := by
  unfold DeflateEncoder.dropWith
  rw [h.finishInner hg]

theorem SamePartsUpTo.deflateFinish {e : DeflateEncoder σ} (hg : Words.Holds N e) : e.finish env' = e.finish env := by
  unfold DeflateEncoder.finish
  rw [h.finishInner hg]
  cases hx : e.finishInner env with
  | none => exact (rfl : none = none)
  | some p =>
    obtain ⟨r, e', so⟩ := p
    have hg' := finishInner_holds hx hg
    rw [some_bind, some_bind]
    simp only [h.dropWith hg']

theorem SamePartsUpTo.new (fmt : Format) (s : σ) : Encoder.new env' fmt s = Encoder.new env fmt s := by
  unfold Encoder.new GzipEncoder.new ZlibEncoder.new
  rw [h.sink]

theorem SamePartsUpTo.write {e : Encoder σ} (hg : HoldsE N e) (buf : List UInt8) : e.write env' buf = e.write env buf := by
  have hd : ∀ d : DeflateEncoder σ, Words.Holds N d → d.write env' buf = d.write env buf := by
    intro d hg
    unfold DeflateEncoder.write
    rw [h.chunk hg]
  cases e with
  | gzip g =>
    obtain ⟨d, crc, sz⟩ := g
    cases d with
    | none => exact (rfl : none = none)
    | some d => simp only [Encoder.write, GzipEncoder.write, some_bind, hd d (hg d rfl)]
  | zlib g =>
    obtain ⟨d, ad⟩ := g
    cases d with
    | none => exact (rfl : none = none)
    | some d => simp only [Encoder.write, ZlibEncoder.write, some_bind, hd d (hg d rfl)]
  | deflate e => simp only [Encoder.write, hd e hg]

theorem SamePartsUpTo.flush (e : Encoder σ) : e.flush env' = e.flush env := by
  cases e with
  | gzip e => simp only [Encoder.flush, GzipEncoder.flush, DeflateEncoder.flush, h.sink]
  | zlib e => simp only [Encoder.flush, ZlibEncoder.flush, DeflateEncoder.flush, h.sink]
  | deflate e => simp only [Encoder.flush, DeflateEncoder.flush, h.sink]

theorem SamePartsUpTo.finish {e : Encoder σ} (hg : HoldsE N e) : e.finish env' = e.finish env := by
  cases e with
  | gzip g =>
    obtain ⟨d, crc, sz⟩ := g
    cases d with
    | none => exact (rfl : none = none)
    | some d => simp only [Encoder.finish, GzipEncoder.finish, GzipEncoder.finishInner, some_bind, h.deflateFinish (hg d rfl), h.sink]
  | zlib g =>
    obtain ⟨d, ad⟩ := g
    cases d with
    | none => exact (rfl : none = none)
    | some d => simp only [Encoder.finish, ZlibEncoder.finish, ZlibEncoder.finishInner, some_bind, h.deflateFinish (hg d rfl), h.sink]
  | deflate e => simp only [Encoder.finish, h.deflateFinish hg]

theorem SamePartsUpTo.drop {e : Encoder σ} (hg : HoldsE N e) : e.drop env' = e.drop env := by
  cases e with
  | gzip g =>
    obtain ⟨d, crc, sz⟩ := g
    cases d with
    | none => exact (rfl : none = none)
    | some d => simp only [Encoder.drop, GzipEncoder.drop, GzipEncoder.finishInner, some_bind, h.deflateFinish (hg d rfl), h.sink]
  | zlib g =>
    obtain ⟨d, ad⟩ := g
    cases d with
    | none => exact (rfl : none = none)
    | some d => simp only [Encoder.drop, ZlibEncoder.drop, ZlibEncoder.finishInner, some_bind, h.deflateFinish (hg d rfl), h.sink]
  | deflate e => simp only [Encoder.drop, DeflateEncoder.drop, h.dropWith hg]

theorem SamePartsUpTo.run : ∀ (calls : List Call) (e : Encoder σ), HoldsE N e → (∀ b ∈ writesOf calls, b.length ≤ N) →
    e.run env' calls = e.run env calls ∧ ∀ r e', e.run env calls = some (r, e') → HoldsE N e'
  | [], e, hg, _ => ⟨rfl, fun r e' h => by cases h; exact hg⟩
  | .write buf :: l, e, hg, hb => by
    rw [Encoder.run, Encoder.run, h.write hg]
    cases hx : e.write env buf with
    | none => exact ⟨(rfl : none = none), fun r e' h => by cases h⟩
    | some p =>
      obtain ⟨r, e1⟩ := p
      have g1 := write_holds hx (hb buf (by simp [writesOf])) hg
      rw [some_bind, some_bind]
      cases r with
      | error k => exact ⟨(rfl : some (Except.error k, e1) = some (Except.error k, e1)), fun r e' h => by cases h; exact g1⟩
      | ok n =>
        dsimp only
        exact SamePartsUpTo.run l e1 g1 fun b h => hb b (by simp [writesOf, h])
  | .flush :: l, e, hg, hb => by
    rw [Encoder.run, Encoder.run, h.flush]
    cases hx : e.flush env with
    | none => exact ⟨(rfl : none = none), fun r e' h => by cases h⟩
    | some p =>
      obtain ⟨r, e1⟩ := p
      have g1 := flush_holds hx hg
      rw [some_bind, some_bind]
      cases r with
      | error k => exact ⟨(rfl : some (Except.error k, e1) = some (Except.error k, e1)), fun r e' h => by cases h; exact g1⟩
      | ok n =>
        dsimp only
        exact SamePartsUpTo.run l e1 g1 hb

theorem SamePartsUpTo.session (fmt : Format) (calls : List Call) (hb : ∀ b ∈ writesOf calls, b.length ≤ N) (ending : Ending) (s : σ) :
    session env' fmt calls ending s = session env fmt calls ending s := by
  unfold Zopfli.session
  rw [h.new]
  cases hn : Encoder.new env fmt s with
  | none => exact (rfl : none = none)
  | some p =>
    obtain ⟨r, s'⟩ := p
    rw [some_bind, some_bind]
    cases r with
    | error k => rfl
    | ok e =>
      obtain ⟨-, h2⟩ := new_wrap 0 N hn
      obtain ⟨g1, g2⟩ := h.run calls e h2 hb
      dsimp only
      rw [g1]
      cases hx : e.run env calls with
      | none => exact (rfl : none = none)
      | some p =>
        obtain ⟨r, e1⟩ := p
        have hg := g2 r e1 hx
        simp only [some_bind, h.drop hg, h.finish hg]

/-! ## Buffered encoders -/

theorem SamePartsUpTo.flushBuf_le (e : Encoder σ) (buf : List UInt8) (r) :
    Zopfli.flushBuf env' e buf = some r → HoldsE N e → buf.length ≤ N → Zopfli.flushBuf env e buf = some r := by
  revert e buf r
  refine flushBuf.partial_correctness (env := env') (motive := fun e buf r => HoldsE N e → buf.length ≤ N → Zopfli.flushBuf env e buf = some r) ?_
  intro f ih e buf r hr hg hb
  rw [flushBuf.eq_1]
  rw [h.write hg] at hr
  split at hr
  · rename_i h0; rw [if_pos h0]; exact hr
  · rename_i h0
    rw [if_neg h0]
    cases hw : e.write env buf with
    | none => rw [hw] at hr; cases hr
    | some p =>
      obtain ⟨q, e'⟩ := p
      have g1 := write_holds hw hb hg
      rw [hw, some_bind] at hr
      rw [some_bind]
      dsimp only at hr ⊢
      split at hr
      · exact hr
      · exact ih _ _ _ hr g1 (by rw [List.length_drop]; omega)
      · exact ih _ _ _ hr g1 hb
      · exact hr

theorem SamePartsUpTo.flushBuf {e : Encoder σ} (hg : HoldsE N e) {buf : List UInt8} (hb : buf.length ≤ N) :
    flushBuf env' e buf = flushBuf env e buf :=
  some_eq_of_le (fun r hr => h.flushBuf_le e buf r hr hg hb) (fun r hr => h.symm.flushBuf_le e buf r hr hg hb)

theorem SamePartsUpTo.copyLoop_le (hN : MASTER_BLOCK_SIZE ≤ N) (R : Reader ρ) (r : ρ) (e : Encoder σ) (buf : List UInt8) (x) :
    copyLoop env' R r e buf = some x → HoldsE N e → buf.length ≤ MASTER_BLOCK_SIZE → copyLoop env R r e buf = some x := by
  revert r e buf x
  refine copyLoop.partial_correctness (env := env') (R := R) (motive := fun r e buf x => HoldsE N e → buf.length ≤ MASTER_BLOCK_SIZE →
    copyLoop env R r e buf = some x) ?_
  intro f ih r e buf x hr hg hb
  rw [copyLoop.eq_1]
  rw [h.flushBuf hg (Nat.le_trans hb hN)] at hr
  dsimp only at hr ⊢
  split at hr
  · rename_i h0
    rw [if_pos h0]
    split at hr
    · exact hr
    · split at hr
      · rename_i h2; rw [if_pos h2]; exact ih _ _ _ _ hr hg (by rw [List.length_append]; exact room_lt hb h2)
      · cases hr
    · exact ih _ _ _ _ hr hg hb
    · exact hr
  · rename_i h0
    rw [if_neg h0]
    cases hx : Zopfli.flushBuf env e buf with
    | none => rw [hx] at hr; cases hr
    | some p =>
      obtain ⟨q, e1, buf1⟩ := p
      obtain ⟨g1, g2⟩ := flushBuf_holds hx hg (Nat.le_trans hb hN)
      rw [hx] at hr
      cases q with
      | error k => exact hr
      | ok u => exact ih _ _ _ _ hr g1 (Nat.le_trans g2 hb)

theorem SamePartsUpTo.copyLoop (hN : MASTER_BLOCK_SIZE ≤ N) (R : Reader ρ) (r : ρ) {e : Encoder σ} (hg : HoldsE N e) {buf : List UInt8}
    (hb : buf.length ≤ MASTER_BLOCK_SIZE) : copyLoop env' R r e buf = copyLoop env R r e buf :=
  some_eq_of_le (fun x hx => h.copyLoop_le hN R r e buf x hx hg hb) (fun x hx => h.symm.copyLoop_le hN R r e buf x hx hg hb)

theorem SamePartsUpTo.dropBuffered {e : Encoder σ} (hg : HoldsE N e) {buf : List UInt8} (hb : buf.length ≤ N) :
    dropBuffered env' e buf = dropBuffered env e buf := by
  unfold Zopfli.dropBuffered
  rw [h.flushBuf hg hb]
  cases hx : Zopfli.flushBuf env e buf with
  | none => exact (rfl : none = none)
  | some r => exact h.drop (flushBuf_holds hx hg hb).1

theorem SamePartsUpTo.bufFinish {b : BufEncoder σ} (hg : HoldsE N b.inner) (hb : b.buf.length ≤ N) :
    b.intoInnerFinish env' = b.intoInnerFinish env := by
  unfold BufEncoder.intoInnerFinish
  rw [h.flushBuf hg hb]
  cases hx : Zopfli.flushBuf env b.inner b.buf with
  | none => exact (rfl : none = none)
  | some p =>
    obtain ⟨q, e1, buf1⟩ := p
    obtain ⟨g1, g2⟩ := flushBuf_holds hx hg hb
    rw [some_bind, some_bind]
    cases q with
    | error k =>
      dsimp only
      unfold BufEncoder.drop
      rw [h.dropBuffered g1 (Nat.le_trans g2 hb)]
    | ok u => exact h.finish g1

omit h in
/-- What a buffered write leaves behind. -/
theorem bufWrite_holds (hN : MASTER_BLOCK_SIZE ≤ N) {b : BufEncoder σ} (hg : HoldsE N b.inner) (hb : b.buf.length ≤ MASTER_BLOCK_SIZE)
    {data : List UInt8} (hd : data.length ≤ N) {r b'} (hw : b.write env data = some (r, b')) :
    HoldsE N b'.inner ∧ b'.buf.length ≤ MASTER_BLOCK_SIZE := by
  obtain ⟨e, buf⟩ := b
  dsimp only at hg hb
  unfold BufEncoder.write at hw
  dsimp only at hw
  split at hw
  · rename_i h0
    cases hw
    exact ⟨hg, by dsimp only; rw [List.length_append]; omega⟩
  · rename_i h0
    cases hx : (if data.length > MASTER_BLOCK_SIZE - buf.length then Zopfli.flushBuf env e buf else some (.ok (), e, buf)) with
    | none => rw [hx] at hw; cases hw
    | some p =>
      obtain ⟨q, e1, buf1⟩ := p
      rw [hx, some_bind] at hw
      have hg1 : HoldsE N e1 ∧ buf1.length ≤ buf.length ∧ (q = .ok () → data.length ≤ MASTER_BLOCK_SIZE - buf1.length ∨ data.length ≥ MASTER_BLOCK_SIZE) := by
        split at hx
        · obtain ⟨g1, g2⟩ := flushBuf_holds hx hg (Nat.le_trans hb hN)
          refine ⟨g1, g2, fun hq => ?_⟩
          subst hq
          have : buf1 = [] := flushBuf_ok_nil env hx
          subst this
          simp only [List.length_nil]
          omega
        · cases hx
          exact ⟨hg, Nat.le_refl _, fun _ => .inl (by omega)⟩
      obtain ⟨g1, g2, g3⟩ := hg1
      cases q with
      | error k => cases hw; exact ⟨g1, Nat.le_trans g2 hb⟩
      | ok u =>
        dsimp only at hw
        split at hw
        · cases hy : e1.write env data with
          | none => rw [hy] at hw; cases hw
          | some p =>
            rw [hy] at hw
            cases hw
            exact ⟨write_holds hy hd g1, Nat.le_trans g2 hb⟩
        · cases hw
          refine ⟨g1, ?_⟩
          dsimp only
          rw [List.length_append]
          rcases g3 rfl with g | g <;> omega

theorem SamePartsUpTo.bufWrite (hN : MASTER_BLOCK_SIZE ≤ N) {b : BufEncoder σ} (hg : HoldsE N b.inner) (hb : b.buf.length ≤ MASTER_BLOCK_SIZE)
    (data : List UInt8) : b.write env' data = b.write env data := by
  obtain ⟨e, buf⟩ := b
  dsimp only at hg hb
  have key : ∀ (e1 : Encoder σ) (buf1 : List UInt8), HoldsE N e1 →
      (if data.length ≥ MASTER_BLOCK_SIZE then e1.write env' data >>= fun x => (some (x.1, ⟨x.2, buf1⟩) : Option (Except ErrKind Nat × BufEncoder σ))
        else some (.ok data.length, ⟨e1, buf1 ++ data⟩)) =
      (if data.length ≥ MASTER_BLOCK_SIZE then e1.write env data >>= fun x => (some (x.1, ⟨x.2, buf1⟩) : Option (Except ErrKind Nat × BufEncoder σ))
        else some (.ok data.length, ⟨e1, buf1 ++ data⟩)) := by
    intro e1 buf1 hg1
    rw [h.write hg1]
  unfold BufEncoder.write
  dsimp only
  rw [h.flushBuf hg (Nat.le_trans hb hN)]
  by_cases h1 : data.length < MASTER_BLOCK_SIZE - buf.length
  · rw [if_pos h1, if_pos h1]
  · rw [if_neg h1, if_neg h1]
    by_cases h2 : data.length > MASTER_BLOCK_SIZE - buf.length
    · rw [if_pos h2]
      cases hx : Zopfli.flushBuf env e buf with
      | none => exact (rfl : none = none)
      | some p =>
        obtain ⟨q, e1, buf1⟩ := p
        rw [some_bind, some_bind]
        cases q with
        | error k => rfl
        | ok u => exact key e1 buf1 (flushBuf_holds hx hg (Nat.le_trans hb hN)).1
    · rw [if_neg h2, some_bind, some_bind]
      exact key e buf hg

omit h in
theorem bufFlush_holds (hN : MASTER_BLOCK_SIZE ≤ N) {b : BufEncoder σ} (hg : HoldsE N b.inner) (hb : b.buf.length ≤ MASTER_BLOCK_SIZE)
    {r b'} (hw : b.flush env = some (r, b')) : HoldsE N b'.inner ∧ b'.buf.length ≤ MASTER_BLOCK_SIZE := by
  unfold BufEncoder.flush at hw
  cases hx : Zopfli.flushBuf env b.inner b.buf with
  | none => rw [hx] at hw; cases hw
  | some p =>
    obtain ⟨q, e1, buf1⟩ := p
    obtain ⟨g1, g2⟩ := flushBuf_holds hx hg (Nat.le_trans hb hN)
    rw [hx, some_bind] at hw
    cases q with
    | error k => cases hw; exact ⟨g1, Nat.le_trans g2 hb⟩
    | ok u =>
      dsimp only at hw
      cases hy : e1.flush env with
      | none => rw [hy] at hw; cases hw
      | some p => rw [hy] at hw; cases hw; exact ⟨flush_holds hy g1, Nat.le_trans g2 hb⟩

theorem SamePartsUpTo.bufFlush (hN : MASTER_BLOCK_SIZE ≤ N) {b : BufEncoder σ} (hg : HoldsE N b.inner) (hb : b.buf.length ≤ MASTER_BLOCK_SIZE) :
    b.flush env' = b.flush env := by
  unfold BufEncoder.flush
  simp only [h.flushBuf hg (Nat.le_trans hb hN), h.flush]

theorem SamePartsUpTo.bufRun (hN : MASTER_BLOCK_SIZE ≤ N) : ∀ (calls : List Call) (b : BufEncoder σ), HoldsE N b.inner →
    b.buf.length ≤ MASTER_BLOCK_SIZE → (∀ d ∈ writesOf calls, d.length ≤ N) →
    b.run env' calls = b.run env calls ∧ ∀ r b', b.run env calls = some (r, b') → HoldsE N b'.inner ∧ b'.buf.length ≤ MASTER_BLOCK_SIZE
  | [], b, hg, hb, _ => ⟨rfl, fun r b' h => by cases h; exact ⟨hg, hb⟩⟩
  | .write data :: l, b, hg, hb, hd => by
    rw [BufEncoder.run, BufEncoder.run, h.bufWrite hN hg hb]
    cases hx : b.write env data with
    | none => exact ⟨(rfl : none = none), fun r b' h => by cases h⟩
    | some p =>
      obtain ⟨r, b1⟩ := p
      obtain ⟨g1, g2⟩ := bufWrite_holds hN hg hb (hd data (by simp [writesOf])) hx
      rw [some_bind, some_bind]
      cases r with
      | error k => exact ⟨(rfl : some (Except.error k, b1) = some (Except.error k, b1)), fun r b' h => by cases h; exact ⟨g1, g2⟩⟩
      | ok n =>
        dsimp only
        exact SamePartsUpTo.bufRun hN l b1 g1 g2 fun d h => hd d (by simp [writesOf, h])
  | .flush :: l, b, hg, hb, hd => by
    rw [BufEncoder.run, BufEncoder.run, h.bufFlush hN hg hb]
    cases hx : b.flush env with
    | none => exact ⟨(rfl : none = none), fun r b' h => by cases h⟩
    | some p =>
      obtain ⟨r, b1⟩ := p
      obtain ⟨g1, g2⟩ := bufFlush_holds hN hg hb hx
      rw [some_bind, some_bind]
      cases r with
      | error k => exact ⟨(rfl : some (Except.error k, b1) = some (Except.error k, b1)), fun r b' h => by cases h; exact ⟨g1, g2⟩⟩
      | ok n =>
        dsimp only
        exact SamePartsUpTo.bufRun hN l b1 g1 g2 hd

theorem SamePartsUpTo.bufferedSession (hN : MASTER_BLOCK_SIZE ≤ N) (fmt : Format) (calls : List Call) (hd : ∀ d ∈ writesOf calls, d.length ≤ N)
    (ending : Ending) (s : σ) : bufferedSession env' fmt calls ending s = bufferedSession env fmt calls ending s := by
  have hnew : BufEncoder.new env' fmt s = BufEncoder.new env fmt s := by
    unfold BufEncoder.new
    rw [h.new]
  unfold Zopfli.bufferedSession
  rw [hnew]
  cases hn : BufEncoder.new env fmt s with
  | none => exact (rfl : none = none)
  | some p =>
    obtain ⟨r, s'⟩ := p
    rw [some_bind, some_bind]
    cases r with
    | error k => exact (rfl : some (Except.error k, s') = some (Except.error k, s'))
    | ok b =>
      obtain ⟨h2, h3⟩ : HoldsE N b.inner ∧ b.buf = [] := by
        unfold BufEncoder.new at hn
        cases hx : Encoder.new env fmt s with
        | none => rw [hx] at hn; cases hn
        | some p =>
          obtain ⟨r, t⟩ := p
          rw [hx, some_bind] at hn
          cases r with
          | error k => cases hn
          | ok e => cases hn; exact ⟨(new_wrap 0 N hx).2, rfl⟩
      obtain ⟨g1, g2⟩ := h.bufRun hN calls b h2 (by rw [h3]; exact Nat.zero_le _) hd
      dsimp only
      rw [g1]
      cases hx : BufEncoder.run env calls b with
      | none => exact (rfl : none = none)
      | some p =>
        obtain ⟨r, b1⟩ := p
        obtain ⟨hg, hb⟩ := g2 r b1 hx
        simp only [some_bind, h.bufFinish hg (Nat.le_trans hb hN), BufEncoder.drop, h.dropBuffered hg (Nat.le_trans hb hN)]

end

theorem SamePartsUpTo.compress {F F' : FloatOps} {S : Sink σ} {o : Options} (h : SamePartsUpTo N ⟨F, S, o, .dynamic⟩ ⟨F', S, o, .dynamic⟩)
    (hN : MASTER_BLOCK_SIZE ≤ N) (R : Reader ρ) (fmt : Format) (r : ρ) (s : σ) : compress F' S R o fmt r s = compress F S R o fmt r s := by
  unfold Zopfli.compress
  dsimp only
  rw [h.new]
  cases hn : Encoder.new ⟨F, S, o, .dynamic⟩ fmt s with
  | none => exact (rfl : none = none)
  | some p =>
    obtain ⟨q, s'⟩ := p
    rw [some_bind, some_bind]
    cases q with
    | error k => rfl
    | ok e =>
      obtain ⟨-, h2⟩ := new_wrap 0 N hn
      dsimp only
      rw [h.copyLoop hN R r h2 (buf := []) (Nat.zero_le _)]
      cases hx : Zopfli.copyLoop ⟨F, S, o, .dynamic⟩ R r e [] with
      | none => exact (rfl : none = none)
      | some p =>
        obtain ⟨q, e1, buf1⟩ := p
        obtain ⟨g1, g2⟩ := copyLoop_holds hN R hx h2 (buf := []) (Nat.zero_le _)
        rw [some_bind, some_bind]
        cases q with
        | error k =>
          dsimp only
          rw [h.dropBuffered g1 (Nat.le_trans g2 hN)]
        | ok u => exact h.bufFinish (b := ⟨e1, buf1⟩) g1 (Nat.le_trans g2 hN)

end Zopfli.LogBounded
