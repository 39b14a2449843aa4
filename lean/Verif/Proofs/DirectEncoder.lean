import Verif.Proofs.Direct
import Verif.Proofs.WordsEncoder
import Verif.Model.DirectEncoder
/-! # The encoders that write while they compute do what the encoders do that compute first -/

namespace Zopfli
namespace Direct
open Words (flush_holds new_wrap room_lt)

variable {σ ρ : Type}

/-- The size of a write for which nothing can go wrong. -/
structure Enough [Checks] {F : FloatOps} (N : Nat) (L : FloatLaws F) : Prop where
  lim : 32768 + N < 2 * L.lim
  checks : Checks.on = true → N < 2 ^ 28 - 1

variable {N : Nat} {env : Env σ} {L : FloatLaws env.F}

theorem compressChunk_eq [c : Checks] (hR : Enough N L) {e : DeflateEncoder σ} (hg : Words.Holds N e) (last : Bool) :
    compressChunk env e last = e.compressChunk env last := by
  obtain ⟨hc, cs, wac, w⟩ := e
  obtain ⟨h1, h2, h3⟩ := hg
  dsimp only at h1 h2 h3
  unfold compressChunk DeflateEncoder.compressChunk
  cases w with
  | none => rfl
  | some w =>
    obtain ⟨ops, e1, e2⟩ := deflatePart_direct (S := env.S) c L env.options env.btype last h1 (Nat.le_refl _) (by have := hR.lim; omega)
      (fun hc => by have := hR.checks hc; omega)
    dsimp only
    rw [some_bind, some_bind, e1, some_bind, e2 w]
    cases w.execAll env.S ops with
    | none => rfl
    | some p => rcases p with ⟨k | u, w⟩ <;> rfl

theorem compressChunk_holds [Checks] {e e' : DeflateEncoder σ} {last : Bool} {r : Except ErrKind Unit} (h : e.compressChunk env last = some (r, e'))
    (hg : Words.Holds N e) : Words.Holds N e' := by
  obtain ⟨hc, cs, wac, w⟩ := e
  unfold DeflateEncoder.compressChunk at h
  cases w with
  | none => cases h
  | some w =>
    rw [some_bind] at h
    dsimp only at h
    cases hd : Zopfli.deflatePart env.F env.options env.btype last wac cs wac.size with
    | none => rw [hd] at h; cases h
    | some ops =>
      rw [hd, some_bind] at h
      cases hx : w.execAll env.S ops with
      | none => rw [hx] at h; cases h
      | some p =>
        rw [hx] at h
        cases h
        exact ⟨hg.le, hg.window, hg.chunk⟩


theorem finishInner_holds [Checks] {e e' : DeflateEncoder σ} {r : Except ErrKind (Option σ)} {s : Option σ} (h : e.finishInner env = some (r, e', s))
    (hg : Words.Holds N e) : Words.Holds N e' := by
  unfold DeflateEncoder.finishInner at h
  split at h
  · cases h
    exact hg
  · cases hx : e.compressChunk env true with
    | none => rw [hx] at h; cases h
    | some p =>
      obtain ⟨r1, e1⟩ := p
      have g1 := compressChunk_holds hx hg
      rw [hx, some_bind] at h
      dsimp only at h
      cases r1 with
      | error k => cases h; exact g1
      | ok u =>
        dsimp only at h
        cases hw : e1.bitwiseWriter with
        | none => rw [hw] at h; cases h
        | some w =>
          rw [hw, some_bind] at h
          cases hp : w.finishPartialBits env.S with
          | none => rw [hp] at h; cases h
          | some p =>
            obtain ⟨r2, w2⟩ := p
            rw [hp, some_bind] at h
            cases r2 <;> (cases h; exact ⟨g1.le, g1.window, g1.chunk⟩)


theorem deflateWrite_holds [Checks] {e e' : DeflateEncoder σ} {buf : List UInt8} {r : Except ErrKind Nat} (h : e.write env buf = some (r, e'))
    (hb : buf.length ≤ N) (hg : Words.Holds N e) : Words.Holds N e' := by
  unfold DeflateEncoder.write at h
  by_cases hc : e.haveChunk = true
  · rw [if_pos hc] at h
    cases hx : e.compressChunk env false with
    | none => rw [hx] at h; cases h
    | some p =>
      obtain ⟨r, e1⟩ := p
      rw [hx, some_bind] at h
      cases r with
      | error k => cases h; exact compressChunk_holds hx hg
      | ok u => cases h; exact Words.Holds.setChunk e1 hb
  · rw [if_neg hc, some_bind] at h
    cases h
    exact Words.Holds.setChunk e hb


theorem write_holds [Checks] {e e' : Encoder σ} {buf : List UInt8} {r : Except ErrKind Nat} (h : e.write env buf = some (r, e'))
    (hb : buf.length ≤ N) (hg : Words.HoldsE N e) : Words.HoldsE N e' := by
  cases e with
  | deflate d =>
    unfold Encoder.write at h
    dsimp only at h
    cases hx : d.write env buf with
    | none => rw [hx] at h; cases h
    | some p => rw [hx] at h; cases h; exact deflateWrite_holds hx hb hg
  | gzip g =>
    obtain ⟨d, crc, sz⟩ := g
    unfold Encoder.write GzipEncoder.write at h
    cases d with
    | none => cases h
    | some d =>
      dsimp only at h
      rw [some_bind] at h
      cases hx : d.write env buf with
      | none => rw [hx] at h; cases h
      | some p =>
        obtain ⟨r, d'⟩ := p
        have := deflateWrite_holds hx hb (hg d rfl)
        rw [hx, some_bind] at h
        cases r <;> (cases h; rintro d2 hd2; cases hd2; exact this)
  | zlib g =>
    obtain ⟨d, ad⟩ := g
    unfold Encoder.write ZlibEncoder.write at h
    cases d with
    | none => cases h
    | some d =>
      dsimp only at h
      rw [some_bind] at h
      cases hx : d.write env buf with
      | none => rw [hx] at h; cases h
      | some p =>
        obtain ⟨r, d'⟩ := p
        have := deflateWrite_holds hx hb (hg d rfl)
        rw [hx, some_bind] at h
        cases r <;> (cases h; rintro d2 hd2; cases hd2; exact this)



theorem deflateFinishInner_eq [Checks] (hR : Enough N L) {e : DeflateEncoder σ} (hg : Words.Holds N e) : deflateFinishInner env e = e.finishInner env := by
  have hc := compressChunk_eq hR hg true
  obtain ⟨hc, cs, wac, w⟩ := e
  unfold deflateFinishInner DeflateEncoder.finishInner
  cases w with
  | none => rfl
  | some w =>
    dsimp only
    rw [hc]
    rcases DeflateEncoder.compressChunk env _ true with _ | ⟨_ | _, e1⟩
    · rfl
    · rfl
    · rw [some_bind, some_bind]
      rcases he : e1.bitwiseWriter with _ | w1
      · simp only [he]
        rfl
      · simp only [he, some_bind]
        rcases w1.finishPartialBits env.S with _ | ⟨_ | _, _⟩ <;> rfl

theorem deflateDropWith_eq [Checks] (hR : Enough N L) {e : DeflateEncoder σ} (hg : Words.Holds N e) (s : σ) : deflateDropWith env e s = e.dropWith env s := by
  unfold deflateDropWith DeflateEncoder.dropWith
  rw [deflateFinishInner_eq hR hg]

theorem deflateDrop_eq [Checks] (hR : Enough N L) {e : DeflateEncoder σ} (hg : Words.Holds N e) : deflateDrop env e = e.drop env := by
  unfold deflateDrop DeflateEncoder.drop
  cases e.bitwiseWriter with
  | none => rfl
  | some w => exact deflateDropWith_eq hR hg w.out

theorem deflateFinish_eq [Checks] (hR : Enough N L) {e : DeflateEncoder σ} (hg : Words.Holds N e) : deflateFinish env e = e.finish env := by
  unfold deflateFinish DeflateEncoder.finish
  rw [deflateFinishInner_eq hR hg]
  cases hx : e.finishInner env with
  | none => rfl
  | some p =>
    obtain ⟨r, e', so⟩ := p
    have hg' := finishInner_holds hx hg
    rw [some_bind, some_bind]
    rcases r with k | (_ | s)
    · cases so with
      | none => rfl
      | some t =>
        dsimp only
        rw [some_bind, some_bind, deflateDropWith_eq hR hg']
    · rfl
    · cases so with
      | none => rfl
      | some t =>
        dsimp only
        rw [some_bind, some_bind, deflateDropWith_eq hR hg']

theorem deflateWrite_eq [Checks] (hR : Enough N L) {e : DeflateEncoder σ} (hg : Words.Holds N e) (buf : List UInt8) :
    deflateWrite env e buf = e.write env buf := by
  unfold deflateWrite DeflateEncoder.write
  rw [compressChunk_eq hR hg]
  rcases (if e.haveChunk = true then DeflateEncoder.compressChunk env e false else some (.ok (), e)) with _ | ⟨_ | _, _⟩ <;> rfl

/-! ## Every format -/

theorem write_eq [Checks] (hR : Enough N L) {e : Encoder σ} (hg : Words.HoldsE N e) (buf : List UInt8) : write env e buf = e.write env buf := by
  cases e with
  | deflate d =>
    unfold write Encoder.write
    dsimp only
    rw [deflateWrite_eq hR hg]
  | gzip g =>
    obtain ⟨d, crc, sz⟩ := g
    unfold write Encoder.write gzipWrite GzipEncoder.write
    cases d with
    | none => rfl
    | some d =>
      dsimp only
      rw [some_bind, some_bind, deflateWrite_eq hR (hg d rfl)]
      rcases d.write env buf with _ | ⟨_ | _, _⟩ <;> rfl
  | zlib g =>
    obtain ⟨d, ad⟩ := g
    unfold write Encoder.write zlibWrite ZlibEncoder.write
    cases d with
    | none => rfl
    | some d =>
      dsimp only
      rw [some_bind, some_bind, deflateWrite_eq hR (hg d rfl)]
      rcases d.write env buf with _ | ⟨_ | _, _⟩ <;> rfl

theorem finish_eq [Checks] (hR : Enough N L) {e : Encoder σ} (hg : Words.HoldsE N e) : finish env e = e.finish env := by
  cases e with
  | deflate d => exact deflateFinish_eq hR hg
  | gzip g =>
    obtain ⟨d, crc, sz⟩ := g
    cases d with
    | none => rfl
    | some d =>
      unfold finish Encoder.finish gzipFinish GzipEncoder.finish gzipFinishInner GzipEncoder.finishInner
      dsimp only
      rw [some_bind, some_bind, deflateFinish_eq hR (hg d rfl)]
      rcases d.finish env with _ | ⟨_ | _, t⟩
      · rfl
      · rfl
      · rw [some_bind, some_bind]
        dsimp only
        rcases env.S.writeAll t (toLeBytes (crcFinalize crc)) with _ | ⟨_ | _, _⟩ <;> rfl
  | zlib g =>
    obtain ⟨d, ad⟩ := g
    cases d with
    | none => rfl
    | some d =>
      unfold finish Encoder.finish zlibFinish ZlibEncoder.finish zlibFinishInner ZlibEncoder.finishInner
      dsimp only
      rw [some_bind, some_bind, deflateFinish_eq hR (hg d rfl)]
      rcases d.finish env with _ | ⟨_ | _, t⟩ <;> rfl

theorem drop_eq [Checks] (hR : Enough N L) {e : Encoder σ} (hg : Words.HoldsE N e) : drop env e = e.drop env := by
  cases e with
  | deflate d => exact deflateDrop_eq hR hg
  | gzip g =>
    obtain ⟨d, crc, sz⟩ := g
    cases d with
    | none => rfl
    | some d =>
      unfold drop Encoder.drop gzipDrop GzipEncoder.drop gzipFinishInner GzipEncoder.finishInner
      dsimp only
      rw [some_bind, some_bind, deflateFinish_eq hR (hg d rfl)]
      rcases d.finish env with _ | ⟨_ | _, t⟩
      · rfl
      · rfl
      · rw [some_bind, some_bind]
        dsimp only
        rcases env.S.writeAll t (toLeBytes (crcFinalize crc)) with _ | ⟨_ | _, _⟩ <;> rfl
  | zlib g =>
    obtain ⟨d, ad⟩ := g
    cases d with
    | none => rfl
    | some d =>
      unfold drop Encoder.drop zlibDrop ZlibEncoder.drop zlibFinishInner ZlibEncoder.finishInner
      dsimp only
      rw [some_bind, some_bind, deflateFinish_eq hR (hg d rfl)]
      rcases d.finish env with _ | ⟨_ | _, t⟩ <;> rfl

/-! ## Sessions -/

theorem run_eq [Checks] (hR : Enough N L) : ∀ (calls : List Call) (e : Encoder σ), Words.HoldsE N e → (∀ b ∈ writesOf calls, b.length ≤ N) →
    run env calls e = e.run env calls ∧ ∀ r e', e.run env calls = some (r, e') → Words.HoldsE N e'
  | [], e, hg, _ => ⟨rfl, fun r e' h => by cases h; exact hg⟩
  | .write buf :: l, e, hg, hb => by
    rw [run, Encoder.run, write_eq hR hg]
    cases hx : e.write env buf with
    | none => exact ⟨rfl, fun r e' h => by cases h⟩
    | some p =>
      obtain ⟨r, e1⟩ := p
      have g1 := write_holds hx (hb buf (by simp [writesOf])) hg
      rw [some_bind, some_bind]
      cases r with
      | error k => exact ⟨rfl, fun r e' h => by cases h; exact g1⟩
      | ok n => exact run_eq hR l e1 g1 fun b h => hb b (by simp [writesOf, h])
  | .flush :: l, e, hg, hb => by
    rw [run, Encoder.run]
    cases hx : e.flush env with
    | none => exact ⟨rfl, fun r e' h => by cases h⟩
    | some p =>
      obtain ⟨r, e1⟩ := p
      have g1 := flush_holds hx hg
      rw [some_bind, some_bind]
      cases r with
      | error k => exact ⟨rfl, fun r e' h => by cases h; exact g1⟩
      | ok n => exact run_eq hR l e1 g1 hb

theorem session_eq [Checks] (hR : Enough N L) (fmt : Format) (calls : List Call) (hb : ∀ b ∈ writesOf calls, b.length ≤ N) (ending : Ending) (s : σ) :
    session env fmt calls ending s = Zopfli.session env fmt calls ending s := by
  unfold session Zopfli.session
  cases hn : Encoder.new env fmt s with
  | none => rfl
  | some p =>
    obtain ⟨r, s'⟩ := p
    rw [some_bind, some_bind]
    cases r with
    | error k => rfl
    | ok e =>
      obtain ⟨g1, g2⟩ := run_eq hR calls e (new_wrap 0 N hn).2 hb
      dsimp only
      rw [g1]
      cases hx : e.run env calls with
      | none => rfl
      | some p =>
        obtain ⟨r, e1⟩ := p
        have g3 := g2 r e1 hx
        rw [some_bind, some_bind]
        dsimp only
        rw [drop_eq hR g3, finish_eq hR g3]
        cases r with
        | error k => rfl
        | ok u => cases ending <;> rfl

/-! ## `compress` -/

theorem flushBuf_holds [Checks] (hR : Enough N L) {e : Encoder σ} (hg : Words.HoldsE N e) {buf : List UInt8} (hb : buf.length ≤ N)
    {r : Except ErrKind Unit × Encoder σ × List UInt8} (h : Zopfli.flushBuf env e buf = some r) :
    flushBuf env e buf = some r ∧ Words.HoldsE N r.2.1 ∧ r.2.2.length ≤ buf.length := by
  have := Zopfli.flushBuf.partial_correctness (env := env) (motive := fun e buf r => Words.HoldsE N e → buf.length ≤ N →
      flushBuf env e buf = some r ∧ Words.HoldsE N r.2.1 ∧ r.2.2.length ≤ buf.length) (by
    intro f ih e buf r hr hg hb
    rw [flushBuf]
    split at hr
    · rename_i h0; cases hr; rw [if_pos h0]; exact ⟨rfl, hg, by simp⟩
    · rename_i h0
      rw [if_neg h0, write_eq hR hg]
      cases hx : e.write env buf with
      | none => rw [hx] at hr; cases hr
      | some p =>
        obtain ⟨q, e1⟩ := p
        have g1 := write_holds hx hb hg
        rw [hx, some_bind] at hr
        rw [some_bind]
        dsimp only at hr ⊢
        rcases q with k | n
        · cases k with
          | interrupted => exact ih _ _ _ hr g1 hb
          | writeZero => cases hr; exact ⟨rfl, g1, Nat.le_refl _⟩
          | other n => cases hr; exact ⟨rfl, g1, Nat.le_refl _⟩
        · cases n with
          | zero => cases hr; exact ⟨rfl, g1, Nat.le_refl _⟩
          | succ n =>
            have hd : (buf.drop (n + 1)).length ≤ buf.length := by rw [List.length_drop]; exact Nat.sub_le _ _
            obtain ⟨a1, a2, a3⟩ := ih _ _ _ hr g1 (Nat.le_trans hd hb)
            exact ⟨a1, a2, Nat.le_trans a3 hd⟩)
  exact this e buf r h hg hb

theorem flushBuf_back [Checks] (hR : Enough N L) {e : Encoder σ} (hg : Words.HoldsE N e) {buf : List UInt8} (hb : buf.length ≤ N)
    {r : Except ErrKind Unit × Encoder σ × List UInt8} (h : flushBuf env e buf = some r) : ∃ r', Zopfli.flushBuf env e buf = some r' := by
  have := flushBuf.partial_correctness (env := env) (motive := fun e buf r => Words.HoldsE N e → buf.length ≤ N →
      ∃ r', Zopfli.flushBuf env e buf = some r') (by
    intro f ih e buf r hr hg hb
    rw [Zopfli.flushBuf]
    split at hr
    · rename_i h0; rw [if_pos h0]; exact ⟨_, rfl⟩
    · rename_i h0
      rw [if_neg h0]
      rw [write_eq hR hg] at hr
      cases hx : e.write env buf with
      | none => rw [hx] at hr; cases hr
      | some p =>
        obtain ⟨q, e1⟩ := p
        have g1 := write_holds hx hb hg
        rw [hx, some_bind] at hr
        rw [some_bind]
        dsimp only at hr ⊢
        rcases q with k | n
        · cases k with
          | interrupted => exact ih _ _ _ hr g1 hb
          | writeZero => exact ⟨_, rfl⟩
          | other n => exact ⟨_, rfl⟩
        · cases n with
          | zero => exact ⟨_, rfl⟩
          | succ n =>
            have hd : (buf.drop (n + 1)).length ≤ buf.length := by rw [List.length_drop]; exact Nat.sub_le _ _
            exact ih _ _ _ hr g1 (Nat.le_trans hd hb))
  exact this e buf r h hg hb

theorem flushBuf_eq [Checks] (hR : Enough N L) {e : Encoder σ} (hg : Words.HoldsE N e) {buf : List UInt8} (hb : buf.length ≤ N) :
    flushBuf env e buf = Zopfli.flushBuf env e buf := by
  cases hx : Zopfli.flushBuf env e buf with
  | some r => exact (flushBuf_holds hR hg hb hx).1
  | none =>
    cases hy : flushBuf env e buf with
    | none => rfl
    | some r =>
      obtain ⟨r', e'⟩ := flushBuf_back hR hg hb hy
      rw [hx] at e'
      cases e'

theorem dropBuffered_eq [Checks] (hR : Enough N L) {e : Encoder σ} (hg : Words.HoldsE N e) {buf : List UInt8} (hb : buf.length ≤ N) :
    dropBuffered env e buf = Zopfli.dropBuffered env e buf := by
  unfold dropBuffered Zopfli.dropBuffered
  rw [flushBuf_eq hR hg hb]
  cases hx : Zopfli.flushBuf env e buf with
  | none => rfl
  | some r => exact drop_eq hR (flushBuf_holds hR hg hb hx).2.1

theorem copyLoop_holds [Checks] (hR : Enough N L) (hN : MASTER_BLOCK_SIZE ≤ N) (R : Reader ρ) {r0 : ρ} {e : Encoder σ} (hg : Words.HoldsE N e) {buf : List UInt8}
    (hb : buf.length ≤ MASTER_BLOCK_SIZE) {r : Except ErrKind Unit × Encoder σ × List UInt8} (h : Zopfli.copyLoop env R r0 e buf = some r) :
    copyLoop env R r0 e buf = some r ∧ Words.HoldsE N r.2.1 ∧ r.2.2.length ≤ MASTER_BLOCK_SIZE := by
  have := Zopfli.copyLoop.partial_correctness (env := env) (R := R) (motive := fun r0 e buf r => Words.HoldsE N e → buf.length ≤ MASTER_BLOCK_SIZE →
      copyLoop env R r0 e buf = some r ∧ Words.HoldsE N r.2.1 ∧ r.2.2.length ≤ MASTER_BLOCK_SIZE) (by
    intro f ih r0 e buf r hr hg hb
    rw [copyLoop]
    dsimp only at hr ⊢
    split at hr
    · rename_i h0
      rw [if_pos h0]
      rcases hq : R.read r0 (MASTER_BLOCK_SIZE - buf.length) with ⟨q, r1⟩
      rw [hq] at hr
      rcases q with k | l
      · cases k with
        | interrupted => exact ih _ _ _ _ hr hg hb
        | writeZero => cases hr; exact ⟨rfl, hg, hb⟩
        | other n => cases hr; exact ⟨rfl, hg, hb⟩
      · cases l with
        | nil => cases hr; exact ⟨rfl, hg, hb⟩
        | cons b bs =>
          dsimp only at hr ⊢
          split at hr
          · rename_i hn
            rw [if_pos hn]
            exact ih _ _ _ _ hr hg (by rw [List.length_append]; exact room_lt hb hn)
          · cases hr
    · rename_i h0
      rw [if_neg h0, flushBuf_eq hR hg (Nat.le_trans hb hN)]
      cases hx : Zopfli.flushBuf env e buf with
      | none => rw [hx] at hr; cases hr
      | some p =>
        obtain ⟨q, e1, buf1⟩ := p
        obtain ⟨-, g1, g2⟩ := flushBuf_holds hR hg (Nat.le_trans hb hN) hx
        dsimp only at g1 g2
        rw [hx] at hr
        cases q with
        | error k => cases hr; exact ⟨rfl, g1, Nat.le_trans g2 hb⟩
        | ok u => exact ih _ _ _ _ hr g1 (Nat.le_trans g2 hb))
  exact this r0 e buf r h hg hb

theorem copyLoop_back [Checks] (hR : Enough N L) (hN : MASTER_BLOCK_SIZE ≤ N) (R : Reader ρ) {r0 : ρ} {e : Encoder σ} (hg : Words.HoldsE N e) {buf : List UInt8}
    (hb : buf.length ≤ MASTER_BLOCK_SIZE) {r : Except ErrKind Unit × Encoder σ × List UInt8} (h : copyLoop env R r0 e buf = some r) :
    ∃ r', Zopfli.copyLoop env R r0 e buf = some r' := by
  have := copyLoop.partial_correctness (env := env) (R := R) (motive := fun r0 e buf r => Words.HoldsE N e →
      buf.length ≤ MASTER_BLOCK_SIZE → ∃ r', Zopfli.copyLoop env R r0 e buf = some r') (by
    intro f ih r0 e buf r hr hg hb
    rw [Zopfli.copyLoop]
    dsimp only at hr ⊢
    split at hr
    · rename_i h0
      rw [if_pos h0]
      rcases hq : R.read r0 (MASTER_BLOCK_SIZE - buf.length) with ⟨q, r1⟩
      rw [hq] at hr
      rcases q with k | l
      · cases k with
        | interrupted => exact ih _ _ _ _ hr hg hb
        | writeZero => exact ⟨_, rfl⟩
        | other n => exact ⟨_, rfl⟩
      · cases l with
        | nil => exact ⟨_, rfl⟩
        | cons b bs =>
          dsimp only at hr ⊢
          split at hr
          · rename_i hn
            rw [if_pos hn]
            exact ih _ _ _ _ hr hg (by rw [List.length_append]; exact room_lt hb hn)
          · cases hr
    · rename_i h0
      rw [if_neg h0]
      rw [flushBuf_eq hR hg (Nat.le_trans hb hN)] at hr
      cases hx : Zopfli.flushBuf env e buf with
      | none => rw [hx] at hr; cases hr
      | some p =>
        obtain ⟨q, e1, buf1⟩ := p
        obtain ⟨-, g1, g2⟩ := flushBuf_holds hR hg (Nat.le_trans hb hN) hx
        dsimp only at g1 g2
        rw [hx] at hr
        cases q with
        | error k => exact ⟨_, rfl⟩
        | ok u => exact ih _ _ _ _ hr g1 (Nat.le_trans g2 hb))
  exact this r0 e buf r h hg hb

theorem copyLoop_eq [Checks] (hR : Enough N L) (hN : MASTER_BLOCK_SIZE ≤ N) (R : Reader ρ) (r0 : ρ) {e : Encoder σ} (hg : Words.HoldsE N e) {buf : List UInt8}
    (hb : buf.length ≤ MASTER_BLOCK_SIZE) : copyLoop env R r0 e buf = Zopfli.copyLoop env R r0 e buf := by
  cases hx : Zopfli.copyLoop env R r0 e buf with
  | some r => exact (copyLoop_holds hR hN R hg hb hx).1
  | none =>
    cases hy : copyLoop env R r0 e buf with
    | none => rfl
    | some r =>
      obtain ⟨r', e'⟩ := copyLoop_back hR hN R hg hb hy
      rw [hx] at e'
      cases e'

theorem intoInnerFinish_eq [Checks] (hR : Enough N L) {e : Encoder σ} (hg : Words.HoldsE N e) {buf : List UInt8} (hb : buf.length ≤ N) :
    (do
      let (r, e, buf) ← flushBuf env e buf
      match r with
      | .error k => return (.error k, ← dropBuffered env e buf)
      | .ok () => finish env e : Option (Except ErrKind Unit × σ)) =
    (do
      let (r, e, buf) ← Zopfli.flushBuf env e buf
      match r with
      | .error k => return (.error k, ← Zopfli.dropBuffered env e buf)
      | .ok () => e.finish env) := by
  rw [flushBuf_eq hR hg hb]
  cases hx : Zopfli.flushBuf env e buf with
  | none => rfl
  | some p =>
    obtain ⟨q, e1, buf1⟩ := p
    obtain ⟨-, g1, g2⟩ := flushBuf_holds hR hg hb hx
    dsimp only at g1 g2
    rw [some_bind, some_bind]
    cases q with
    | error k => dsimp only; rw [dropBuffered_eq hR g1 (Nat.le_trans g2 hb)]
    | ok u => exact finish_eq hR g1

theorem compress_eq [Checks] {F : FloatOps} {L : FloatLaws F} (hR : Enough N L) (hN : MASTER_BLOCK_SIZE ≤ N) (S : Sink σ) (R : Reader ρ) (options : Options)
    (fmt : Format) (r0 : ρ) (s : σ) : compress F S R options fmt r0 s = Zopfli.compress F S R options fmt r0 s := by
  unfold compress Zopfli.compress
  dsimp only
  have hR : Enough N (F := (⟨F, S, options, .dynamic⟩ : Env σ).F) L := hR
  cases hn : Encoder.new (⟨F, S, options, .dynamic⟩ : Env σ) fmt s with
  | none => rfl
  | some p =>
    obtain ⟨r, s'⟩ := p
    rw [some_bind, some_bind]
    cases r with
    | error k => rfl
    | ok e =>
      have h2 := (new_wrap 0 N hn).2
      dsimp only
      rw [copyLoop_eq (env := ⟨F, S, options, .dynamic⟩) (L := L) hR hN R r0 h2 (buf := []) (Nat.zero_le _)]
      cases hx : Zopfli.copyLoop (⟨F, S, options, .dynamic⟩ : Env σ) R r0 e [] with
      | none => rfl
      | some p =>
        obtain ⟨q, e1, buf1⟩ := p
        obtain ⟨-, g2, g3⟩ := copyLoop_holds (env := ⟨F, S, options, .dynamic⟩) (L := L) hR hN R h2 (Nat.zero_le _) hx
        dsimp only at g2 g3
        rw [some_bind, some_bind]
        cases q with
        | error k => dsimp only; rw [dropBuffered_eq (env := ⟨F, S, options, .dynamic⟩) (L := L) hR g2 (Nat.le_trans g3 hN)]
        | ok u => exact intoInnerFinish_eq (env := ⟨F, S, options, .dynamic⟩) (L := L) hR g2 (Nat.le_trans g3 hN)

theorem bufWriteAll_eq [Checks] (hR : Enough N L) (hN : MASTER_BLOCK_SIZE ≤ N) {b : BufEncoder σ} (hg : Words.HoldsE N b.inner) (hb : b.buf.length ≤ MASTER_BLOCK_SIZE)
    {data : List UInt8} (hd : data.length ≤ N) :
    bufWriteAll env b data = b.writeAll env data ∧
      ∀ r b', b.writeAll env data = some (r, b') → Words.HoldsE N b'.inner ∧ b'.buf.length ≤ MASTER_BLOCK_SIZE := by
  obtain ⟨e, buf⟩ := b
  dsimp only at hg hb
  unfold bufWriteAll BufEncoder.writeAll
  dsimp only
  split
  · rename_i h
    refine ⟨rfl, fun r b' h' => ?_⟩
    cases h'
    exact ⟨hg, by dsimp only; rw [List.length_append]; exact room_lt hb (Nat.le_of_lt h)⟩
  · rename_i h
    by_cases h2 : data.length > MASTER_BLOCK_SIZE - buf.length
    · rw [if_pos h2, if_pos h2, flushBuf_eq hR hg (Nat.le_trans hb hN)]
      cases hx : Zopfli.flushBuf env e buf with
      | none => exact ⟨rfl, fun r b' h' => by cases h'⟩
      | some p =>
        obtain ⟨q, e1, buf1⟩ := p
        obtain ⟨-, g1, g2⟩ := flushBuf_holds hR hg (Nat.le_trans hb hN) hx
        dsimp only at g1 g2
        rw [some_bind, some_bind]
        dsimp only
        cases q with
        | error k => exact ⟨rfl, fun r b' h' => by cases h'; exact ⟨g1, Nat.le_trans g2 hb⟩⟩
        | ok u =>
          have h0 := flushBuf_ok_nil env hx
          subst h0
          dsimp only
          split
          · rw [flushBuf_eq hR g1 hd]
            cases hy : Zopfli.flushBuf env e1 data with
            | none => exact ⟨rfl, fun r b' h' => by cases h'⟩
            | some p => exact ⟨rfl, fun r b' h' => by cases h'; exact ⟨(flushBuf_holds hR g1 hd hy).2.1, Nat.zero_le _⟩⟩
          · rename_i h1
            refine ⟨rfl, fun r b' h' => ?_⟩
            cases h'
            exact ⟨g1, by dsimp only; rw [List.nil_append]; exact Nat.le_of_lt (Nat.lt_of_not_le h1)⟩
    · rw [if_neg h2, if_neg h2, some_bind, some_bind]
      dsimp only
      split
      · rw [flushBuf_eq hR hg hd]
        cases hy : Zopfli.flushBuf env e data with
        | none => exact ⟨rfl, fun r b' h' => by cases h'⟩
        | some p => exact ⟨rfl, fun r b' h' => by cases h'; exact ⟨(flushBuf_holds hR hg hd hy).2.1, hb⟩⟩
      · refine ⟨rfl, fun r b' h' => ?_⟩
        cases h'
        exact ⟨hg, by dsimp only; rw [List.length_append]; exact room_lt hb (Nat.le_of_not_lt h2)⟩

theorem copyTo_holds [Checks] (hR : Enough N L) (hN : MASTER_BLOCK_SIZE ≤ N) {src : Source ρ} {I : ρ → Prop}
    (hI : ∀ r, I r → I (src.next r).2 ∧ ∀ l, (src.next r).1 = .ok l → l.length ≤ N) {r0 : ρ} (h0 : I r0) {b : BufEncoder σ} (hg : Words.HoldsE N b.inner)
    (hb : b.buf.length ≤ MASTER_BLOCK_SIZE) {r : Except ErrKind Unit × BufEncoder σ} (h : Zopfli.copyTo env src r0 b = some r) :
    copyTo env src r0 b = some r ∧ Words.HoldsE N r.2.inner ∧ r.2.buf.length ≤ MASTER_BLOCK_SIZE := by
  have := Zopfli.copyTo.partial_correctness (env := env) (src := src) (motive := fun r0 b r => I r0 → Words.HoldsE N b.inner → b.buf.length ≤ MASTER_BLOCK_SIZE →
      copyTo env src r0 b = some r ∧ Words.HoldsE N r.2.inner ∧ r.2.buf.length ≤ MASTER_BLOCK_SIZE) (by
    intro f ih r0 b r hr h0 hg hb
    rw [copyTo]
    obtain ⟨i1, i2⟩ := hI r0 h0
    rcases hq : src.next r0 with ⟨q, r1⟩
    rw [hq] at hr i1 i2
    dsimp only at i1 i2
    rcases q with k | l
    · cases k with
      | interrupted => exact ih _ _ _ hr i1 hg hb
      | writeZero => cases hr; exact ⟨rfl, hg, hb⟩
      | other n => cases hr; exact ⟨rfl, hg, hb⟩
    · cases l with
      | nil => cases hr; exact ⟨rfl, hg, hb⟩
      | cons x xs =>
        obtain ⟨a1, a2⟩ := bufWriteAll_eq hR hN hg hb (i2 _ rfl)
        dsimp only at hr ⊢
        rw [a1]
        cases hx : b.writeAll env (x :: xs) with
        | none => rw [hx] at hr; cases hr
        | some p =>
          obtain ⟨q, b1⟩ := p
          obtain ⟨c1, c2⟩ := a2 _ _ hx
          rw [hx] at hr
          cases q with
          | error k => cases hr; exact ⟨rfl, c1, c2⟩
          | ok u => exact ih _ _ _ hr i1 c1 c2)
  exact this r0 b r h h0 hg hb

theorem copyTo_back [Checks] (hR : Enough N L) (hN : MASTER_BLOCK_SIZE ≤ N) {src : Source ρ} {I : ρ → Prop}
    (hI : ∀ r, I r → I (src.next r).2 ∧ ∀ l, (src.next r).1 = .ok l → l.length ≤ N) {r0 : ρ} (h0 : I r0) {b : BufEncoder σ} (hg : Words.HoldsE N b.inner)
    (hb : b.buf.length ≤ MASTER_BLOCK_SIZE) {r : Except ErrKind Unit × BufEncoder σ} (h : copyTo env src r0 b = some r) :
    ∃ r', Zopfli.copyTo env src r0 b = some r' := by
  have := copyTo.partial_correctness (env := env) (src := src) (motive := fun r0 b r =>
      I r0 → Words.HoldsE N b.inner → b.buf.length ≤ MASTER_BLOCK_SIZE → ∃ r', Zopfli.copyTo env src r0 b = some r') (by
    intro f ih r0 b r hr h0 hg hb
    rw [Zopfli.copyTo]
    obtain ⟨i1, i2⟩ := hI r0 h0
    rcases hq : src.next r0 with ⟨q, r1⟩
    rw [hq] at hr i1 i2
    dsimp only at i1 i2
    rcases q with k | l
    · cases k with
      | interrupted => exact ih _ _ _ hr i1 hg hb
      | writeZero => exact ⟨_, rfl⟩
      | other n => exact ⟨_, rfl⟩
    · cases l with
      | nil => exact ⟨_, rfl⟩
      | cons x xs =>
        obtain ⟨a1, a2⟩ := bufWriteAll_eq hR hN hg hb (i2 _ rfl)
        dsimp only at hr ⊢
        rw [a1] at hr
        cases hx : b.writeAll env (x :: xs) with
        | none => rw [hx] at hr; cases hr
        | some p =>
          obtain ⟨q, b1⟩ := p
          obtain ⟨c1, c2⟩ := a2 _ _ hx
          rw [hx] at hr
          cases q with
          | error k => exact ⟨_, rfl⟩
          | ok u => exact ih _ _ _ hr i1 c1 c2)
  exact this r0 b r h h0 hg hb

theorem compressFrom_eq [Checks] {F : FloatOps} {L : FloatLaws F} (hR : Enough N L) (hN : MASTER_BLOCK_SIZE ≤ N) (S : Sink σ) (src : Source ρ) {I : ρ → Prop}
    (hI : ∀ r, I r → I (src.next r).2 ∧ ∀ l, (src.next r).1 = .ok l → l.length ≤ N) (options : Options)
    (fmt : Format) (r0 : ρ) (h0 : I r0) (s : σ) : compressFrom F S src options fmt r0 s = Zopfli.compressFrom F S src options fmt r0 s := by
  unfold compressFrom Zopfli.compressFrom BufEncoder.new
  dsimp only
  have hR : Enough N (F := (⟨F, S, options, .dynamic⟩ : Env σ).F) L := hR
  cases hn : Encoder.new (⟨F, S, options, .dynamic⟩ : Env σ) fmt s with
  | none => rfl
  | some p =>
    obtain ⟨r, s'⟩ := p
    rw [some_bind]
    cases r with
    | error k => rfl
    | ok e =>
      have h2 := (new_wrap 0 N hn).2
      show (copyTo (⟨F, S, options, .dynamic⟩ : Env σ) src r0 ⟨e, []⟩ >>= _) = (Zopfli.copyTo (⟨F, S, options, .dynamic⟩ : Env σ) src r0 ⟨e, []⟩ >>= _)
      have hz : ([] : List UInt8).length ≤ MASTER_BLOCK_SIZE := Nat.zero_le _
      cases hx : Zopfli.copyTo (⟨F, S, options, .dynamic⟩ : Env σ) src r0 ⟨e, []⟩ with
      | none =>
        cases hy : copyTo (⟨F, S, options, .dynamic⟩ : Env σ) src r0 ⟨e, []⟩ with
        | none => rfl
        | some r =>
          obtain ⟨r', e'⟩ := copyTo_back (env := ⟨F, S, options, .dynamic⟩) (L := L) (b := ⟨e, []⟩) hR hN hI h0 h2 hz hy
          rw [hx] at e'
          cases e'
      | some p =>
        obtain ⟨q, e1, buf1⟩ := p
        obtain ⟨g1, g2, g3⟩ := copyTo_holds (env := ⟨F, S, options, .dynamic⟩) (L := L) (b := ⟨e, []⟩) hR hN hI h0 h2 hz hx
        dsimp only at g2 g3
        rw [g1, some_bind, some_bind]
        cases q with
        | error k =>
          dsimp only [BufEncoder.drop]
          rw [dropBuffered_eq (env := ⟨F, S, options, .dynamic⟩) (L := L) hR g2 (Nat.le_trans g3 hN)]
        | ok u => exact intoInnerFinish_eq (env := ⟨F, S, options, .dynamic⟩) (L := L) hR g2 (Nat.le_trans g3 hN)

end Direct
end Zopfli
