import Verif.Model.OwnSink
import Verif.Proofs.LogOnly
/-!
# An encoder over a sink with its own `write_all`, reduced to one over an ordinary sink
-/

namespace Zopfli.Own

/-- The ordinary sink's loop and its `flush` do what the other sink's own methods do. -/
structure Like {σ : Type} (W : OwnSink σ) (S : Sink σ) : Prop where
  all : ∀ s buf, W.writeAll s buf = S.writeAll s buf
  fl : ∀ s, W.flush s = S.flush s

/-- The environments agree but for the kind of sink. -/
structure LikeEnv {σ : Type} (w : OwnEnv σ) (env : Env σ) : Prop where
  sink : Like w.S env.S
  F : w.F = env.F
  opt : w.options = env.options
  bt : w.btype = env.btype

section
variable {σ : Type} {W : OwnSink σ} {S : Sink σ} (h : Like W S)
include h

theorem Like.addBytes (w : BitwiseWriter σ) (l : List UInt8) : Own.addBytes W w l = w.addBytes S l := by
  unfold Own.addBytes BitwiseWriter.addBytes
  rw [h.all]

theorem Like.finishPartialBits (w : BitwiseWriter σ) : Own.finishPartialBits W w = w.finishPartialBits S := by
  unfold Own.finishPartialBits BitwiseWriter.finishPartialBits
  simp only [h.addBytes]
  rfl

theorem Like.addBit [Checks] (w : BitwiseWriter σ) (b : Bool) : Own.addBit W w b = w.addBit S b := by
  unfold Own.addBit BitwiseWriter.addBit
  simp only [h.finishPartialBits]

theorem Like.exec [Checks] (w : BitwiseWriter σ) (op : WOp) : Own.exec W w op = w.exec S op := by
  cases op with
  | bit b => exact h.addBit w b
  | align => exact h.finishPartialBits w
  | bytes l => exact h.addBytes w l

theorem Like.execAll [Checks] : ∀ (ops : List WOp) (w : BitwiseWriter σ), Own.execAll W w ops = w.execAll S ops
  | [], _ => rfl
  | op :: ops, w => by
    unfold Own.execAll BitwiseWriter.execAll
    simp only [h.exec, Like.execAll ops]
    rfl

end

section
variable [Checks] {σ : Type} {w : OwnEnv σ} {env : Env σ} (h : LikeEnv w env)
include h

theorem LikeEnv.chunk (e : DeflateEncoder σ) (l : Bool) : compressChunk w e l = e.compressChunk env l := by
  unfold compressChunk DeflateEncoder.compressChunk
  simp only [h.sink.execAll, h.F, h.opt, h.bt]

theorem LikeEnv.finishInner (e : DeflateEncoder σ) : deflateFinishInner w e = e.finishInner env := by
  unfold deflateFinishInner DeflateEncoder.finishInner
  simp only [h.chunk, h.sink.finishPartialBits]
  rfl

theorem LikeEnv.dWrite (e : DeflateEncoder σ) (buf : List UInt8) : deflateWrite w e buf = e.write env buf := by
  unfold deflateWrite DeflateEncoder.write
  simp only [h.chunk]
  rfl

omit [Checks] in
theorem LikeEnv.dFlush (e : DeflateEncoder σ) : deflateFlush w e = e.flush env := by
  unfold deflateFlush DeflateEncoder.flush
  simp only [h.sink.fl]

theorem LikeEnv.dropWith (e : DeflateEncoder σ) (s : σ) : deflateDropWith w e s = e.dropWith env s := by
  unfold deflateDropWith DeflateEncoder.dropWith
  rw [h.finishInner]

theorem LikeEnv.dDrop (e : DeflateEncoder σ) : deflateDrop w e = e.drop env := by
  unfold deflateDrop DeflateEncoder.drop
  simp only [h.dropWith]

theorem LikeEnv.dFinish (e : DeflateEncoder σ) : deflateFinish w e = e.finish env := by
  unfold deflateFinish DeflateEncoder.finish
  simp only [h.finishInner, h.dropWith]
  rfl

omit [Checks] in
theorem LikeEnv.new (fmt : Format) (s : σ) : Own.new w fmt s = Encoder.new env fmt s := by
  cases fmt with
  | gzip =>
    simp only [Own.new, Encoder.new, gzipNew, GzipEncoder.new, h.sink.all]
    rfl
  | zlib =>
    simp only [Own.new, Encoder.new, zlibNew, ZlibEncoder.new, h.sink.all]
    rfl
  | deflate => rfl

omit [Checks] in
theorem LikeEnv.flush (e : Encoder σ) : Own.flush w e = e.flush env := by
  cases e with
  | gzip e => simp only [Own.flush, Encoder.flush, gzipFlush, GzipEncoder.flush, h.dFlush]
  | zlib e => simp only [Own.flush, Encoder.flush, zlibFlush, ZlibEncoder.flush, h.dFlush]
  | deflate e => simp only [Own.flush, Encoder.flush, h.dFlush]

theorem LikeEnv.write (e : Encoder σ) (buf : List UInt8) : Own.write w e buf = e.write env buf := by
  cases e with
  | gzip e => 
    simp only [Own.write, Encoder.write, gzipWrite, GzipEncoder.write, h.dWrite]
    rfl
  | zlib e =>
    simp only [Own.write, Encoder.write, zlibWrite, ZlibEncoder.write, h.dWrite]
    rfl
  | deflate e => simp only [Own.write, Encoder.write, h.dWrite]

theorem LikeEnv.finish (e : Encoder σ) : Own.finish w e = e.finish env := by
  cases e with
  | gzip e =>
    simp only [Own.finish, Encoder.finish, gzipFinish, GzipEncoder.finish, gzipFinishInner, GzipEncoder.finishInner, h.dFinish, h.sink.all]
    rfl
  | zlib e =>
    simp only [Own.finish, Encoder.finish, zlibFinish, ZlibEncoder.finish, zlibFinishInner, ZlibEncoder.finishInner, h.dFinish, h.sink.all]
    rfl
  | deflate e => simp only [Own.finish, Encoder.finish, h.dFinish]

theorem LikeEnv.drop (e : Encoder σ) : Own.drop w e = e.drop env := by
  cases e with
  | gzip e =>
    simp only [Own.drop, Encoder.drop, gzipDrop, GzipEncoder.drop, gzipFinishInner, GzipEncoder.finishInner, h.dFinish, h.sink.all]
    rfl
  | zlib e =>
    simp only [Own.drop, Encoder.drop, zlibDrop, ZlibEncoder.drop, zlibFinishInner, ZlibEncoder.finishInner, h.dFinish, h.sink.all]
    rfl
  | deflate e => simp only [Own.drop, Encoder.drop, h.dDrop]

theorem LikeEnv.run : ∀ (calls : List Call) (e : Encoder σ), Own.run w calls e = e.run env calls
  | [], _ => rfl
  | .write buf :: l, e => by
    simp only [Own.run, Encoder.run, h.write, LikeEnv.run l]
    rfl
  | .flush :: l, e => by
    simp only [Own.run, Encoder.run, h.flush, LikeEnv.run l]
    rfl

theorem LikeEnv.session (fmt : Format) (calls : List Call) (ending : Ending) (s : σ) :
    Own.session w fmt calls ending s = Zopfli.session env fmt calls ending s := by
  unfold Own.session Zopfli.session
  simp only [h.new, h.run, h.finish, h.drop]
  rfl

/-! ### Buffered encoders -/

theorem LikeEnv.flushBuf (e : Encoder σ) (buf : List UInt8) : Own.flushBuf w e buf = Zopfli.flushBuf env e buf := by
  refine some_eq_of_le ?_ ?_
  · revert e buf
    refine Own.flushBuf.partial_correctness (env := w) (motive := fun e buf r => Zopfli.flushBuf env e buf = some r) ?_
    intro f ih e buf r hr
    rw [Zopfli.flushBuf.eq_1]
    rw [h.write] at hr
    split at hr
    · rename_i h0; rw [if_pos h0]; exact hr
    · rename_i h0
      rw [if_neg h0]
      cases hw : e.write env buf with
      | none => rw [hw] at hr; cases hr
      | some p =>
        obtain ⟨q, e'⟩ := p
        rw [hw, some_bind] at hr
        rw [some_bind]
        rcases q with (_ | _ | _) | (_ | _)
        · exact ih _ _ _ hr
        · exact hr
        · exact hr
        · exact hr
        · exact ih _ _ _ hr
  · revert e buf
    refine Zopfli.flushBuf.partial_correctness (env := env) (motive := fun e buf r => Own.flushBuf w e buf = some r) ?_
    intro f ih e buf r hr
    rw [Own.flushBuf.eq_1, h.write]
    split at hr
    · rename_i h0; rw [if_pos h0]; exact hr
    · rename_i h0
      rw [if_neg h0]
      cases hw : e.write env buf with
      | none => rw [hw] at hr; cases hr
      | some p =>
        obtain ⟨q, e'⟩ := p
        rw [hw, some_bind] at hr
        rw [some_bind]
        rcases q with (_ | _ | _) | (_ | _)
        · exact ih _ _ _ hr
        · exact hr
        · exact hr
        · exact hr
        · exact ih _ _ _ hr

theorem LikeEnv.copyLoop {ρ : Type} (R : Reader ρ) (r : ρ) (e : Encoder σ) (buf : List UInt8) :
    Own.copyLoop w R r e buf = Zopfli.copyLoop env R r e buf := by
  refine some_eq_of_le ?_ ?_
  · revert r e buf
    refine Own.copyLoop.partial_correctness (env := w) (R := R) (motive := fun r e buf x => Zopfli.copyLoop env R r e buf = some x) ?_
    intro f ih r e buf x hr
    rw [Zopfli.copyLoop.eq_1]
    rw [h.flushBuf] at hr
    dsimp only at hr ⊢
    split at hr
    · rename_i h0
      rw [if_pos h0]
      rcases hq : R.read r (MASTER_BLOCK_SIZE - buf.length) with ⟨(_ | _ | _) | (_ | ⟨b, bs⟩), r'⟩ <;> rw [hq] at hr
      · exact ih _ _ _ _ hr
      · exact hr
      · exact hr
      · exact hr
      · dsimp only at hr ⊢
        split at hr
        · rename_i h2; rw [if_pos h2]; exact ih _ _ _ _ hr
        · cases hr
    · rename_i h0
      rw [if_neg h0]
      rcases hq : Zopfli.flushBuf env e buf with _ | ⟨_ | _, e', buf'⟩ <;> rw [hq] at hr
      · cases hr
      · exact hr
      · exact ih _ _ _ _ hr
  · revert r e buf
    refine Zopfli.copyLoop.partial_correctness (env := env) (R := R) (motive := fun r e buf x => Own.copyLoop w R r e buf = some x) ?_
    intro f ih r e buf x hr
    rw [Own.copyLoop.eq_1, h.flushBuf]
    dsimp only at hr ⊢
    split at hr
    · rename_i h0
      rw [if_pos h0]
      rcases hq : R.read r (MASTER_BLOCK_SIZE - buf.length) with ⟨(_ | _ | _) | (_ | ⟨b, bs⟩), r'⟩ <;> rw [hq] at hr
      · exact ih _ _ _ _ hr
      · exact hr
      · exact hr
      · exact hr
      · dsimp only at hr ⊢
        split at hr
        · rename_i h2; rw [if_pos h2]; exact ih _ _ _ _ hr
        · cases hr
    · rename_i h0
      rw [if_neg h0]
      rcases hq : Zopfli.flushBuf env e buf with _ | ⟨_ | _, e', buf'⟩ <;> rw [hq] at hr
      · cases hr
      · exact hr
      · exact ih _ _ _ _ hr

theorem LikeEnv.dropBuffered (e : Encoder σ) (buf : List UInt8) : Own.dropBuffered w e buf = Zopfli.dropBuffered env e buf := by
  unfold Own.dropBuffered Zopfli.dropBuffered
  simp only [h.flushBuf, h.drop]

omit [Checks] in
theorem LikeEnv.bufNew (fmt : Format) (s : σ) : Own.bufNew w fmt s = BufEncoder.new env fmt s := by
  unfold Own.bufNew BufEncoder.new
  rw [h.new]
  rfl

theorem LikeEnv.bufWrite (b : BufEncoder σ) (data : List UInt8) : Own.bufWrite w b data = b.write env data := by
  unfold Own.bufWrite BufEncoder.write
  simp only [h.flushBuf, h.write]
  rfl

theorem LikeEnv.bufFlush (b : BufEncoder σ) : Own.bufFlush w b = b.flush env := by
  unfold Own.bufFlush BufEncoder.flush
  simp only [h.flushBuf, h.flush]
  rfl

theorem LikeEnv.bufFinish (b : BufEncoder σ) : intoInnerFinish w b = b.intoInnerFinish env := by
  unfold intoInnerFinish BufEncoder.intoInnerFinish
  simp only [h.flushBuf, BufEncoder.drop, h.dropBuffered, h.finish]
  rfl

theorem LikeEnv.bufRun : ∀ (calls : List Call) (b : BufEncoder σ), Own.bufRun w calls b = b.run env calls
  | [], _ => rfl
  | .write buf :: l, e => by
    simp only [Own.bufRun, BufEncoder.run, h.bufWrite, LikeEnv.bufRun l]
    rfl
  | .flush :: l, e => by
    simp only [Own.bufRun, BufEncoder.run, h.bufFlush, LikeEnv.bufRun l]
    rfl

theorem LikeEnv.bufferedSession (fmt : Format) (calls : List Call) (ending : Ending) (s : σ) :
    Own.bufferedSession w fmt calls ending s = Zopfli.bufferedSession env fmt calls ending s := by
  unfold Own.bufferedSession Zopfli.bufferedSession
  simp only [h.bufNew, h.bufRun, h.bufFinish, BufEncoder.drop, h.dropBuffered]
  rfl

theorem LikeEnv.bufWriteAll (b : BufEncoder σ) (data : List UInt8) : Own.bufWriteAll w b data = b.writeAll env data := by
  unfold Own.bufWriteAll BufEncoder.writeAll
  simp only [h.flushBuf]
  rfl

theorem LikeEnv.copyTo {ρ : Type} (src : Source ρ) (r : ρ) (b : BufEncoder σ) : Own.copyTo w src r b = Zopfli.copyTo env src r b := by
  refine some_eq_of_le ?_ ?_
  · revert r b
    refine Own.copyTo.partial_correctness (env := w) (src := src) (motive := fun r b x => Zopfli.copyTo env src r b = some x) ?_
    intro f ih r b x hr
    rw [Zopfli.copyTo.eq_1]
    rcases hq : src.next r with ⟨(_ | _ | _) | (_ | ⟨c, cs⟩), r'⟩ <;> rw [hq] at hr
    · exact ih _ _ _ hr
    · exact hr
    · exact hr
    · exact hr
    · dsimp only at hr ⊢
      rw [h.bufWriteAll] at hr
      rcases hw : b.writeAll env (c :: cs) with _ | ⟨_ | _, b'⟩ <;> rw [hw] at hr
      · cases hr
      · exact hr
      · exact ih _ _ _ hr
  · revert r b
    refine Zopfli.copyTo.partial_correctness (env := env) (src := src) (motive := fun r b x => Own.copyTo w src r b = some x) ?_
    intro f ih r b x hr
    rw [Own.copyTo.eq_1]
    rcases hq : src.next r with ⟨(_ | _ | _) | (_ | ⟨c, cs⟩), r'⟩ <;> rw [hq] at hr
    · exact ih _ _ _ hr
    · exact hr
    · exact hr
    · exact hr
    · dsimp only at hr ⊢
      rw [h.bufWriteAll]
      rcases hw : b.writeAll env (c :: cs) with _ | ⟨_ | _, b'⟩ <;> rw [hw] at hr
      · cases hr
      · exact hr
      · exact ih _ _ _ hr

end

section
variable [Checks] {σ ρ : Type} {W : OwnSink σ} {S : Sink σ} (h : Like W S)
include h

omit [Checks] in
theorem Like.env (F : FloatOps) (o : Options) (bt : BlockType) : LikeEnv ⟨F, W, o, bt⟩ ⟨F, S, o, bt⟩ := ⟨h, rfl, rfl, rfl⟩

theorem Like.compress (F : FloatOps) (R : Reader ρ) (o : Options) (fmt : Format) (r : ρ) (s : σ) :
    Own.compress F W R o fmt r s = Zopfli.compress F S R o fmt r s := by
  have e := h.env F o .dynamic
  unfold Own.compress Zopfli.compress
  simp only [e.new, e.copyLoop, e.flushBuf, e.dropBuffered, e.finish]
  rfl

theorem Like.compressFrom (F : FloatOps) (src : Source ρ) (o : Options) (fmt : Format) (r : ρ) (s : σ) :
    Own.compressFrom F W src o fmt r s = Zopfli.compressFrom F S src o fmt r s := by
  have e := h.env F o .dynamic
  unfold Own.compressFrom Zopfli.compressFrom
  simp only [e.bufNew, e.copyTo, e.bufFinish, BufEncoder.drop, e.dropBuffered]
  rfl

end

end Zopfli.Own
