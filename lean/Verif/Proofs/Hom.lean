import Verif.Proofs.Total
/-! # Instrumenting a sink does not change what the encoder does -/

namespace Zopfli

variable [Checks] {σ τ ρ : Type}

/-- `S'` is `S` with something added to its state, as far as writes are concerned. -/
structure WHom (S' : Sink τ) (S : Sink σ) (h : τ → σ) : Prop where
  wr : ∀ t b, S.write (h t) b = ((S'.write t b).1, h (S'.write t b).2)

/-- `S'` is `S` with something added to its state. -/
structure Hom (S' : Sink τ) (S : Sink σ) (h : τ → σ) : Prop extends WHom S' S h where
  fl : ∀ t, S.flush (h t) = ((S'.flush t).1, h (S'.flush t).2)

/-- Apply a map to the second component of a result. -/
def onSnd {α β γ : Type} (f : β → γ) : α × β → α × γ := fun p => (p.1, f p.2)

theorem WHom.writeAll {S' : Sink τ} {S : Sink σ} {h : τ → σ} (H : WHom S' S h) (t : τ) (buf : List UInt8) :
    S.writeAll (h t) buf = (S'.writeAll t buf).map (onSnd h) := by
  have h1 := Sink.writeAll.partial_correctness (S := S') (motive := fun t buf r => S.writeAll (h t) buf = some (onSnd h r)) (by
    intro f ih t buf r hr
    rw [Sink.writeAll]
    split at hr
    · rename_i hb; cases hr; rw [if_pos hb]; rfl
    · rename_i hb
      rw [if_neg hb, H.wr]
      split at hr <;> rename_i hw
      · rw [hw]; cases hr; rfl
      · rw [hw]
        dsimp only
        split at hr
        · rename_i hn; rw [if_pos hn]; exact ih _ _ _ hr
        · cases hr
      · rw [hw]; exact ih _ _ _ hr
      · rename_i k t' hk
        rw [hw]
        cases hr
        cases k with
        | interrupted => exact absurd rfl hk
        | writeZero => rfl
        | other n => rfl)
  have h2 := Sink.writeAll.partial_correctness (S := S) (motive := fun s buf r => ∀ t, h t = s → ∃ r', S'.writeAll t buf = some r') (by
    intro f ih s buf r hr t ht
    subst ht
    rw [Sink.writeAll]
    split at hr
    · rename_i hb; rw [if_pos hb]; exact ⟨_, rfl⟩
    · rename_i hb
      rw [if_neg hb]
      rw [H.wr] at hr
      rcases hw : S'.write t buf with ⟨q, t'⟩
      rw [hw] at hr
      dsimp only at hr ⊢
      rcases q with k | n
      · cases k with
        | interrupted => exact ih _ _ _ hr t' rfl
        | writeZero => exact ⟨_, rfl⟩
        | other n => exact ⟨_, rfl⟩
      · cases n with
        | zero => exact ⟨_, rfl⟩
        | succ n =>
          dsimp only at hr ⊢
          split at hr
          · rename_i hn; rw [if_pos hn]; exact ih _ _ _ hr t' rfl
          · cases hr)
  cases hx : S'.writeAll t buf with
  | some r => rw [h1 t buf r hx]; rfl
  | none =>
    cases hy : S.writeAll (h t) buf with
    | none => rfl
    | some r =>
      obtain ⟨r', e⟩ := h2 (h t) buf r hy t rfl
      rw [hx] at e
      cases e

/-- Replace the sink of a writer. -/
def BitwiseWriter.mapSink (h : τ → σ) (w : BitwiseWriter τ) : BitwiseWriter σ := ⟨w.bit, w.bp, w.len, h w.out⟩

theorem WHom.addBytes {S' : Sink τ} {S : Sink σ} {h : τ → σ} (H : WHom S' S h) (w : BitwiseWriter τ) (l : List UInt8) :
    (w.mapSink h).addBytes S l = (w.addBytes S' l).map (onSnd (·.mapSink h)) := by
  unfold BitwiseWriter.addBytes
  show (S.writeAll (h w.out) l >>= _) = _
  rw [H.writeAll]
  cases S'.writeAll w.out l <;> rfl

theorem WHom.finishPartialBits {S' : Sink τ} {S : Sink σ} {h : τ → σ} (H : WHom S' S h) (w : BitwiseWriter τ) :
    (w.mapSink h).finishPartialBits S = (w.finishPartialBits S').map (onSnd (·.mapSink h)) := by
  unfold BitwiseWriter.finishPartialBits
  show (if w.bp ≠ 0 then (w.mapSink h).addBytes S [w.bit] >>= _ else _) = _
  by_cases hb : w.bp ≠ 0
  · rw [if_pos hb, if_pos hb, H.addBytes]
    cases w.addBytes S' [w.bit] with
    | none => rfl
    | some p =>
      obtain ⟨r, w'⟩ := p
      cases r <;> rfl
  · rw [if_neg hb, if_neg hb]
    rfl

theorem WHom.exec {S' : Sink τ} {S : Sink σ} {h : τ → σ} (H : WHom S' S h) (w : BitwiseWriter τ) (op : WOp) :
    (w.mapSink h).exec S op = (w.exec S' op).map (onSnd (·.mapSink h)) := by
  cases op with
  | bit b =>
    show (w.mapSink h).addBit S b = (w.addBit S' b).map _
    unfold BitwiseWriter.addBit
    dsimp only
    by_cases hc : Checks.on = true ∧ 8 ≤ w.bp
    · rw [if_pos hc, if_pos (show Checks.on = true ∧ 8 ≤ (w.mapSink h).bp from hc)]
      rfl
    rw [if_neg hc, if_neg (show ¬ (Checks.on = true ∧ 8 ≤ (w.mapSink h).bp) from hc)]
    have := H.finishPartialBits { w with bit := w.bit ||| ((if b then 1 else 0) <<< w.bp), bp := w.bp + 1 }
    by_cases hb : w.bp + 1 = 8
    · rw [if_pos hb, if_pos (show (w.mapSink h).bp + 1 = 8 from hb)]
      exact this
    · rw [if_neg hb, if_neg (show ¬ (w.mapSink h).bp + 1 = 8 from hb)]
      rfl
  | align => exact H.finishPartialBits w
  | bytes l => exact H.addBytes w l

theorem WHom.execAll {S' : Sink τ} {S : Sink σ} {h : τ → σ} (H : WHom S' S h) : ∀ (ops : List WOp) (w : BitwiseWriter τ),
    (w.mapSink h).execAll S ops = (w.execAll S' ops).map (onSnd (·.mapSink h))
  | [], w => rfl
  | op :: ops, w => by
    rw [BitwiseWriter.execAll, BitwiseWriter.execAll, H.exec]
    cases w.exec S' op with
    | none => rfl
    | some p =>
      obtain ⟨r, w'⟩ := p
      cases r with
      | ok u => exact H.execAll ops w'
      | error e => rfl

/-- Replace the sink of an encoder. -/
def DeflateEncoder.mapSink (h : τ → σ) (e : DeflateEncoder τ) : DeflateEncoder σ :=
  ⟨e.haveChunk, e.chunkStart, e.windowAndChunk, e.bitwiseWriter.map (·.mapSink h)⟩

variable {F : FloatOps} {o : Options} {bt : BlockType}

theorem WHom.compressChunk {S' : Sink τ} {S : Sink σ} {h : τ → σ} (H : WHom S' S h) (e : DeflateEncoder τ) (last : Bool) :
    (e.mapSink h).compressChunk ⟨F, S, o, bt⟩ last = (e.compressChunk ⟨F, S', o, bt⟩ last).map (onSnd (·.mapSink h)) := by
  obtain ⟨hc, cs, wac, w⟩ := e
  unfold DeflateEncoder.compressChunk
  cases w with
  | none => rfl
  | some w =>
    dsimp only [DeflateEncoder.mapSink, Option.map_some]
    rw [some_bind, some_bind]
    cases deflatePart F o bt last wac cs wac.size with
    | none => rfl
    | some ops =>
      rw [some_bind, some_bind, H.execAll]
      cases w.execAll S' ops <;> rfl

theorem WHom.finishInner {S' : Sink τ} {S : Sink σ} {h : τ → σ} (H : WHom S' S h) (e : DeflateEncoder τ) :
    (e.mapSink h).finishInner ⟨F, S, o, bt⟩ =
      (e.finishInner ⟨F, S', o, bt⟩).map fun x => (x.1.map (Option.map h), x.2.1.mapSink h, x.2.2.map h) := by
  have hc := H.compressChunk (F := F) (o := o) (bt := bt) e true
  obtain ⟨hc, cs, wac, w⟩ := e
  unfold DeflateEncoder.finishInner
  cases w with
  | none => rfl
  | some w =>
    show ((DeflateEncoder.mapSink h ⟨_, cs, wac, some w⟩).compressChunk ⟨F, S, o, bt⟩ true >>= _) = _
    rw [hc]
    dsimp only
    cases DeflateEncoder.compressChunk ⟨F, S', o, bt⟩ ⟨_, cs, wac, some w⟩ true with
    | none => rfl
    | some p =>
      obtain ⟨r, e'⟩ := p
      obtain ⟨hc', cs', wac', w'⟩ := e'
      rw [Option.map_some, some_bind, some_bind]
      cases r with
      | error k =>
        cases w' <;> rfl
      | ok u =>
        cases w' with
        | none => rfl
        | some w' =>
          dsimp only [onSnd, DeflateEncoder.mapSink, Option.map_some]
          rw [some_bind, some_bind, H.finishPartialBits]
          cases w'.finishPartialBits S' with
          | none => rfl
          | some p =>
            obtain ⟨r, w2⟩ := p
            cases r <;> rfl

theorem WHom.dropWith {S' : Sink τ} {S : Sink σ} {h : τ → σ} (H : WHom S' S h) (e : DeflateEncoder τ) (t : τ) :
    (e.mapSink h).dropWith ⟨F, S, o, bt⟩ (h t) = (e.dropWith ⟨F, S', o, bt⟩ t).map h := by
  unfold DeflateEncoder.dropWith
  rw [H.finishInner]
  cases e.finishInner ⟨F, S', o, bt⟩ with
  | none => rfl
  | some p =>
    obtain ⟨r, e', so⟩ := p
    cases so <;> rfl

theorem WHom.drop {S' : Sink τ} {S : Sink σ} {h : τ → σ} (H : WHom S' S h) (e : DeflateEncoder τ) :
    (e.mapSink h).drop ⟨F, S, o, bt⟩ = (e.drop ⟨F, S', o, bt⟩).map h := by
  have hd := fun t => H.dropWith (F := F) (o := o) (bt := bt) e t
  obtain ⟨hc, cs, wac, w⟩ := e
  unfold DeflateEncoder.drop
  cases w with
  | none => rfl
  | some w => exact hd w.out

theorem WHom.finish {S' : Sink τ} {S : Sink σ} {h : τ → σ} (H : WHom S' S h) (e : DeflateEncoder τ) :
    (e.mapSink h).finish ⟨F, S, o, bt⟩ = (e.finish ⟨F, S', o, bt⟩).map (onSnd h) := by
  unfold DeflateEncoder.finish
  rw [H.finishInner]
  cases e.finishInner ⟨F, S', o, bt⟩ with
  | none => rfl
  | some p =>
    obtain ⟨r, e', so⟩ := p
    rw [Option.map_some, some_bind, some_bind]
    rcases r with k | (_ | s)
    · cases so with
      | none => rfl
      | some t =>
        dsimp only [Option.map_some, Except.map]
        rw [some_bind, some_bind, H.dropWith]
        cases e'.dropWith ⟨F, S', o, bt⟩ t <;> rfl
    · rfl
    · cases so with
      | none => rfl
      | some t =>
        dsimp only [Option.map_some, Except.map]
        rw [some_bind, some_bind, H.dropWith]
        cases e'.dropWith ⟨F, S', o, bt⟩ t <;> rfl

theorem DeflateEncoder.setChunk_mapSink (h : τ → σ) (e : DeflateEncoder τ) (buf : List UInt8) :
    (e.mapSink h).setChunk buf = (e.setChunk buf).mapSink h := by
  unfold DeflateEncoder.setChunk DeflateEncoder.mapSink
  dsimp only

theorem WHom.writeD {S' : Sink τ} {S : Sink σ} {h : τ → σ} (H : WHom S' S h) (e : DeflateEncoder τ) (buf : List UInt8) :
    (e.mapSink h).write ⟨F, S, o, bt⟩ buf = (e.write ⟨F, S', o, bt⟩ buf).map (onSnd (·.mapSink h)) := by
  unfold DeflateEncoder.write
  rw [H.compressChunk]
  show (if e.haveChunk then _ else _) >>= _ = _
  by_cases hc : e.haveChunk = true
  · rw [if_pos hc, if_pos hc]
    cases e.compressChunk ⟨F, S', o, bt⟩ false with
    | none => rfl
    | some p =>
      obtain ⟨r, e'⟩ := p
      cases r with
      | error k => rfl
      | ok u => exact congrArg (fun x => some (Except.ok buf.length, x)) (DeflateEncoder.setChunk_mapSink h e' buf)
  · rw [if_neg hc, if_neg hc]
    exact congrArg (fun x => some (Except.ok buf.length, x)) (DeflateEncoder.setChunk_mapSink h e buf)

theorem Hom.flushD {S' : Sink τ} {S : Sink σ} {h : τ → σ} (H : Hom S' S h) (e : DeflateEncoder τ) :
    (e.mapSink h).flush ⟨F, S, o, bt⟩ = (e.flush ⟨F, S', o, bt⟩).map (onSnd (·.mapSink h)) := by
  obtain ⟨hc, cs, wac, w⟩ := e
  unfold DeflateEncoder.flush
  cases w with
  | none => rfl
  | some w =>
    dsimp only [DeflateEncoder.mapSink, Option.map_some]
    rw [some_bind, some_bind]
    have := H.fl w.out
    show some ((S.flush (h w.out)).1, _) = _
    simp only [BitwiseWriter.mapSink, this]
    rfl

/-- Replace the sink of an encoder. -/
def Encoder.mapSink (h : τ → σ) : Encoder τ → Encoder σ
  | .gzip e => .gzip ⟨e.deflate.map (·.mapSink h), e.crc, e.inputSize⟩
  | .zlib e => .zlib ⟨e.deflate.map (·.mapSink h), e.adler⟩
  | .deflate e => .deflate (e.mapSink h)

theorem WHom.newE {S' : Sink τ} {S : Sink σ} {h : τ → σ} (H : WHom S' S h) (fmt : Format) (t : τ) :
    Encoder.new ⟨F, S, o, bt⟩ fmt (h t) = (Encoder.new ⟨F, S', o, bt⟩ fmt t).map fun x => (x.1.map (·.mapSink h), h x.2) := by
  cases fmt with
  | deflate => rfl
  | gzip =>
    unfold Encoder.new GzipEncoder.new
    dsimp only
    rw [H.writeAll]
    cases S'.writeAll t gzipHeader with
    | none => rfl
    | some p =>
      obtain ⟨r, t'⟩ := p
      cases r <;> rfl
  | zlib =>
    unfold Encoder.new ZlibEncoder.new
    dsimp only
    rw [H.writeAll]
    cases S'.writeAll t zlibHeader with
    | none => rfl
    | some p =>
      obtain ⟨r, t'⟩ := p
      cases r <;> rfl

theorem WHom.writeE {S' : Sink τ} {S : Sink σ} {h : τ → σ} (H : WHom S' S h) (e : Encoder τ) (buf : List UInt8) :
    (e.mapSink h).write ⟨F, S, o, bt⟩ buf = (e.write ⟨F, S', o, bt⟩ buf).map (onSnd (·.mapSink h)) := by
  cases e with
  | deflate d =>
    unfold Encoder.write Encoder.mapSink
    dsimp only
    rw [H.writeD]
    cases d.write ⟨F, S', o, bt⟩ buf <;> rfl
  | gzip g =>
    obtain ⟨d, crc, sz⟩ := g
    unfold Encoder.write Encoder.mapSink GzipEncoder.write
    cases d with
    | none => rfl
    | some d =>
      dsimp only [Option.map_some]
      rw [some_bind, some_bind, H.writeD]
      cases d.write ⟨F, S', o, bt⟩ buf with
      | none => rfl
      | some p =>
        obtain ⟨r, d'⟩ := p
        cases r <;> rfl
  | zlib g =>
    obtain ⟨d, ad⟩ := g
    unfold Encoder.write Encoder.mapSink ZlibEncoder.write
    cases d with
    | none => rfl
    | some d =>
      dsimp only [Option.map_some]
      rw [some_bind, some_bind, H.writeD]
      cases d.write ⟨F, S', o, bt⟩ buf with
      | none => rfl
      | some p =>
        obtain ⟨r, d'⟩ := p
        cases r <;> rfl

theorem Hom.flushE {S' : Sink τ} {S : Sink σ} {h : τ → σ} (H : Hom S' S h) (e : Encoder τ) :
    (e.mapSink h).flush ⟨F, S, o, bt⟩ = (e.flush ⟨F, S', o, bt⟩).map (onSnd (·.mapSink h)) := by
  cases e with
  | deflate d =>
    unfold Encoder.flush Encoder.mapSink
    dsimp only
    rw [H.flushD]
    cases d.flush ⟨F, S', o, bt⟩ <;> rfl
  | gzip g =>
    obtain ⟨d, crc, sz⟩ := g
    unfold Encoder.flush Encoder.mapSink GzipEncoder.flush
    cases d with
    | none => rfl
    | some d =>
      dsimp only [Option.map_some]
      rw [some_bind, some_bind, H.flushD]
      cases d.flush ⟨F, S', o, bt⟩ <;> rfl
  | zlib g =>
    obtain ⟨d, ad⟩ := g
    unfold Encoder.flush Encoder.mapSink ZlibEncoder.flush
    cases d with
    | none => rfl
    | some d =>
      dsimp only [Option.map_some]
      rw [some_bind, some_bind, H.flushD]
      cases d.flush ⟨F, S', o, bt⟩ <;> rfl

theorem WHom.gzipFinish {S' : Sink τ} {S : Sink σ} {h : τ → σ} (H : WHom S' S h) (d d' : Option (DeflateEncoder τ)) (d0 : DeflateEncoder τ) (crc sz : UInt32) :
    GzipEncoder.finishInner ⟨F, S, o, bt⟩ ⟨d'.map (·.mapSink h), crc, sz⟩ (d0.mapSink h) =
      (GzipEncoder.finishInner ⟨F, S', o, bt⟩ ⟨d, crc, sz⟩ d0).map (onSnd h) := by
  unfold GzipEncoder.finishInner
  rw [H.finish]
  cases d0.finish ⟨F, S', o, bt⟩ with
  | none => rfl
  | some p =>
    obtain ⟨r, t⟩ := p
    rw [Option.map_some, some_bind, some_bind]
    cases r with
    | error k => rfl
    | ok u =>
      dsimp only [onSnd]
      rw [H.writeAll]
      cases S'.writeAll t (toLeBytes (crcFinalize crc)) with
      | none => rfl
      | some p =>
        obtain ⟨r, t⟩ := p
        rw [Option.map_some, some_bind, some_bind]
        cases r with
        | error k => rfl
        | ok u =>
          dsimp only [onSnd]
          exact H.writeAll _ _

theorem WHom.zlibFinish {S' : Sink τ} {S : Sink σ} {h : τ → σ} (H : WHom S' S h) (d d' : Option (DeflateEncoder τ)) (d0 : DeflateEncoder τ) (ad : Adler) :
    ZlibEncoder.finishInner ⟨F, S, o, bt⟩ ⟨d'.map (·.mapSink h), ad⟩ (d0.mapSink h) =
      (ZlibEncoder.finishInner ⟨F, S', o, bt⟩ ⟨d, ad⟩ d0).map (onSnd h) := by
  unfold ZlibEncoder.finishInner
  rw [H.finish]
  cases d0.finish ⟨F, S', o, bt⟩ with
  | none => rfl
  | some p =>
    obtain ⟨r, t⟩ := p
    rw [Option.map_some, some_bind, some_bind]
    cases r with
    | error k => rfl
    | ok u =>
      dsimp only [onSnd]
      exact H.writeAll _ _

theorem WHom.finishE {S' : Sink τ} {S : Sink σ} {h : τ → σ} (H : WHom S' S h) (e : Encoder τ) :
    (e.mapSink h).finish ⟨F, S, o, bt⟩ = (e.finish ⟨F, S', o, bt⟩).map (onSnd h) := by
  cases e with
  | deflate d => exact H.finish d
  | gzip g =>
    obtain ⟨d, crc, sz⟩ := g
    cases d with
    | none => rfl
    | some d => exact H.gzipFinish (some d) (some d) d crc sz
  | zlib g =>
    obtain ⟨d, ad⟩ := g
    cases d with
    | none => rfl
    | some d => exact H.zlibFinish (some d) (some d) d ad

theorem WHom.dropE {S' : Sink τ} {S : Sink σ} {h : τ → σ} (H : WHom S' S h) (e : Encoder τ) :
    (e.mapSink h).drop ⟨F, S, o, bt⟩ = (e.drop ⟨F, S', o, bt⟩).map h := by
  cases e with
  | deflate d => exact H.drop d
  | gzip g =>
    obtain ⟨d, crc, sz⟩ := g
    cases d with
    | none => rfl
    | some d =>
      show (GzipEncoder.finishInner ⟨F, S, o, bt⟩ _ (d.mapSink h) >>= _) = _
      have := H.gzipFinish (F := F) (o := o) (bt := bt) (some d) (some d) d crc sz
      rw [Option.map_some] at this
      dsimp only [Option.map_some]
      rw [this]
      simp only [Encoder.drop, GzipEncoder.drop, some_bind]
      cases GzipEncoder.finishInner ⟨F, S', o, bt⟩ ⟨some d, crc, sz⟩ d <;> rfl
  | zlib g =>
    obtain ⟨d, ad⟩ := g
    cases d with
    | none => rfl
    | some d =>
      show (ZlibEncoder.finishInner ⟨F, S, o, bt⟩ _ (d.mapSink h) >>= _) = _
      have := H.zlibFinish (F := F) (o := o) (bt := bt) (some d) (some d) d ad
      rw [Option.map_some] at this
      dsimp only [Option.map_some]
      rw [this]
      simp only [Encoder.drop, ZlibEncoder.drop, some_bind]
      cases ZlibEncoder.finishInner ⟨F, S', o, bt⟩ ⟨some d, ad⟩ d <;> rfl

theorem Hom.run {S' : Sink τ} {S : Sink σ} {h : τ → σ} (H : Hom S' S h) : ∀ (calls : List Call) (e : Encoder τ),
    (e.mapSink h).run ⟨F, S, o, bt⟩ calls = (e.run ⟨F, S', o, bt⟩ calls).map (onSnd (·.mapSink h))
  | [], e => rfl
  | .flush :: l, e => by
    rw [Encoder.run, Encoder.run, H.flushE]
    cases e.flush ⟨F, S', o, bt⟩ with
    | none => rfl
    | some p =>
      obtain ⟨r, e'⟩ := p
      cases r with
      | error k => rfl
      | ok u => exact H.run l e'
  | .write buf :: l, e => by
    rw [Encoder.run, Encoder.run, H.writeE]
    cases e.write ⟨F, S', o, bt⟩ buf with
    | none => rfl
    | some p =>
      obtain ⟨r, e'⟩ := p
      cases r with
      | error k => rfl
      | ok u => exact H.run l e'

theorem Hom.session {S' : Sink τ} {S : Sink σ} {h : τ → σ} (H : Hom S' S h) (fmt : Format) (calls : List Call) (ending : Ending) (t : τ) :
    session ⟨F, S, o, bt⟩ fmt calls ending (h t) = (session ⟨F, S', o, bt⟩ fmt calls ending t).map (onSnd h) := by
  unfold Zopfli.session
  rw [H.newE]
  cases Encoder.new ⟨F, S', o, bt⟩ fmt t with
  | none => rfl
  | some p =>
    obtain ⟨r, t'⟩ := p
    rw [Option.map_some, some_bind, some_bind]
    cases r with
    | error k => rfl
    | ok e =>
      dsimp only [Except.map]
      rw [H.run]
      cases e.run ⟨F, S', o, bt⟩ calls with
      | none => rfl
      | some p =>
        obtain ⟨r, e'⟩ := p
        rw [Option.map_some, some_bind, some_bind]
        cases r with
        | error k =>
          dsimp only [onSnd]
          rw [H.dropE]
          cases e'.drop ⟨F, S', o, bt⟩ <;> rfl
        | ok u =>
          dsimp only [onSnd]
          cases ending with
          | finish => exact H.finishE e'
          | drop =>
            dsimp only
            rw [H.dropE]
            cases e'.drop ⟨F, S', o, bt⟩ <;> rfl

/-! ## `compress` -/

/-- Apply a map to the encoder of a result. -/
def onMid {α β γ δ : Type} (f : β → δ) : α × β × γ → α × δ × γ := fun p => (p.1, f p.2.1, p.2.2)

theorem WHom.flushBuf {S' : Sink τ} {S : Sink σ} {h : τ → σ} (H : WHom S' S h) (e : Encoder τ) (buf : List UInt8) :
    flushBuf ⟨F, S, o, bt⟩ (e.mapSink h) buf = (flushBuf ⟨F, S', o, bt⟩ e buf).map (onMid (·.mapSink h)) := by
  have h1 := flushBuf.partial_correctness (env := ⟨F, S', o, bt⟩) (motive := fun e buf r =>
      Zopfli.flushBuf ⟨F, S, o, bt⟩ (e.mapSink h) buf = some (onMid (·.mapSink h) r)) (by
    intro f ih e buf r hr
    rw [Zopfli.flushBuf]
    split at hr
    · rename_i hb; cases hr; rw [if_pos hb]; rfl
    · rename_i hb
      rw [if_neg hb, H.writeE]
      cases hw : e.write ⟨F, S', o, bt⟩ buf with
      | none => rw [hw] at hr; cases hr
      | some p =>
        obtain ⟨q, e'⟩ := p
        rw [hw, some_bind] at hr
        rw [Option.map_some, some_bind]
        dsimp only [onSnd] at hr ⊢
        rcases q with k | n
        · cases k with
          | interrupted => exact ih _ _ _ hr
          | writeZero => cases hr; rfl
          | other n => cases hr; rfl
        · cases n with
          | zero => cases hr; rfl
          | succ n => exact ih _ _ _ hr)
  have h2 := flushBuf.partial_correctness (env := ⟨F, S, o, bt⟩) (motive := fun d buf r => ∀ e : Encoder τ, e.mapSink h = d → ∃ r',
      Zopfli.flushBuf ⟨F, S', o, bt⟩ e buf = some r') (by
    intro f ih d buf r hr e he
    subst he
    rw [Zopfli.flushBuf]
    split at hr
    · rename_i hb; rw [if_pos hb]; exact ⟨_, rfl⟩
    · rename_i hb
      rw [if_neg hb]
      rw [H.writeE] at hr
      cases hw : e.write ⟨F, S', o, bt⟩ buf with
      | none => rw [hw] at hr; cases hr
      | some p =>
        obtain ⟨q, e'⟩ := p
        rw [hw, Option.map_some, some_bind] at hr
        rw [some_bind]
        dsimp only [onSnd] at hr ⊢
        rcases q with k | n
        · cases k with
          | interrupted => exact ih _ _ _ hr e' rfl
          | writeZero => exact ⟨_, rfl⟩
          | other n => exact ⟨_, rfl⟩
        · cases n with
          | zero => exact ⟨_, rfl⟩
          | succ n => exact ih _ _ _ hr e' rfl)
  cases hx : Zopfli.flushBuf ⟨F, S', o, bt⟩ e buf with
  | some r => rw [h1 e buf r hx]; rfl
  | none =>
    cases hy : Zopfli.flushBuf ⟨F, S, o, bt⟩ (e.mapSink h) buf with
    | none => rfl
    | some r =>
      obtain ⟨r', e'⟩ := h2 _ buf r hy e rfl
      rw [hx] at e'
      cases e'

theorem WHom.copyLoop {S' : Sink τ} {S : Sink σ} {h : τ → σ} (H : WHom S' S h) (R : Reader ρ) (r : ρ) (e : Encoder τ) (buf : List UInt8) :
    copyLoop ⟨F, S, o, bt⟩ R r (e.mapSink h) buf = (copyLoop ⟨F, S', o, bt⟩ R r e buf).map (onMid (·.mapSink h)) := by
  have h1 := copyLoop.partial_correctness (env := ⟨F, S', o, bt⟩) (R := R) (motive := fun r e buf x =>
      Zopfli.copyLoop ⟨F, S, o, bt⟩ R r (e.mapSink h) buf = some (onMid (·.mapSink h) x)) (by
    intro f ih r e buf x hr
    rw [Zopfli.copyLoop]
    dsimp only at hr ⊢
    split at hr
    · rename_i hroom
      rw [if_pos hroom]
      split at hr <;> rename_i hq
      · cases hr; rfl
      · split at hr
        · rename_i hl; rw [if_pos hl]; exact ih _ _ _ _ hr
        · cases hr
      · exact ih _ _ _ _ hr
      · rename_i k r' hk
        cases hr
        cases k with
        | interrupted => exact absurd rfl hk
        | writeZero => rfl
        | other n => rfl
    · rename_i hroom
      rw [if_neg hroom, H.flushBuf]
      split at hr <;> rename_i hq
      · cases hr
      · rw [hq]; cases hr; rfl
      · rw [hq]; exact ih _ _ _ _ hr)
  have h2 := copyLoop.partial_correctness (env := ⟨F, S, o, bt⟩) (R := R) (motive := fun r d buf x => ∀ e : Encoder τ, e.mapSink h = d → ∃ x',
      Zopfli.copyLoop ⟨F, S', o, bt⟩ R r e buf = some x') (by
    intro f ih r d buf x hr e he
    subst he
    rw [Zopfli.copyLoop]
    dsimp only at hr ⊢
    split at hr
    · rename_i hroom
      rw [if_pos hroom]
      split at hr <;> rename_i hq
      · exact ⟨_, rfl⟩
      · split at hr
        · rename_i hl; rw [if_pos hl]; exact ih _ _ _ _ hr e rfl
        · cases hr
      · exact ih _ _ _ _ hr e rfl
      · rename_i k r' hk
        cases k with
        | interrupted => exact absurd rfl hk
        | writeZero => exact ⟨_, rfl⟩
        | other n => exact ⟨_, rfl⟩
    · rename_i hroom
      rw [if_neg hroom]
      rw [H.flushBuf] at hr
      cases hq : Zopfli.flushBuf ⟨F, S', o, bt⟩ e buf with
      | none => rw [hq] at hr; cases hr
      | some p =>
        obtain ⟨q, e', b'⟩ := p
        rw [hq] at hr
        cases q with
        | error k => exact ⟨_, rfl⟩
        | ok u => exact ih _ _ _ _ hr e' rfl)
  cases hx : Zopfli.copyLoop ⟨F, S', o, bt⟩ R r e buf with
  | some x => rw [h1 r e buf x hx]; rfl
  | none =>
    cases hy : Zopfli.copyLoop ⟨F, S, o, bt⟩ R r (e.mapSink h) buf with
    | none => rfl
    | some x =>
      obtain ⟨x', e'⟩ := h2 r _ buf x hy e rfl
      rw [hx] at e'
      cases e'

theorem WHom.dropBuffered {S' : Sink τ} {S : Sink σ} {h : τ → σ} (H : WHom S' S h) (e : Encoder τ) (buf : List UInt8) :
    dropBuffered ⟨F, S, o, bt⟩ (e.mapSink h) buf = (dropBuffered ⟨F, S', o, bt⟩ e buf).map h := by
  unfold Zopfli.dropBuffered
  rw [H.flushBuf]
  cases Zopfli.flushBuf ⟨F, S', o, bt⟩ e buf with
  | none => rfl
  | some p => exact H.dropE p.2.1

theorem WHom.compress {S' : Sink τ} {S : Sink σ} {h : τ → σ} (H : WHom S' S h) (R : Reader ρ) (fmt : Format) (r : ρ) (t : τ) :
    compress F S R o fmt r (h t) = (compress F S' R o fmt r t).map (onSnd h) := by
  unfold Zopfli.compress
  dsimp only
  rw [H.newE]
  cases Encoder.new ⟨F, S', o, .dynamic⟩ fmt t with
  | none => rfl
  | some p =>
    obtain ⟨q, t'⟩ := p
    rw [Option.map_some, some_bind, some_bind]
    cases q with
    | error k => rfl
    | ok e =>
      dsimp only [Except.map]
      rw [H.copyLoop]
      cases Zopfli.copyLoop ⟨F, S', o, .dynamic⟩ R r e [] with
      | none => rfl
      | some p =>
        obtain ⟨q, e', buf⟩ := p
        rw [Option.map_some, some_bind, some_bind]
        cases q with
        | error k =>
          dsimp only [onMid]
          rw [H.dropBuffered]
          cases Zopfli.dropBuffered ⟨F, S', o, .dynamic⟩ e' buf <;> rfl
        | ok u =>
          dsimp only [onMid]
          rw [H.flushBuf]
          cases Zopfli.flushBuf ⟨F, S', o, .dynamic⟩ e' buf with
          | none => rfl
          | some p =>
            obtain ⟨q, e2, buf2⟩ := p
            rw [Option.map_some, some_bind, some_bind]
            cases q with
            | error k =>
              dsimp only [onMid]
              rw [H.dropBuffered]
              cases Zopfli.dropBuffered ⟨F, S', o, .dynamic⟩ e2 buf2 <;> rfl
            | ok u => exact H.finishE e2

/-! ## The spy -/

theorem spy_hom (S : Sink σ) : Hom (spy S) S Spy.sink where
  wr t b := by
    simp only [spy]
    refine Prod.ext rfl ?_
    dsimp only
    split
    · rfl
    · split
      · split <;> rfl
      · rfl
      · rfl
  fl t := by
    simp only [spy]
    refine Prod.ext rfl ?_
    dsimp only
    split
    · rfl
    · split <;> rfl

theorem spy_recorded (S : Sink σ) : Recorded (spy S) Spy.log Spy.failed where
  write_ok s buf n s' hs hw hn := by
    simp only [spy, hs] at hw
    obtain ⟨hr, hw⟩ := Prod.mk.inj hw
    rw [hr] at hw
    dsimp only at hw
    rw [if_neg (by rintro ⟨h1, h2⟩; rcases hn with hn | hn; exacts [hn h1, h2 hn])] at hw
    subst hw
    exact ⟨rfl, rfl⟩
  write_zero s buf s' hs hb hw := by
    simp only [spy, hs] at hw
    obtain ⟨hr, hw⟩ := Prod.mk.inj hw
    rw [hr] at hw
    dsimp only at hw
    rw [if_pos ⟨rfl, hb⟩] at hw
    subst hw
    exact ⟨rfl, rfl⟩
  write_interrupted s buf s' hs hw := by
    simp only [spy, hs] at hw
    obtain ⟨hr, hw⟩ := Prod.mk.inj hw
    rw [hr] at hw
    dsimp only at hw
    subst hw
    exact ⟨rfl, rfl⟩
  write_error s buf k s' hs hk hw := by
    simp only [spy, hs] at hw
    obtain ⟨hr, hw⟩ := Prod.mk.inj hw
    rw [hr] at hw
    subst hw
    cases k with
    | interrupted => exact absurd rfl hk
    | writeZero => exact ⟨rfl, rfl⟩
    | other n => exact ⟨rfl, rfl⟩
  flush_ok s s' hs hw := by
    simp only [spy, hs] at hw
    obtain ⟨hr, hw⟩ := Prod.mk.inj hw
    rw [hr] at hw
    dsimp only at hw
    subst hw
    exact ⟨rfl, rfl⟩
  flush_error s k s' hs hw := by
    simp only [spy, hs] at hw
    obtain ⟨hr, hw⟩ := Prod.mk.inj hw
    rw [hr] at hw
    dsimp only at hw
    subst hw
    exact ⟨rfl, rfl⟩
  write_after s buf k hs := by
    simp only [spy, hs]
    exact ⟨trivial, trivial⟩
  flush_after s k hs := by
    simp only [spy, hs]
    exact ⟨trivial, trivial⟩

end Zopfli
