import Verif.Proofs.WordsPart
import Verif.Proofs.Hom
import Verif.Proofs.Buffered
import Verif.Model.WordsEncoder
/-! # The encoders do the same for every word size that is large enough (release build) -/

namespace Zopfli.Words

variable {σ ρ : Type}

attribute [local instance] releaseBuild

theorem usize_release (W x : Nat) : usize W x = some (x % 2 ^ W) := by
  unfold usize
  split
  · rename_i h; rw [Nat.mod_eq_of_lt h]
  · rw [if_neg (fun h => by cases h)]

/-! ## Writing bits -/

/-- The writer with a counter of `W` bits. -/
def wrapW (W : Nat) (w : BitwiseWriter σ) : BitwiseWriter σ := ⟨w.bit, w.bp, w.len % 2 ^ W, w.out⟩

theorem addBytes_wrap (W : Nat) (S : Sink σ) (w : BitwiseWriter σ) (l : List UInt8) :
    addBytes W S (wrapW W w) l = (w.addBytes S l).map (onSnd (wrapW W)) := by
  unfold addBytes BitwiseWriter.addBytes
  rw [usize_release, some_bind]
  show (S.writeAll w.out l >>= _) = _
  cases S.writeAll w.out l with
  | none => rfl
  | some p =>
    simp only [some_bind, wrapW, Nat.mod_add_mod]
    rfl

theorem finishPartialBits_wrap (W : Nat) (S : Sink σ) (w : BitwiseWriter σ) :
    finishPartialBits W S (wrapW W w) = (w.finishPartialBits S).map (onSnd (wrapW W)) := by
  unfold finishPartialBits BitwiseWriter.finishPartialBits
  show (if w.bp ≠ 0 then addBytes W S (wrapW W w) [w.bit] >>= _ else _) = _
  by_cases hb : w.bp ≠ 0
  · rw [if_pos hb, if_pos hb, addBytes_wrap]
    cases w.addBytes S [w.bit] with
    | none => rfl
    | some p =>
      obtain ⟨r, w'⟩ := p
      cases r <;> rfl
  · rw [if_neg hb, if_neg hb]
    rfl

theorem exec_wrap (W : Nat) (S : Sink σ) (w : BitwiseWriter σ) (op : WOp) :
    exec W S (wrapW W w) op = (w.exec S op).map (onSnd (wrapW W)) := by
  cases op with
  | bit b =>
    show addBit W S (wrapW W w) b = (w.addBit S b).map _
    unfold addBit BitwiseWriter.addBit
    dsimp only
    by_cases hc : Checks.on = true ∧ 8 ≤ w.bp
    · rw [if_pos hc, if_pos (show Checks.on = true ∧ 8 ≤ (wrapW W w).bp from hc)]
      rfl
    rw [if_neg hc, if_neg (show ¬ (Checks.on = true ∧ 8 ≤ (wrapW W w).bp) from hc)]
    have := finishPartialBits_wrap W S { w with bit := w.bit ||| ((if b then 1 else 0) <<< w.bp), bp := w.bp + 1 }
    by_cases hb : w.bp + 1 = 8
    · rw [if_pos hb, if_pos (show (wrapW W w).bp + 1 = 8 from hb)]
      exact this
    · rw [if_neg hb, if_neg (show ¬ (wrapW W w).bp + 1 = 8 from hb)]
      rfl
  | align => exact finishPartialBits_wrap W S w
  | bytes l => exact addBytes_wrap W S w l

theorem execAll_wrap (W : Nat) (S : Sink σ) : ∀ (ops : List WOp) (w : BitwiseWriter σ),
    execAll W S (wrapW W w) ops = (w.execAll S ops).map (onSnd (wrapW W))
  | [], w => rfl
  | op :: ops, w => by
    rw [execAll, BitwiseWriter.execAll, exec_wrap]
    cases w.exec S op with
    | none => rfl
    | some p =>
      obtain ⟨r, w'⟩ := p
      cases r with
      | ok u => exact execAll_wrap W S ops w'
      | error e => rfl

/-! ## The encoder of deflate -/

/-- The encoder with a counter of `W` bits. -/
def wrapD (W : Nat) (e : DeflateEncoder σ) : DeflateEncoder σ := { e with bitwiseWriter := e.bitwiseWriter.map (wrapW W) }

/-- At most `N` bytes are waiting to be compressed, with at most 32768 bytes before them. -/
structure Holds (N : Nat) (e : DeflateEncoder σ) : Prop where
  le : e.chunkStart ≤ e.windowAndChunk.size
  window : e.chunkStart ≤ 32768
  chunk : e.windowAndChunk.size ≤ e.chunkStart + N

theorem Holds.new (N : Nat) (s : σ) : Holds N (DeflateEncoder.new s) := ⟨Nat.le_refl _, Nat.zero_le _, Nat.zero_le _⟩

theorem Holds.setChunk {N : Nat} (e : DeflateEncoder σ) {buf : List UInt8} (h : buf.length ≤ N) : Holds N (e.setChunk buf) := by
  have h1 : (e.windowAndChunk.extract (e.windowAndChunk.size - WINDOW_SIZE) e.windowAndChunk.size).size ≤ 32768 := by
    rw [Array.size_extract]
    unfold WINDOW_SIZE
    omega
  unfold DeflateEncoder.setChunk
  generalize e.windowAndChunk.extract (e.windowAndChunk.size - WINDOW_SIZE) e.windowAndChunk.size = w at h1
  constructor
  · dsimp only
    rw [Array.size_append]
    exact Nat.le_add_right _ _
  · exact h1
  · dsimp only
    rw [Array.size_append]
    exact Nat.add_le_add_left h _

/-- The size of a write for which words of `W` bits suffice. -/
structure Room {F : FloatOps} (W N : Nat) (L : FloatLaws F) : Prop where
  small : Small W N
  lim : 32768 + N < 2 * L.lim

theorem Room.pos {F : FloatOps} {W N : Nat} {L : FloatLaws F} (h : Room W N L) : 32768 + N < 2 ^ W := by
  have h1 := h.small.word
  have h2 : 32768 + N ≤ 604 * (N + 290) := by clear h h1; omega
  exact Nat.lt_of_le_of_lt h2 h1

variable {W N : Nat} {env : Env σ} {L : FloatLaws env.F}

theorem compressChunk_wrap (hR : Room W N L) {e : DeflateEncoder σ} (hg : Holds N e) (last : Bool) :
    compressChunk W env (wrapD W e) last = (e.compressChunk env last).map (onSnd (wrapD W)) := by
  obtain ⟨hc, cs, wac, w⟩ := e
  obtain ⟨h1, h2, h3⟩ := hg
  dsimp only at h1 h2 h3
  unfold compressChunk DeflateEncoder.compressChunk
  cases w with
  | none => rfl
  | some w =>
    have hsz : wac.size ≤ 32768 + N := by omega
    dsimp only [wrapD, Option.map_some]
    rw [some_bind, some_bind, deflatePart_words releaseBuild L env.options env.btype last h1 (Nat.le_refl _) (Nat.lt_of_le_of_lt hsz hR.lim)
      (Nat.lt_of_le_of_lt hsz hR.pos) (hR.small.mono (by omega))]
    cases Zopfli.deflatePart env.F env.options env.btype last wac cs wac.size with
    | none => rfl
    | some ops =>
      rw [some_bind, some_bind, execAll_wrap]
      cases w.execAll env.S ops <;> rfl

theorem compressChunk_holds {e e' : DeflateEncoder σ} {last : Bool} {r : Except ErrKind Unit} (h : e.compressChunk env last = some (r, e'))
    (hg : Holds N e) : Holds N e' := by
  obtain ⟨hc, cs, wac, w⟩ := e
  unfold DeflateEncoder.compressChunk at h
  cases w with
  | none => cases h
  | some w =>
    rw [some_bind] at h
    dsimp only at h
    cases hd : Zopfli.deflatePart env.F env.options env.btype last wac cs wac.size with
    | none => rw [hd] at h; cases h
    | some ops =>
      rw [hd, some_bind] at h
      cases hx : w.execAll env.S ops with
      | none => rw [hx] at h; cases h
      | some p =>
        rw [hx] at h
        cases h
        exact ⟨hg.le, hg.window, hg.chunk⟩

theorem deflateFinishInner_wrap (hR : Room W N L) {e : DeflateEncoder σ} (hg : Holds N e) :
    deflateFinishInner W env (wrapD W e) = (e.finishInner env).map fun x => (x.1, wrapD W x.2.1, x.2.2) := by
  have hc := compressChunk_wrap hR hg true
  obtain ⟨hc, cs, wac, w⟩ := e
  unfold deflateFinishInner DeflateEncoder.finishInner
  cases w with
  | none => rfl
  | some w =>
    show (compressChunk W env (wrapD W ⟨_, cs, wac, some w⟩) true >>= _) = _
    rw [hc]
    dsimp only
    cases DeflateEncoder.compressChunk env ⟨_, cs, wac, some w⟩ true with
    | none => rfl
    | some p =>
      obtain ⟨r, e'⟩ := p
      obtain ⟨hc', cs', wac', w'⟩ := e'
      rw [Option.map_some, some_bind, some_bind]
      cases r with
      | error k =>
        cases w' <;> rfl
      | ok u =>
        cases w' with
        | none => rfl
        | some w' =>
          dsimp only [onSnd, wrapD, Option.map_some]
          rw [some_bind, some_bind, finishPartialBits_wrap]
          cases w'.finishPartialBits env.S with
          | none => rfl
          | some p =>
            obtain ⟨r, w2⟩ := p
            cases r <;> rfl

theorem finishInner_holds {e e' : DeflateEncoder σ} {r : Except ErrKind (Option σ)} {s : Option σ} (h : e.finishInner env = some (r, e', s))
    (hg : Holds N e) : Holds N e' := by
  unfold DeflateEncoder.finishInner at h
  split at h
  · cases h
    exact hg
  · cases hx : e.compressChunk env true with
    | none => rw [hx] at h; cases h
    | some p =>
      obtain ⟨r1, e1⟩ := p
      have g1 := compressChunk_holds hx hg
      rw [hx, some_bind] at h
      dsimp only at h
      cases r1 with
      | error k => cases h; exact g1
      | ok u =>
        dsimp only at h
        cases hw : e1.bitwiseWriter with
        | none => rw [hw] at h; cases h
        | some w =>
          rw [hw, some_bind] at h
          cases hp : w.finishPartialBits env.S with
          | none => rw [hp] at h; cases h
          | some p =>
            obtain ⟨r2, w2⟩ := p
            rw [hp, some_bind] at h
            cases r2 <;> (cases h; exact ⟨g1.le, g1.window, g1.chunk⟩)

theorem deflateDropWith_wrap (hR : Room W N L) {e : DeflateEncoder σ} (hg : Holds N e) (s : σ) :
    deflateDropWith W env (wrapD W e) s = e.dropWith env s := by
  unfold deflateDropWith DeflateEncoder.dropWith
  rw [deflateFinishInner_wrap hR hg]
  cases e.finishInner env with
  | none => rfl
  | some p => rfl

theorem deflateDrop_wrap (hR : Room W N L) {e : DeflateEncoder σ} (hg : Holds N e) : deflateDrop W env (wrapD W e) = e.drop env := by
  have hd := deflateDropWith_wrap hR hg
  obtain ⟨hc, cs, wac, w⟩ := e
  unfold deflateDrop DeflateEncoder.drop
  cases w with
  | none => rfl
  | some w => exact hd w.out

theorem deflateFinish_wrap (hR : Room W N L) {e : DeflateEncoder σ} (hg : Holds N e) : deflateFinish W env (wrapD W e) = e.finish env := by
  unfold deflateFinish DeflateEncoder.finish
  rw [deflateFinishInner_wrap hR hg]
  cases hx : e.finishInner env with
  | none => rfl
  | some p =>
    obtain ⟨r, e', so⟩ := p
    have hg' := finishInner_holds hx hg
    rw [Option.map_some, some_bind, some_bind]
    rcases r with k | (_ | s)
    · cases so with
      | none => rfl
      | some t =>
        dsimp only
        rw [some_bind, some_bind, deflateDropWith_wrap hR hg']
    · rfl
    · cases so with
      | none => rfl
      | some t =>
        dsimp only
        rw [some_bind, some_bind, deflateDropWith_wrap hR hg']

theorem setChunk_wrap (W : Nat) (e : DeflateEncoder σ) (buf : List UInt8) : (wrapD W e).setChunk buf = wrapD W (e.setChunk buf) := by
  unfold DeflateEncoder.setChunk wrapD
  dsimp only

theorem deflateWrite_wrap (hR : Room W N L) {e : DeflateEncoder σ} (hg : Holds N e) (buf : List UInt8) :
    deflateWrite W env (wrapD W e) buf = (e.write env buf).map (onSnd (wrapD W)) := by
  unfold deflateWrite DeflateEncoder.write
  rw [compressChunk_wrap hR hg]
  show (if e.haveChunk then _ else _) >>= _ = _
  by_cases hc : e.haveChunk = true
  · rw [if_pos hc, if_pos hc]
    cases e.compressChunk env false with
    | none => rfl
    | some p =>
      obtain ⟨r, e'⟩ := p
      cases r with
      | error k => rfl
      | ok u => exact congrArg (fun x => some (Except.ok buf.length, x)) (setChunk_wrap W e' buf)
  · rw [if_neg hc, if_neg hc]
    exact congrArg (fun x => some (Except.ok buf.length, x)) (setChunk_wrap W e buf)

theorem deflateWrite_holds {e e' : DeflateEncoder σ} {buf : List UInt8} {r : Except ErrKind Nat} (h : e.write env buf = some (r, e'))
    (hb : buf.length ≤ N) (hg : Holds N e) : Holds N e' := by
  unfold DeflateEncoder.write at h
  by_cases hc : e.haveChunk = true
  · rw [if_pos hc] at h
    cases hx : e.compressChunk env false with
    | none => rw [hx] at h; cases h
    | some p =>
      obtain ⟨r, e1⟩ := p
      rw [hx, some_bind] at h
      cases r with
      | error k => cases h; exact compressChunk_holds hx hg
      | ok u => cases h; exact Holds.setChunk e1 hb
  · rw [if_neg hc, some_bind] at h
    cases h
    exact Holds.setChunk e hb

theorem deflateFlush_wrap (W : Nat) (env : Env σ) (e : DeflateEncoder σ) : (wrapD W e).flush env = (e.flush env).map (onSnd (wrapD W)) := by
  obtain ⟨hc, cs, wac, w⟩ := e
  unfold DeflateEncoder.flush
  cases w <;> rfl

theorem deflateFlush_holds {e e' : DeflateEncoder σ} {r : Except ErrKind Unit} (h : e.flush env = some (r, e')) (hg : Holds N e) : Holds N e' := by
  obtain ⟨hc, cs, wac, w⟩ := e
  unfold DeflateEncoder.flush at h
  cases w with
  | none => cases h
  | some w => cases h; exact ⟨hg.le, hg.window, hg.chunk⟩

/-! ## Every format -/

/-- The encoder with a counter of `W` bits. -/
def wrapE (W : Nat) : Encoder σ → Encoder σ
  | .gzip e => .gzip ⟨e.deflate.map (wrapD W), e.crc, e.inputSize⟩
  | .zlib e => .zlib ⟨e.deflate.map (wrapD W), e.adler⟩
  | .deflate e => .deflate (wrapD W e)

/-- At most `N` bytes are waiting to be compressed. -/
def HoldsE (N : Nat) : Encoder σ → Prop
  | .gzip e => ∀ d, e.deflate = some d → Holds N d
  | .zlib e => ∀ d, e.deflate = some d → Holds N d
  | .deflate e => Holds N e

theorem new_wrap (W N : Nat) {env : Env σ} {fmt : Format} {s s' : σ} {e : Encoder σ} (h : Encoder.new env fmt s = some (.ok e, s')) :
    wrapE W e = e ∧ HoldsE N e := by
  have key : ∀ s : σ, wrapD W (DeflateEncoder.new s) = DeflateEncoder.new s := by
    intro s
    simp [wrapD, DeflateEncoder.new, wrapW, BitwiseWriter.new]
  unfold Encoder.new at h
  cases fmt with
  | deflate => cases h; exact ⟨congrArg Encoder.deflate (key s), Holds.new N s⟩
  | gzip =>
    dsimp only at h
    unfold GzipEncoder.new at h
    cases hw : env.S.writeAll s gzipHeader with
    | none => rw [hw] at h; cases h
    | some p =>
      obtain ⟨r, t⟩ := p
      rw [hw, some_bind] at h
      cases r with
      | error k => cases h
      | ok u =>
        cases h
        refine ⟨?_, ?_⟩
        · simp only [wrapE, Option.map_some, key]
        · rintro d hd
          cases hd
          exact Holds.new N t
  | zlib =>
    dsimp only at h
    unfold ZlibEncoder.new at h
    cases hw : env.S.writeAll s zlibHeader with
    | none => rw [hw] at h; cases h
    | some p =>
      obtain ⟨r, t⟩ := p
      rw [hw, some_bind] at h
      cases r with
      | error k => cases h
      | ok u =>
        cases h
        refine ⟨?_, ?_⟩
        · simp only [wrapE, Option.map_some, key]
        · rintro d hd
          cases hd
          exact Holds.new N t

theorem write_wrap (hR : Room W N L) {e : Encoder σ} (hg : HoldsE N e) (buf : List UInt8) :
    write W env (wrapE W e) buf = (e.write env buf).map (onSnd (wrapE W)) := by
  cases e with
  | deflate d =>
    unfold write Encoder.write wrapE
    dsimp only
    rw [deflateWrite_wrap hR hg]
    cases d.write env buf <;> rfl
  | gzip g =>
    obtain ⟨d, crc, sz⟩ := g
    unfold write Encoder.write wrapE gzipWrite GzipEncoder.write
    cases d with
    | none => rfl
    | some d =>
      dsimp only [Option.map_some]
      rw [some_bind, some_bind, deflateWrite_wrap hR (hg d rfl)]
      cases d.write env buf with
      | none => rfl
      | some p =>
        obtain ⟨r, d'⟩ := p
        cases r <;> rfl
  | zlib g =>
    obtain ⟨d, ad⟩ := g
    unfold write Encoder.write wrapE zlibWrite ZlibEncoder.write
    cases d with
    | none => rfl
    | some d =>
      dsimp only [Option.map_some]
      rw [some_bind, some_bind, deflateWrite_wrap hR (hg d rfl)]
      cases d.write env buf with
      | none => rfl
      | some p =>
        obtain ⟨r, d'⟩ := p
        cases r <;> rfl

theorem write_holds {e e' : Encoder σ} {buf : List UInt8} {r : Except ErrKind Nat} (h : e.write env buf = some (r, e'))
    (hb : buf.length ≤ N) (hg : HoldsE N e) : HoldsE N e' := by
  cases e with
  | deflate d =>
    unfold Encoder.write at h
    dsimp only at h
    cases hx : d.write env buf with
    | none => rw [hx] at h; cases h
    | some p => rw [hx] at h; cases h; exact deflateWrite_holds hx hb hg
  | gzip g =>
    obtain ⟨d, crc, sz⟩ := g
    unfold Encoder.write GzipEncoder.write at h
    cases d with
    | none => cases h
    | some d =>
      dsimp only at h
      rw [some_bind] at h
      cases hx : d.write env buf with
      | none => rw [hx] at h; cases h
      | some p =>
        obtain ⟨r, d'⟩ := p
        have := deflateWrite_holds hx hb (hg d rfl)
        rw [hx, some_bind] at h
        cases r <;> (cases h; rintro d2 hd2; cases hd2; exact this)
  | zlib g =>
    obtain ⟨d, ad⟩ := g
    unfold Encoder.write ZlibEncoder.write at h
    cases d with
    | none => cases h
    | some d =>
      dsimp only at h
      rw [some_bind] at h
      cases hx : d.write env buf with
      | none => rw [hx] at h; cases h
      | some p =>
        obtain ⟨r, d'⟩ := p
        have := deflateWrite_holds hx hb (hg d rfl)
        rw [hx, some_bind] at h
        cases r <;> (cases h; rintro d2 hd2; cases hd2; exact this)

theorem flush_wrap (W : Nat) (env : Env σ) (e : Encoder σ) : (wrapE W e).flush env = (e.flush env).map (onSnd (wrapE W)) := by
  cases e with
  | deflate d =>
    unfold Encoder.flush wrapE
    dsimp only
    rw [deflateFlush_wrap]
    cases d.flush env <;> rfl
  | gzip g =>
    obtain ⟨d, crc, sz⟩ := g
    unfold Encoder.flush wrapE GzipEncoder.flush
    cases d with
    | none => rfl
    | some d =>
      dsimp only [Option.map_some]
      rw [some_bind, some_bind, deflateFlush_wrap]
      cases d.flush env <;> rfl
  | zlib g =>
    obtain ⟨d, ad⟩ := g
    unfold Encoder.flush wrapE ZlibEncoder.flush
    cases d with
    | none => rfl
    | some d =>
      dsimp only [Option.map_some]
      rw [some_bind, some_bind, deflateFlush_wrap]
      cases d.flush env <;> rfl

theorem flush_holds {e e' : Encoder σ} {r : Except ErrKind Unit} (h : e.flush env = some (r, e')) (hg : HoldsE N e) : HoldsE N e' := by
  cases e with
  | deflate d =>
    unfold Encoder.flush at h
    dsimp only at h
    cases hx : d.flush env with
    | none => rw [hx] at h; cases h
    | some p => rw [hx] at h; cases h; exact deflateFlush_holds hx hg
  | gzip g =>
    obtain ⟨d, crc, sz⟩ := g
    unfold Encoder.flush GzipEncoder.flush at h
    cases d with
    | none => cases h
    | some d =>
      dsimp only at h
      rw [some_bind] at h
      cases hx : d.flush env with
      | none => rw [hx] at h; cases h
      | some p =>
        rw [hx, some_bind] at h
        cases h
        rintro d2 hd2
        cases hd2
        exact deflateFlush_holds hx (hg d rfl)
  | zlib g =>
    obtain ⟨d, ad⟩ := g
    unfold Encoder.flush ZlibEncoder.flush at h
    cases d with
    | none => cases h
    | some d =>
      dsimp only at h
      rw [some_bind] at h
      cases hx : d.flush env with
      | none => rw [hx] at h; cases h
      | some p =>
        rw [hx, some_bind] at h
        cases h
        rintro d2 hd2
        cases hd2
        exact deflateFlush_holds hx (hg d rfl)

theorem finish_wrap (hR : Room W N L) {e : Encoder σ} (hg : HoldsE N e) : finish W env (wrapE W e) = e.finish env := by
  cases e with
  | deflate d => exact deflateFinish_wrap hR hg
  | gzip g =>
    obtain ⟨d, crc, sz⟩ := g
    cases d with
    | none => rfl
    | some d =>
      unfold finish Encoder.finish wrapE gzipFinish GzipEncoder.finish gzipFinishInner GzipEncoder.finishInner
      dsimp only [Option.map_some]
      rw [some_bind, some_bind, deflateFinish_wrap hR (hg d rfl)]
      rfl
  | zlib g =>
    obtain ⟨d, ad⟩ := g
    cases d with
    | none => rfl
    | some d =>
      unfold finish Encoder.finish wrapE zlibFinish ZlibEncoder.finish zlibFinishInner ZlibEncoder.finishInner
      dsimp only [Option.map_some]
      rw [some_bind, some_bind, deflateFinish_wrap hR (hg d rfl)]
      rfl

theorem drop_wrap (hR : Room W N L) {e : Encoder σ} (hg : HoldsE N e) : drop W env (wrapE W e) = e.drop env := by
  cases e with
  | deflate d => exact deflateDrop_wrap hR hg
  | gzip g =>
    obtain ⟨d, crc, sz⟩ := g
    cases d with
    | none => rfl
    | some d =>
      unfold drop Encoder.drop wrapE gzipDrop GzipEncoder.drop gzipFinishInner GzipEncoder.finishInner
      dsimp only [Option.map_some]
      rw [some_bind, some_bind, deflateFinish_wrap hR (hg d rfl)]
      rfl
  | zlib g =>
    obtain ⟨d, ad⟩ := g
    cases d with
    | none => rfl
    | some d =>
      unfold drop Encoder.drop wrapE zlibDrop ZlibEncoder.drop zlibFinishInner ZlibEncoder.finishInner
      dsimp only [Option.map_some]
      rw [some_bind, some_bind, deflateFinish_wrap hR (hg d rfl)]
      rfl

/-! ## Sessions -/

theorem run_wrap (hR : Room W N L) : ∀ (calls : List Call) (e : Encoder σ), HoldsE N e → (∀ b ∈ writesOf calls, b.length ≤ N) →
    run W env calls (wrapE W e) = (e.run env calls).map (onSnd (wrapE W)) ∧ ∀ r e', e.run env calls = some (r, e') → HoldsE N e'
  | [], e, hg, _ => ⟨rfl, fun r e' h => by cases h; exact hg⟩
  | .write buf :: l, e, hg, hb => by
    rw [run, Encoder.run, write_wrap hR hg]
    cases hx : e.write env buf with
    | none => exact ⟨rfl, fun r e' h => by cases h⟩
    | some p =>
      obtain ⟨r, e1⟩ := p
      have g1 := write_holds hx (hb buf (by simp [writesOf])) hg
      rw [Option.map_some, some_bind, some_bind]
      cases r with
      | error k => exact ⟨rfl, fun r e' h => by cases h; exact g1⟩
      | ok n => exact run_wrap hR l e1 g1 fun b h => hb b (by simp [writesOf, h])
  | .flush :: l, e, hg, hb => by
    rw [run, Encoder.run, flush_wrap]
    cases hx : e.flush env with
    | none => exact ⟨rfl, fun r e' h => by cases h⟩
    | some p =>
      obtain ⟨r, e1⟩ := p
      have g1 := flush_holds hx hg
      rw [Option.map_some, some_bind, some_bind]
      cases r with
      | error k => exact ⟨rfl, fun r e' h => by cases h; exact g1⟩
      | ok n => exact run_wrap hR l e1 g1 hb

theorem session_words (hR : Room W N L) (fmt : Format) (calls : List Call) (hb : ∀ b ∈ writesOf calls, b.length ≤ N) (ending : Ending) (s : σ) :
    session W env fmt calls ending s = Zopfli.session env fmt calls ending s := by
  unfold session Zopfli.session
  cases hn : Encoder.new env fmt s with
  | none => rfl
  | some p =>
    obtain ⟨r, s'⟩ := p
    rw [some_bind, some_bind]
    cases r with
    | error k => rfl
    | ok e =>
      obtain ⟨h1, h2⟩ := new_wrap W N hn
      obtain ⟨g1, g2⟩ := run_wrap hR calls e h2 hb
      rw [h1] at g1
      dsimp only
      rw [g1]
      cases hx : e.run env calls with
      | none => rfl
      | some p =>
        obtain ⟨r, e1⟩ := p
        have g3 := g2 r e1 hx
        rw [Option.map_some, some_bind, some_bind]
        dsimp only [onSnd]
        rw [drop_wrap hR g3, finish_wrap hR g3]
        cases r with
        | error k => rfl
        | ok u => cases ending <;> rfl

/-! ## `compress` -/

theorem flushBuf_holds (hR : Room W N L) {e : Encoder σ} (hg : HoldsE N e) {buf : List UInt8} (hb : buf.length ≤ N)
    {r : Except ErrKind Unit × Encoder σ × List UInt8} (h : Zopfli.flushBuf env e buf = some r) :
    flushBuf W env (wrapE W e) buf = some (r.1, wrapE W r.2.1, r.2.2) ∧ HoldsE N r.2.1 ∧ r.2.2.length ≤ buf.length := by
  have := Zopfli.flushBuf.partial_correctness (env := env) (motive := fun e buf r => HoldsE N e → buf.length ≤ N →
      flushBuf W env (wrapE W e) buf = some (r.1, wrapE W r.2.1, r.2.2) ∧ HoldsE N r.2.1 ∧ r.2.2.length ≤ buf.length) (by
    intro f ih e buf r hr hg hb
    rw [flushBuf]
    split at hr
    · rename_i h0; cases hr; rw [if_pos h0]; exact ⟨rfl, hg, by simp⟩
    · rename_i h0
      rw [if_neg h0, write_wrap hR hg]
      cases hx : e.write env buf with
      | none => rw [hx] at hr; cases hr
      | some p =>
        obtain ⟨q, e1⟩ := p
        have g1 := write_holds hx hb hg
        rw [hx, some_bind] at hr
        rw [Option.map_some, some_bind]
        dsimp only [onSnd] at hr ⊢
        rcases q with k | n
        · cases k with
          | interrupted => exact ih _ _ _ hr g1 hb
          | writeZero => cases hr; exact ⟨rfl, g1, Nat.le_refl _⟩
          | other n => cases hr; exact ⟨rfl, g1, Nat.le_refl _⟩
        · cases n with
          | zero => cases hr; exact ⟨rfl, g1, Nat.le_refl _⟩
          | succ n =>
            have hd : (buf.drop (n + 1)).length ≤ buf.length := by rw [List.length_drop]; exact Nat.sub_le _ _
            obtain ⟨a1, a2, a3⟩ := ih _ _ _ hr g1 (Nat.le_trans hd hb)
            exact ⟨a1, a2, Nat.le_trans a3 hd⟩)
  exact this e buf r h hg hb

theorem flushBuf_back (hR : Room W N L) {e : Encoder σ} (hg : HoldsE N e) {buf : List UInt8} (hb : buf.length ≤ N)
    {r : Except ErrKind Unit × Encoder σ × List UInt8} (h : flushBuf W env (wrapE W e) buf = some r) :
    ∃ r', Zopfli.flushBuf env e buf = some r' := by
  have := flushBuf.partial_correctness (W := W) (env := env) (motive := fun e0 buf r => ∀ e, wrapE W e = e0 → HoldsE N e → buf.length ≤ N →
      ∃ r', Zopfli.flushBuf env e buf = some r') (by
    rintro f ih e0 buf r hr e rfl hg hb
    rw [Zopfli.flushBuf]
    split at hr
    · rename_i h0; rw [if_pos h0]; exact ⟨_, rfl⟩
    · rename_i h0
      rw [if_neg h0]
      rw [write_wrap hR hg] at hr
      cases hx : e.write env buf with
      | none => rw [hx] at hr; cases hr
      | some p =>
        obtain ⟨q, e1⟩ := p
        have g1 := write_holds hx hb hg
        rw [hx, Option.map_some, some_bind] at hr
        rw [some_bind]
        dsimp only [onSnd] at hr ⊢
        rcases q with k | n
        · cases k with
          | interrupted => exact ih _ _ _ hr e1 rfl g1 hb
          | writeZero => exact ⟨_, rfl⟩
          | other n => exact ⟨_, rfl⟩
        · cases n with
          | zero => exact ⟨_, rfl⟩
          | succ n =>
            have hd : (buf.drop (n + 1)).length ≤ buf.length := by rw [List.length_drop]; exact Nat.sub_le _ _
            exact ih _ _ _ hr e1 rfl g1 (Nat.le_trans hd hb))
  exact this _ buf r h e rfl hg hb

theorem flushBuf_wrap (hR : Room W N L) {e : Encoder σ} (hg : HoldsE N e) {buf : List UInt8} (hb : buf.length ≤ N) :
    flushBuf W env (wrapE W e) buf = (Zopfli.flushBuf env e buf).map fun r => (r.1, wrapE W r.2.1, r.2.2) := by
  cases hx : Zopfli.flushBuf env e buf with
  | some r => exact (flushBuf_holds hR hg hb hx).1
  | none =>
    cases hy : flushBuf W env (wrapE W e) buf with
    | none => rfl
    | some r =>
      obtain ⟨r', e'⟩ := flushBuf_back hR hg hb hy
      rw [hx] at e'
      cases e'

theorem dropBuffered_wrap (hR : Room W N L) {e : Encoder σ} (hg : HoldsE N e) {buf : List UInt8} (hb : buf.length ≤ N) :
    dropBuffered W env (wrapE W e) buf = Zopfli.dropBuffered env e buf := by
  unfold dropBuffered Zopfli.dropBuffered
  rw [flushBuf_wrap hR hg hb]
  cases hx : Zopfli.flushBuf env e buf with
  | none => rfl
  | some r => exact drop_wrap hR (flushBuf_holds hR hg hb hx).2.1

theorem room_lt {n : Nat} (h : n ≤ MASTER_BLOCK_SIZE) {k : Nat} (hk : k ≤ MASTER_BLOCK_SIZE - n) : n + k ≤ MASTER_BLOCK_SIZE :=
  Nat.add_le_of_le_sub' h hk

theorem copyLoop_holds (hR : Room W N L) (hN : MASTER_BLOCK_SIZE ≤ N) (R : Reader ρ) {r0 : ρ} {e : Encoder σ} (hg : HoldsE N e) {buf : List UInt8}
    (hb : buf.length ≤ MASTER_BLOCK_SIZE) {r : Except ErrKind Unit × Encoder σ × List UInt8} (h : Zopfli.copyLoop env R r0 e buf = some r) :
    copyLoop W env R r0 (wrapE W e) buf = some (r.1, wrapE W r.2.1, r.2.2) ∧ HoldsE N r.2.1 ∧ r.2.2.length ≤ MASTER_BLOCK_SIZE := by
  have := Zopfli.copyLoop.partial_correctness (env := env) (R := R) (motive := fun r0 e buf r => HoldsE N e → buf.length ≤ MASTER_BLOCK_SIZE →
      copyLoop W env R r0 (wrapE W e) buf = some (r.1, wrapE W r.2.1, r.2.2) ∧ HoldsE N r.2.1 ∧ r.2.2.length ≤ MASTER_BLOCK_SIZE) (by
    intro f ih r0 e buf r hr hg hb
    rw [copyLoop]
    dsimp only at hr ⊢
    split at hr
    · rename_i h0
      rw [if_pos h0]
      rcases hq : R.read r0 (MASTER_BLOCK_SIZE - buf.length) with ⟨q, r1⟩
      rw [hq] at hr
      rcases q with k | l
      · cases k with
        | interrupted => exact ih _ _ _ _ hr hg hb
        | writeZero => cases hr; exact ⟨rfl, hg, hb⟩
        | other n => cases hr; exact ⟨rfl, hg, hb⟩
      · cases l with
        | nil => cases hr; exact ⟨rfl, hg, hb⟩
        | cons b bs =>
          dsimp only at hr ⊢
          split at hr
          · rename_i hn
            rw [if_pos hn]
            exact ih _ _ _ _ hr hg (by rw [List.length_append]; exact room_lt hb hn)
          · cases hr
    · rename_i h0
      rw [if_neg h0, flushBuf_wrap hR hg (Nat.le_trans hb hN)]
      cases hx : Zopfli.flushBuf env e buf with
      | none => rw [hx] at hr; cases hr
      | some p =>
        obtain ⟨q, e1, buf1⟩ := p
        obtain ⟨-, g1, g2⟩ := flushBuf_holds hR hg (Nat.le_trans hb hN) hx
        dsimp only at g1 g2
        rw [hx] at hr
        rw [Option.map_some]
        cases q with
        | error k => cases hr; exact ⟨rfl, g1, Nat.le_trans g2 hb⟩
        | ok u => exact ih _ _ _ _ hr g1 (Nat.le_trans g2 hb))
  exact this r0 e buf r h hg hb

theorem copyLoop_back (hR : Room W N L) (hN : MASTER_BLOCK_SIZE ≤ N) (R : Reader ρ) {r0 : ρ} {e : Encoder σ} (hg : HoldsE N e) {buf : List UInt8}
    (hb : buf.length ≤ MASTER_BLOCK_SIZE) {r : Except ErrKind Unit × Encoder σ × List UInt8} (h : copyLoop W env R r0 (wrapE W e) buf = some r) :
    ∃ r', Zopfli.copyLoop env R r0 e buf = some r' := by
  have := copyLoop.partial_correctness (W := W) (env := env) (R := R) (motive := fun r0 e0 buf r => ∀ e, wrapE W e = e0 → HoldsE N e →
      buf.length ≤ MASTER_BLOCK_SIZE → ∃ r', Zopfli.copyLoop env R r0 e buf = some r') (by
    rintro f ih r0 e0 buf r hr e rfl hg hb
    rw [Zopfli.copyLoop]
    dsimp only at hr ⊢
    split at hr
    · rename_i h0
      rw [if_pos h0]
      rcases hq : R.read r0 (MASTER_BLOCK_SIZE - buf.length) with ⟨q, r1⟩
      rw [hq] at hr
      rcases q with k | l
      · cases k with
        | interrupted => exact ih _ _ _ _ hr e rfl hg hb
        | writeZero => exact ⟨_, rfl⟩
        | other n => exact ⟨_, rfl⟩
      · cases l with
        | nil => exact ⟨_, rfl⟩
        | cons b bs =>
          dsimp only at hr ⊢
          split at hr
          · rename_i hn
            rw [if_pos hn]
            exact ih _ _ _ _ hr e rfl hg (by rw [List.length_append]; exact room_lt hb hn)
          · cases hr
    · rename_i h0
      rw [if_neg h0]
      rw [flushBuf_wrap hR hg (Nat.le_trans hb hN)] at hr
      cases hx : Zopfli.flushBuf env e buf with
      | none => rw [hx] at hr; cases hr
      | some p =>
        obtain ⟨q, e1, buf1⟩ := p
        obtain ⟨-, g1, g2⟩ := flushBuf_holds hR hg (Nat.le_trans hb hN) hx
        dsimp only at g1 g2
        rw [hx, Option.map_some] at hr
        cases q with
        | error k => exact ⟨_, rfl⟩
        | ok u => exact ih _ _ _ _ hr e1 rfl g1 (Nat.le_trans g2 hb))
  exact this r0 _ buf r h e rfl hg hb

theorem copyLoop_wrap (hR : Room W N L) (hN : MASTER_BLOCK_SIZE ≤ N) (R : Reader ρ) (r0 : ρ) {e : Encoder σ} (hg : HoldsE N e) {buf : List UInt8}
    (hb : buf.length ≤ MASTER_BLOCK_SIZE) :
    copyLoop W env R r0 (wrapE W e) buf = (Zopfli.copyLoop env R r0 e buf).map fun r => (r.1, wrapE W r.2.1, r.2.2) := by
  cases hx : Zopfli.copyLoop env R r0 e buf with
  | some r => exact (copyLoop_holds hR hN R hg hb hx).1
  | none =>
    cases hy : copyLoop W env R r0 (wrapE W e) buf with
    | none => rfl
    | some r =>
      obtain ⟨r', e'⟩ := copyLoop_back hR hN R hg hb hy
      rw [hx] at e'
      cases e'

theorem intoInnerFinish_wrap (hR : Room W N L) {e : Encoder σ} (hg : HoldsE N e) {buf : List UInt8} (hb : buf.length ≤ N) :
    (do
      let (r, e, buf) ← flushBuf W env (wrapE W e) buf
      match r with
      | .error k => return (.error k, ← dropBuffered W env e buf)
      | .ok () => finish W env e : Option (Except ErrKind Unit × σ)) =
    (do
      let (r, e, buf) ← Zopfli.flushBuf env e buf
      match r with
      | .error k => return (.error k, ← Zopfli.dropBuffered env e buf)
      | .ok () => e.finish env) := by
  rw [flushBuf_wrap hR hg hb]
  cases hx : Zopfli.flushBuf env e buf with
  | none => rfl
  | some p =>
    obtain ⟨q, e1, buf1⟩ := p
    obtain ⟨-, g1, g2⟩ := flushBuf_holds hR hg hb hx
    dsimp only at g1 g2
    rw [Option.map_some, some_bind, some_bind]
    cases q with
    | error k => dsimp only; rw [dropBuffered_wrap hR g1 (Nat.le_trans g2 hb)]
    | ok u => exact finish_wrap hR g1

theorem compress_words {F : FloatOps} {L : FloatLaws F} (hR : Room W N L) (hN : MASTER_BLOCK_SIZE ≤ N) (S : Sink σ) (R : Reader ρ) (options : Options)
    (fmt : Format) (r0 : ρ) (s : σ) : compress W F S R options fmt r0 s = Zopfli.compress F S R options fmt r0 s := by
  unfold compress Zopfli.compress
  dsimp only
  have hR : Room W N (F := (⟨F, S, options, .dynamic⟩ : Env σ).F) L := hR
  cases hn : Encoder.new (⟨F, S, options, .dynamic⟩ : Env σ) fmt s with
  | none => rfl
  | some p =>
    obtain ⟨r, s'⟩ := p
    rw [some_bind, some_bind]
    cases r with
    | error k => rfl
    | ok e =>
      obtain ⟨h1, h2⟩ := new_wrap W N hn
      have g1 := copyLoop_wrap (env := ⟨F, S, options, .dynamic⟩) (L := L) hR hN R r0 h2 (buf := []) (Nat.zero_le _)
      rw [h1] at g1
      dsimp only
      rw [g1]
      cases hx : Zopfli.copyLoop (⟨F, S, options, .dynamic⟩ : Env σ) R r0 e [] with
      | none => rfl
      | some p =>
        obtain ⟨q, e1, buf1⟩ := p
        obtain ⟨-, g2, g3⟩ := copyLoop_holds (env := ⟨F, S, options, .dynamic⟩) (L := L) hR hN R h2 (Nat.zero_le _) hx
        dsimp only at g2 g3
        rw [Option.map_some, some_bind, some_bind]
        cases q with
        | error k => dsimp only; rw [dropBuffered_wrap (env := ⟨F, S, options, .dynamic⟩) (L := L) hR g2 (Nat.le_trans g3 hN)]
        | ok u => exact intoInnerFinish_wrap (env := ⟨F, S, options, .dynamic⟩) (L := L) hR g2 (Nat.le_trans g3 hN)

theorem bufWriteAll_wrap (hR : Room W N L) (hN : MASTER_BLOCK_SIZE ≤ N) {b : BufEncoder σ} (hg : HoldsE N b.inner) (hb : b.buf.length ≤ MASTER_BLOCK_SIZE)
    {data : List UInt8} (hd : data.length ≤ N) :
    bufWriteAll W env ⟨wrapE W b.inner, b.buf⟩ data = (b.writeAll env data).map (onSnd fun b : BufEncoder σ => ⟨wrapE W b.inner, b.buf⟩) ∧
      ∀ r b', b.writeAll env data = some (r, b') → HoldsE N b'.inner ∧ b'.buf.length ≤ MASTER_BLOCK_SIZE := by
  obtain ⟨e, buf⟩ := b
  dsimp only at hg hb
  unfold bufWriteAll BufEncoder.writeAll
  dsimp only
  split
  · rename_i h
    refine ⟨rfl, fun r b' h' => ?_⟩
    cases h'
    exact ⟨hg, by dsimp only; rw [List.length_append]; exact room_lt hb (Nat.le_of_lt h)⟩
  · rename_i h
    have key : ∀ (e1 : Encoder σ) (buf1 : List UInt8), HoldsE N e1 → buf1.length ≤ MASTER_BLOCK_SIZE →
        (data.length < MASTER_BLOCK_SIZE → buf1.length + data.length ≤ MASTER_BLOCK_SIZE) → ∀ q : Except ErrKind Unit,
        (match q with
          | .error k => (return (.error k, ⟨wrapE W e1, buf1⟩) : Option (Except ErrKind Unit × BufEncoder σ))
          | .ok () =>
            if data.length ≥ MASTER_BLOCK_SIZE then do
              let (r, e, _) ← flushBuf W env (wrapE W e1) data
              return (r, ⟨e, buf1⟩)
            else return (.ok (), ⟨wrapE W e1, buf1 ++ data⟩)) =
          ((match q with
          | .error k => (return (.error k, ⟨e1, buf1⟩) : Option (Except ErrKind Unit × BufEncoder σ))
          | .ok () =>
            if data.length ≥ MASTER_BLOCK_SIZE then do
              let (r, e, _) ← Zopfli.flushBuf env e1 data
              return (r, ⟨e, buf1⟩)
            else return (.ok (), ⟨e1, buf1 ++ data⟩))).map (onSnd fun b : BufEncoder σ => ⟨wrapE W b.inner, b.buf⟩) ∧
        ∀ r b', (match q with
          | .error k => (return (.error k, ⟨e1, buf1⟩) : Option (Except ErrKind Unit × BufEncoder σ))
          | .ok () =>
            if data.length ≥ MASTER_BLOCK_SIZE then do
              let (r, e, _) ← Zopfli.flushBuf env e1 data
              return (r, ⟨e, buf1⟩)
            else return (.ok (), ⟨e1, buf1 ++ data⟩)) = some (r, b') → HoldsE N b'.inner ∧ b'.buf.length ≤ MASTER_BLOCK_SIZE := by
      intro e1 buf1 g1 g2 g3 q
      cases q with
      | error k => exact ⟨rfl, fun r b' h' => by cases h'; exact ⟨g1, g2⟩⟩
      | ok u =>
        dsimp only
        split
        · rw [flushBuf_wrap hR g1 hd]
          cases hx : Zopfli.flushBuf env e1 data with
          | none => exact ⟨rfl, fun r b' h' => by cases h'⟩
          | some p => exact ⟨rfl, fun r b' h' => by cases h'; exact ⟨(flushBuf_holds hR g1 hd hx).2.1, g2⟩⟩
        · rename_i h1
          refine ⟨rfl, fun r b' h' => ?_⟩
          cases h'
          exact ⟨g1, by dsimp only; rw [List.length_append]; exact g3 (Nat.lt_of_not_le h1)⟩
    by_cases h2 : data.length > MASTER_BLOCK_SIZE - buf.length
    · rw [if_pos h2, if_pos h2, flushBuf_wrap hR hg (Nat.le_trans hb hN)]
      cases hx : Zopfli.flushBuf env e buf with
      | none => exact ⟨rfl, fun r b' h' => by cases h'⟩
      | some p =>
        obtain ⟨q, e1, buf1⟩ := p
        obtain ⟨-, g1, g2⟩ := flushBuf_holds hR hg (Nat.le_trans hb hN) hx
        dsimp only at g1 g2
        rw [Option.map_some, some_bind, some_bind]
        dsimp only
        cases q with
        | error k => exact ⟨rfl, fun r b' h' => by cases h'; exact ⟨g1, Nat.le_trans g2 hb⟩⟩
        | ok u =>
          have h0 := flushBuf_ok_nil env hx
          subst h0
          exact key e1 [] g1 (Nat.zero_le _) (fun h => by rw [List.length_nil, Nat.zero_add]; exact Nat.le_of_lt h) (.ok ())
    · rw [if_neg h2, if_neg h2, some_bind, some_bind]
      exact key e buf hg hb (fun _ => room_lt hb (Nat.le_of_not_lt h2)) (.ok ())

theorem copyTo_holds (hR : Room W N L) (hN : MASTER_BLOCK_SIZE ≤ N) {src : Source ρ} {I : ρ → Prop}
    (hI : ∀ r, I r → I (src.next r).2 ∧ ∀ l, (src.next r).1 = .ok l → l.length ≤ N) {r0 : ρ} (h0 : I r0) {b : BufEncoder σ} (hg : HoldsE N b.inner)
    (hb : b.buf.length ≤ MASTER_BLOCK_SIZE) {r : Except ErrKind Unit × BufEncoder σ} (h : Zopfli.copyTo env src r0 b = some r) :
    copyTo W env src r0 ⟨wrapE W b.inner, b.buf⟩ = some (r.1, ⟨wrapE W r.2.inner, r.2.buf⟩) ∧ HoldsE N r.2.inner ∧ r.2.buf.length ≤ MASTER_BLOCK_SIZE := by
  have := Zopfli.copyTo.partial_correctness (env := env) (src := src) (motive := fun r0 b r => I r0 → HoldsE N b.inner → b.buf.length ≤ MASTER_BLOCK_SIZE →
      copyTo W env src r0 ⟨wrapE W b.inner, b.buf⟩ = some (r.1, ⟨wrapE W r.2.inner, r.2.buf⟩) ∧ HoldsE N r.2.inner ∧ r.2.buf.length ≤ MASTER_BLOCK_SIZE) (by
    intro f ih r0 b r hr h0 hg hb
    rw [copyTo]
    obtain ⟨i1, i2⟩ := hI r0 h0
    rcases hq : src.next r0 with ⟨q, r1⟩
    rw [hq] at hr i1 i2
    dsimp only at i1 i2
    rcases q with k | l
    · cases k with
      | interrupted => exact ih _ _ _ hr i1 hg hb
      | writeZero => cases hr; exact ⟨rfl, hg, hb⟩
      | other n => cases hr; exact ⟨rfl, hg, hb⟩
    · cases l with
      | nil => cases hr; exact ⟨rfl, hg, hb⟩
      | cons x xs =>
        obtain ⟨a1, a2⟩ := bufWriteAll_wrap hR hN hg hb (i2 _ rfl)
        dsimp only at hr ⊢
        rw [a1]
        cases hx : b.writeAll env (x :: xs) with
        | none => rw [hx] at hr; cases hr
        | some p =>
          obtain ⟨q, b1⟩ := p
          obtain ⟨c1, c2⟩ := a2 _ _ hx
          rw [hx] at hr
          rw [Option.map_some]
          cases q with
          | error k => cases hr; exact ⟨rfl, c1, c2⟩
          | ok u => exact ih _ _ _ hr i1 c1 c2)
  exact this r0 b r h h0 hg hb

theorem copyTo_back (hR : Room W N L) (hN : MASTER_BLOCK_SIZE ≤ N) {src : Source ρ} {I : ρ → Prop}
    (hI : ∀ r, I r → I (src.next r).2 ∧ ∀ l, (src.next r).1 = .ok l → l.length ≤ N) {r0 : ρ} (h0 : I r0) {b : BufEncoder σ} (hg : HoldsE N b.inner)
    (hb : b.buf.length ≤ MASTER_BLOCK_SIZE) {r : Except ErrKind Unit × BufEncoder σ} (h : copyTo W env src r0 ⟨wrapE W b.inner, b.buf⟩ = some r) :
    ∃ r', Zopfli.copyTo env src r0 b = some r' := by
  have := copyTo.partial_correctness (W := W) (env := env) (src := src) (motive := fun r0 b0 r => ∀ b : BufEncoder σ, (⟨wrapE W b.inner, b.buf⟩ : BufEncoder σ) = b0 →
      I r0 → HoldsE N b.inner → b.buf.length ≤ MASTER_BLOCK_SIZE → ∃ r', Zopfli.copyTo env src r0 b = some r') (by
    rintro f ih r0 b0 r hr b rfl h0 hg hb
    rw [Zopfli.copyTo]
    obtain ⟨i1, i2⟩ := hI r0 h0
    rcases hq : src.next r0 with ⟨q, r1⟩
    rw [hq] at hr i1 i2
    dsimp only at i1 i2
    rcases q with k | l
    · cases k with
      | interrupted => exact ih _ _ _ hr b rfl i1 hg hb
      | writeZero => exact ⟨_, rfl⟩
      | other n => exact ⟨_, rfl⟩
    · cases l with
      | nil => exact ⟨_, rfl⟩
      | cons x xs =>
        obtain ⟨a1, a2⟩ := bufWriteAll_wrap hR hN hg hb (i2 _ rfl)
        dsimp only at hr ⊢
        rw [a1] at hr
        cases hx : b.writeAll env (x :: xs) with
        | none => rw [hx] at hr; cases hr
        | some p =>
          obtain ⟨q, b1⟩ := p
          obtain ⟨c1, c2⟩ := a2 _ _ hx
          rw [hx, Option.map_some] at hr
          cases q with
          | error k => exact ⟨_, rfl⟩
          | ok u => exact ih _ _ _ hr b1 rfl i1 c1 c2)
  exact this r0 _ r h b rfl h0 hg hb

theorem compressFrom_words {F : FloatOps} {L : FloatLaws F} (hR : Room W N L) (hN : MASTER_BLOCK_SIZE ≤ N) (S : Sink σ) (src : Source ρ) {I : ρ → Prop}
    (hI : ∀ r, I r → I (src.next r).2 ∧ ∀ l, (src.next r).1 = .ok l → l.length ≤ N) (options : Options)
    (fmt : Format) (r0 : ρ) (h0 : I r0) (s : σ) : compressFrom W F S src options fmt r0 s = Zopfli.compressFrom F S src options fmt r0 s := by
  unfold compressFrom Zopfli.compressFrom BufEncoder.new
  dsimp only
  have hR : Room W N (F := (⟨F, S, options, .dynamic⟩ : Env σ).F) L := hR
  cases hn : Encoder.new (⟨F, S, options, .dynamic⟩ : Env σ) fmt s with
  | none => rfl
  | some p =>
    obtain ⟨r, s'⟩ := p
    rw [some_bind]
    cases r with
    | error k => rfl
    | ok e =>
      obtain ⟨h1, h2⟩ := new_wrap W N hn
      show (copyTo W (⟨F, S, options, .dynamic⟩ : Env σ) src r0 ⟨e, []⟩ >>= _) = (Zopfli.copyTo (⟨F, S, options, .dynamic⟩ : Env σ) src r0 ⟨e, []⟩ >>= _)
      have hz : ([] : List UInt8).length ≤ MASTER_BLOCK_SIZE := Nat.zero_le _
      cases hx : Zopfli.copyTo (⟨F, S, options, .dynamic⟩ : Env σ) src r0 ⟨e, []⟩ with
      | none =>
        cases hy : copyTo W (⟨F, S, options, .dynamic⟩ : Env σ) src r0 ⟨e, []⟩ with
        | none => rfl
        | some r =>
          rw [← h1] at hy
          obtain ⟨r', e'⟩ := copyTo_back (env := ⟨F, S, options, .dynamic⟩) (L := L) (b := ⟨e, []⟩) hR hN hI h0 h2 hz hy
          rw [hx] at e'
          cases e'
      | some p =>
        obtain ⟨q, e1, buf1⟩ := p
        obtain ⟨g1, g2, g3⟩ := copyTo_holds (env := ⟨F, S, options, .dynamic⟩) (L := L) (b := ⟨e, []⟩) hR hN hI h0 h2 hz hx
        dsimp only at g1 g2 g3
        rw [h1] at g1
        rw [g1, some_bind, some_bind]
        cases q with
        | error k =>
          dsimp only [BufEncoder.drop]
          rw [dropBuffered_wrap (env := ⟨F, S, options, .dynamic⟩) (L := L) hR g2 (Nat.le_trans g3 hN)]
        | ok u => exact intoInnerFinish_wrap (env := ⟨F, S, options, .dynamic⟩) (L := L) hR g2 (Nat.le_trans g3 hN)

end Zopfli.Words
