import Verif.Proofs.WriterPure
import Verif.Model.Encoder
import Verif.Spec.Session
/-! # The DEFLATE encoder: what it hands to the sink, independently of the sink -/

namespace Zopfli
open Rfc

/-- The state of a `DeflateEncoder` without its sink: `acc` is the accumulator of the bit writer. -/
structure DCore where
  haveChunk : Bool
  chunkStart : Nat
  wac : Array UInt8
  acc : UInt8 × UInt8

def DCore.new : DCore := ⟨false, 0, #[], (0, 0)⟩

/-- The byte strings for the pending chunk. -/
def DCore.emit (F : FloatOps) (o : Options) (bt : BlockType) (c : DCore) (last : Bool) : Option (List (List UInt8) × (UInt8 × UInt8)) := do
  let ops ← deflatePart F o bt last c.wac c.chunkStart c.wac.size
  return pall c.acc ops

def DCore.setChunk (c : DCore) (chunk : List UInt8) : DCore :=
  let w := c.wac.extract (c.wac.size - WINDOW_SIZE) c.wac.size
  { c with chunkStart := w.size, wac := w ++ chunk.toArray, haveChunk := true }

/-- The byte strings handed to the sink by `write`, and the next state. -/
def DCore.write (F : FloatOps) (o : Options) (bt : BlockType) (c : DCore) (buf : List UInt8) : Option (List (List UInt8) × DCore) := do
  let (cs, acc) ← (if c.haveChunk then c.emit F o bt false else some ([], c.acc))
  return (cs, { c with acc := acc }.setChunk buf)

/-- The byte strings handed to the sink by `finish`. -/
def DCore.finish (F : FloatOps) (o : Options) (bt : BlockType) (c : DCore) : Option (List (List UInt8)) := do
  let (cs, acc) ← c.emit F o bt true
  return cs ++ (pstep acc .align).1

/-- The encoder is in the given state, with the given sink. -/
def DeflateEncoder.Is {σ : Type} (e : DeflateEncoder σ) (c : DCore) (s : σ) : Prop :=
  ∃ len, e = ⟨c.haveChunk, c.chunkStart, c.wac, some ⟨c.acc.1, c.acc.2, len, s⟩⟩

theorem DeflateEncoder.Is.new {σ : Type} (s : σ) : (DeflateEncoder.new s).Is DCore.new s := ⟨0, rfl⟩

theorem DeflateEncoder.Is.sink {σ : Type} {e : DeflateEncoder σ} {c : DCore} {s : σ} (h : e.Is c s) : e.sink? = some s := by
  obtain ⟨len, rfl⟩ := h
  rfl

variable {σ : Type}

/-- How an operation ends, given how writing its byte strings ends. -/
def Outcome {α : Type} (x : Option α) (ok : σ → α → Prop) (err : ErrKind → σ → Option α → Prop) : Option (Except ErrKind Unit × σ) → Prop
  | none => x = none
  | some (.ok (), s) => ∃ a, x = some a ∧ ok s a
  | some (.error k, s) => err k s x

theorem compressChunk_outcome (env : Env σ) {e : DeflateEncoder σ} {c : DCore} {s : σ} (h : e.Is c s) {last : Bool}
    {cs : List (List UInt8)} {acc : UInt8 × UInt8} (hc : c.emit env.F env.options env.btype last = some (cs, acc)) :
    Outcome (e.compressChunk env last) (fun s' r => r.1 = .ok () ∧ r.2.Is { c with acc := acc } s')
      (fun k s' x => ∃ e', x = some (.error k, e') ∧ e'.sink? = some s') (writeMany env.S s cs) := by
  obtain ⟨len, rfl⟩ := h
  unfold DCore.emit at hc
  unfold DeflateEncoder.compressChunk
  dsimp only
  rw [some_bind]
  cases hp : deflatePart env.F env.options env.btype last c.wac c.chunkStart c.wac.size with
  | none => rw [hp] at hc; cases hc
  | some ops =>
    rw [hp, some_bind] at hc
    rw [some_bind]
    have hr := execAll_rel env.S ops ⟨c.acc.1, c.acc.2, len, s⟩
    dsimp only at hr
    have hc' : pall (c.acc.1, c.acc.2) ops = (cs, acc) := Option.some.inj hc
    rw [hc'] at hr
    dsimp only at hr
    cases hw : writeMany env.S s cs with
    | none =>
      rw [hw] at hr
      have hr : _ = none := hr
      rw [hr]
      exact rfl
    | some p =>
      obtain ⟨r, s'⟩ := p
      rw [hw] at hr
      cases r with
      | error k =>
        obtain ⟨w', hr, rfl⟩ := hr
        rw [hr, some_bind]
        exact ⟨_, rfl, rfl⟩
      | ok u =>
        have hr : _ = _ := hr
        rw [hr, some_bind]
        exact ⟨_, rfl, rfl, _, rfl⟩

theorem setChunk_is {e : DeflateEncoder σ} {c : DCore} {s : σ} (h : e.Is c s) (buf : List UInt8) : (e.setChunk buf).Is (c.setChunk buf) s := by
  obtain ⟨len, rfl⟩ := h
  exact ⟨len, by simp only [DeflateEncoder.setChunk, DCore.setChunk]⟩

theorem write_outcome (env : Env σ) {e : DeflateEncoder σ} {c c' : DCore} {s : σ} (h : e.Is c s) {buf : List UInt8} {cs : List (List UInt8)}
    (hc : c.write env.F env.options env.btype buf = some (cs, c')) :
    Outcome (e.write env buf) (fun s' r => r.1 = .ok buf.length ∧ r.2.Is c' s')
      (fun k s' x => ∃ e', x = some (.error k, e') ∧ e'.sink? = some s') (writeMany env.S s cs) := by
  unfold DCore.write at hc
  have hh : e.haveChunk = c.haveChunk := by obtain ⟨len, rfl⟩ := h; rfl
  unfold DeflateEncoder.write
  rw [hh]
  by_cases hb : c.haveChunk = true
  · rw [if_pos hb] at hc ⊢
    cases he : c.emit env.F env.options env.btype false with
    | none => rw [he] at hc; cases hc
    | some p =>
      obtain ⟨cs', acc⟩ := p
      rw [he, some_bind] at hc
      obtain ⟨rfl, rfl⟩ := Prod.mk.inj (Option.some.inj hc)
      have := compressChunk_outcome env h he
      cases hw : writeMany env.S s cs' with
      | none =>
        rw [hw] at this
        have this : _ = none := this
        rw [this]
        exact rfl
      | some p =>
        obtain ⟨r, s'⟩ := p
        rw [hw] at this
        cases r with
        | error k =>
          obtain ⟨e', this, he'⟩ := this
          rw [this, some_bind]
          exact ⟨_, rfl, he'⟩
        | ok u =>
          obtain ⟨⟨r, e'⟩, this, he1, he2⟩ := this
          dsimp only at he1 he2
          subst he1
          rw [this, some_bind]
          exact ⟨_, rfl, rfl, setChunk_is he2 buf⟩
  · rw [if_neg hb] at hc ⊢
    rw [some_bind] at hc ⊢
    obtain ⟨rfl, rfl⟩ := Prod.mk.inj (Option.some.inj hc)
    exact ⟨_, rfl, rfl, setChunk_is h buf⟩

theorem finishInner_outcome (env : Env σ) {e : DeflateEncoder σ} {c : DCore} {s : σ} (h : e.Is c s) {cs : List (List UInt8)}
    (hc : c.finish env.F env.options env.btype = some cs) :
    Outcome (e.finishInner env) (fun s' r => r.1 = .ok (some s') ∧ r.2.1.bitwiseWriter = none ∧ r.2.2 = some s')
      (fun k s' x => ∃ e', x = some (.error k, e', some s') ∧ (e'.sink? = none ∨ e'.sink? = some s')) (writeMany env.S s cs) := by
  unfold DCore.finish at hc
  cases he : c.emit env.F env.options env.btype true with
  | none => rw [he] at hc; cases hc
  | some p =>
    obtain ⟨cs', acc⟩ := p
    rw [he, some_bind] at hc
    have hc := Option.some.inj hc
    rw [← hc, writeMany_append]
    have := compressChunk_outcome env h he
    unfold DeflateEncoder.finishInner
    have hw : ∃ w, e.bitwiseWriter = some w := by obtain ⟨len, rfl⟩ := h; exact ⟨_, rfl⟩
    obtain ⟨w0, hw0⟩ := hw
    rw [hw0]
    dsimp only
    cases hw : writeMany env.S s cs' with
    | none =>
      rw [hw] at this
      have this : _ = none := this
      rw [this]
      exact rfl
    | some p =>
      obtain ⟨r, s'⟩ := p
      rw [hw] at this
      cases r with
      | error k =>
        obtain ⟨e', this, he'⟩ := this
        rw [this, some_bind]
        refine ⟨e', ?_, .inr he'⟩
        show some (_, _, e'.sink?) = _
        rw [he']
      | ok u =>
        obtain ⟨⟨r, e'⟩, this, he1, he2⟩ := this
        dsimp only at he1 he2
        subst he1
        obtain ⟨len, rfl⟩ := he2
        rw [this, some_bind]
        dsimp only
        rw [some_bind]
        have hx := exec_rel env.S ⟨acc.1, acc.2, len, s'⟩ .align
        dsimp only at hx
        show Outcome _ _ _ (writeMany env.S s' (pstep acc .align).1)
        have hx : ExecRel _ (pstep acc .align).1 (pstep acc .align).2 (writeMany env.S s' (pstep acc .align).1)
          (BitwiseWriter.finishPartialBits env.S ⟨acc.1, acc.2, len, s'⟩) := hx
        cases hw2 : writeMany env.S s' (pstep acc .align).1 with
        | none =>
          rw [hw2] at hx
          have hx : _ = none := hx
          rw [hx]
          exact rfl
        | some p =>
          obtain ⟨r, s2⟩ := p
          rw [hw2] at hx
          cases r with
          | error k =>
            obtain ⟨w', hx, rfl⟩ := hx
            rw [hx, some_bind]
            exact ⟨_, rfl, .inl rfl⟩
          | ok u =>
            have hx : _ = _ := hx
            rw [hx, some_bind]
            exact ⟨_, rfl, rfl, rfl, rfl⟩

/-- `finish`: on success the sink is returned; on failure the error is returned, after the destructor has run. -/
theorem finish_outcome (env : Env σ) {e : DeflateEncoder σ} {c : DCore} {s : σ} (h : e.Is c s) {cs : List (List UInt8)}
    (hc : c.finish env.F env.options env.btype = some cs) :
    Outcome (e.finish env) (fun s' r => r = (.ok (), s'))
      (fun k s' x => ∃ e' : DeflateEncoder σ, (e'.sink? = none ∨ e'.sink? = some s') ∧ x = (do return (.error k, ← e'.dropWith env s')))
      (writeMany env.S s cs) := by
  have := finishInner_outcome env h hc
  unfold DeflateEncoder.finish
  cases hw : writeMany env.S s cs with
  | none =>
    rw [hw] at this
    have this : _ = none := this
    rw [this]
    exact rfl
  | some p =>
    obtain ⟨r, s'⟩ := p
    rw [hw] at this
    cases r with
    | error k =>
      obtain ⟨e', this, he'⟩ := this
      rw [this, some_bind]
      exact ⟨e', he', rfl⟩
    | ok u =>
      obtain ⟨⟨r, e', s2⟩, this, h1, h2, h3⟩ := this
      dsimp only at h1 h2 h3
      subst h1 h3
      rw [this, some_bind]
      dsimp only
      rw [some_bind]
      unfold DeflateEncoder.dropWith DeflateEncoder.finishInner
      rw [h2]
      exact ⟨_, rfl, rfl⟩

/-- `drop` of an unfinished encoder does what `finish` does. -/
theorem drop_outcome (env : Env σ) {e : DeflateEncoder σ} {c : DCore} {s : σ} (h : e.Is c s) {cs : List (List UInt8)}
    (hc : c.finish env.F env.options env.btype = some cs) :
    Outcome (e.drop env) (fun s' r => r = s') (fun _ s' x => x = some s') (writeMany env.S s cs) := by
  have := finishInner_outcome env h hc
  unfold DeflateEncoder.drop DeflateEncoder.dropWith
  have hw : ∃ w, e.bitwiseWriter = some w ∧ w.out = s := by obtain ⟨len, rfl⟩ := h; exact ⟨_, rfl, rfl⟩
  obtain ⟨w0, hw0, rfl⟩ := hw
  rw [hw0, some_bind]
  cases hw : writeMany env.S w0.out cs with
  | none =>
    rw [hw] at this
    have this : _ = none := this
    rw [this]
    exact rfl
  | some p =>
    obtain ⟨r, s'⟩ := p
    rw [hw] at this
    cases r with
    | error k =>
      obtain ⟨e', this, he'⟩ := this
      rw [this, some_bind]
      exact rfl
    | ok u =>
      obtain ⟨⟨r, e', s2⟩, this, h1, h2, h3⟩ := this
      dsimp only at h1 h2 h3
      subst h1 h3
      rw [this, some_bind]
      exact ⟨_, rfl, rfl⟩

theorem flush_is (env : Env σ) {e : DeflateEncoder σ} {c : DCore} {s : σ} (h : e.Is c s) :
    ∃ e', e.flush env = some ((env.S.flush s).1, e') ∧ e'.Is c (env.S.flush s).2 := by
  obtain ⟨len, rfl⟩ := h
  exact ⟨_, rfl, len, rfl⟩

/-! ## Invariants of the sink are preserved, whatever state the encoder is in -/

/-- Every call keeps `I`. -/
def SinkInv (S : Sink σ) (I : σ → Prop) : Prop := (∀ s buf, I s → I (S.write s buf).2) ∧ ∀ s, I s → I (S.flush s).2

theorem writeAll_inv {S : Sink σ} {I : σ → Prop} (hI : SinkInv S I) {s : σ} {buf : List UInt8} {r : Except ErrKind Unit × σ}
    (h : S.writeAll s buf = some r) (hs : I s) : I r.2 := by
  have := Sink.writeAll.partial_correctness (S := S) (motive := fun s buf r => I s → I r.2) (by
    intro f ih s buf r hr hs
    split at hr
    · cases hr; exact hs
    · have hw := hI.1 s buf hs
      split at hr
      · rename_i s' e; rw [e] at hw; cases hr; exact hw
      · rename_i n s' e
        rw [e] at hw
        split at hr
        · exact ih _ _ _ hr hw
        · cases hr
      · rename_i s' e; rw [e] at hw; exact ih _ _ _ hr hw
      · rename_i k s' _ e; rw [e] at hw; cases hr; exact hw)
  exact this s buf r h hs

theorem addBytes_inv {S : Sink σ} {I : σ → Prop} (hI : SinkInv S I) {w : BitwiseWriter σ} {l : List UInt8} {r : Except ErrKind Unit × BitwiseWriter σ}
    (h : w.addBytes S l = some r) (hs : I w.out) : I r.2.out := by
  unfold BitwiseWriter.addBytes at h
  cases hw : S.writeAll w.out l with
  | none => rw [hw] at h; cases h
  | some p =>
    rw [hw, some_bind] at h
    cases h
    exact writeAll_inv hI hw hs

theorem finishPartialBits_inv {S : Sink σ} {I : σ → Prop} (hI : SinkInv S I) {w : BitwiseWriter σ} {r : Except ErrKind Unit × BitwiseWriter σ}
    (h : w.finishPartialBits S = some r) (hs : I w.out) : I r.2.out := by
  unfold BitwiseWriter.finishPartialBits at h
  split at h
  · cases hw : w.addBytes S [w.bit] with
    | none => rw [hw] at h; cases h
    | some p =>
      obtain ⟨r', w'⟩ := p
      rw [hw, some_bind] at h
      have := addBytes_inv hI hw hs
      cases r' with
      | ok u => cases h; exact this
      | error e => cases h; exact this
  · cases h; exact hs

theorem exec_inv [Checks] {S : Sink σ} {I : σ → Prop} (hI : SinkInv S I) {w : BitwiseWriter σ} {op : WOp} {r : Except ErrKind Unit × BitwiseWriter σ}
    (h : w.exec S op = some r) (hs : I w.out) : I r.2.out := by
  cases op with
  | bit b =>
    have h : w.addBit S b = some r := h
    unfold BitwiseWriter.addBit at h
    dsimp only at h
    split at h
    · cases h
    · split at h
      · exact finishPartialBits_inv hI h hs
      · cases h; exact hs
  | align => exact finishPartialBits_inv hI h hs
  | bytes l => exact addBytes_inv hI h hs

theorem execAll_inv [Checks] {S : Sink σ} {I : σ → Prop} (hI : SinkInv S I) : ∀ {ops : List WOp} {w : BitwiseWriter σ} {r : Except ErrKind Unit × BitwiseWriter σ},
    w.execAll S ops = some r → I w.out → I r.2.out
  | [], w, r, h, hs => by cases h; exact hs
  | op :: ops, w, r, h, hs => by
    rw [BitwiseWriter.execAll] at h
    cases hw : w.exec S op with
    | none => rw [hw] at h; cases h
    | some p =>
      obtain ⟨r', w'⟩ := p
      rw [hw, some_bind] at h
      have := exec_inv hI hw hs
      cases r' with
      | ok u => exact execAll_inv hI h this
      | error e => cases h; exact this

/-- The sink in the encoder, if any, satisfies `I`. -/
def EncInv (I : σ → Prop) (e : DeflateEncoder σ) : Prop := ∀ s, e.sink? = some s → I s

theorem compressChunk_inv (env : Env σ) {I : σ → Prop} (hI : SinkInv env.S I) {e : DeflateEncoder σ} {last : Bool}
    {r : Except ErrKind Unit × DeflateEncoder σ} (h : e.compressChunk env last = some r) (hs : EncInv I e) : EncInv I r.2 := by
  unfold DeflateEncoder.compressChunk at h
  cases hw : e.bitwiseWriter with
  | none => rw [hw] at h; cases h
  | some w =>
    rw [hw, some_bind] at h
    cases hp : deflatePart env.F env.options env.btype last e.windowAndChunk e.chunkStart e.windowAndChunk.size with
    | none => rw [hp] at h; cases h
    | some ops =>
      rw [hp, some_bind] at h
      cases hx : w.execAll env.S ops with
      | none => rw [hx] at h; cases h
      | some p =>
        obtain ⟨r', w'⟩ := p
        rw [hx, some_bind] at h
        cases h
        intro s e'
        cases e'
        exact execAll_inv hI hx (hs _ (by rw [DeflateEncoder.sink?, hw]; rfl))

theorem finishInner_inv (env : Env σ) {I : σ → Prop} (hI : SinkInv env.S I) {e : DeflateEncoder σ}
    {r : Except ErrKind (Option σ) × DeflateEncoder σ × Option σ} (h : e.finishInner env = some r) (hs : EncInv I e) :
    EncInv I r.2.1 ∧ ∀ s, r.2.2 = some s → I s := by
  unfold DeflateEncoder.finishInner at h
  cases hw : e.bitwiseWriter with
  | none => rw [hw] at h; cases h; exact ⟨hs, by intro s e; cases e⟩
  | some w =>
    rw [hw] at h
    dsimp only at h
    cases hc : e.compressChunk env true with
    | none => rw [hc] at h; cases h
    | some p =>
      obtain ⟨r', e'⟩ := p
      have h1 := compressChunk_inv env hI hc hs
      rw [hc, some_bind] at h
      cases r' with
      | error k => cases h; exact ⟨h1, h1⟩
      | ok u =>
        dsimp only at h
        cases hw' : e'.bitwiseWriter with
        | none => rw [hw'] at h; cases h
        | some w' =>
          rw [hw', some_bind] at h
          cases hf : w'.finishPartialBits env.S with
          | none => rw [hf] at h; cases h
          | some p =>
            obtain ⟨r2, w2⟩ := p
            have h2 := finishPartialBits_inv hI hf (h1 _ (by rw [DeflateEncoder.sink?, hw']; rfl))
            rw [hf, some_bind] at h
            have hnone : EncInv I { e' with bitwiseWriter := none } := by intro s e; cases e
            cases r2 with
            | error k => cases h; exact ⟨hnone, by intro s e; cases e; exact h2⟩
            | ok u => cases h; exact ⟨hnone, by intro s e; cases e; exact h2⟩

theorem dropWith_inv (env : Env σ) {I : σ → Prop} (hI : SinkInv env.S I) {e : DeflateEncoder σ} {s s' : σ}
    (h : e.dropWith env s = some s') (hs : EncInv I e) (hs0 : I s) : I s' := by
  unfold DeflateEncoder.dropWith at h
  cases hf : e.finishInner env with
  | none => rw [hf] at h; cases h
  | some p =>
    obtain ⟨r, e', so⟩ := p
    rw [hf, some_bind] at h
    have := (finishInner_inv env hI hf hs).2
    cases h
    cases so with
    | none => exact hs0
    | some s => exact this s rfl

theorem drop_inv (env : Env σ) {I : σ → Prop} (hI : SinkInv env.S I) {e : DeflateEncoder σ} {s' : σ}
    (h : e.drop env = some s') (hs : EncInv I e) : I s' := by
  unfold DeflateEncoder.drop at h
  cases hw : e.bitwiseWriter with
  | none => rw [hw] at h; cases h
  | some w =>
    rw [hw, some_bind] at h
    exact dropWith_inv env hI h hs (hs _ (by rw [DeflateEncoder.sink?, hw]; rfl))

end Zopfli
