import Verif.Proofs.Render
import Verif.Model.Writer
/-! # The bit writer: what it hands to the sink, independently of the sink -/

namespace Zopfli

/-- `add_bit` in a release build -/
theorem addBit_release {σ : Type} (S : Sink σ) (w : BitwiseWriter σ) (b : Bool) :
    w.addBit S b = if w.bp + 1 = 8 then BitwiseWriter.finishPartialBits S { w with bit := w.bit ||| ((if b then 1 else 0) <<< w.bp), bp := w.bp + 1 }
      else some (.ok (), { w with bit := w.bit ||| ((if b then 1 else 0) <<< w.bp), bp := w.bp + 1 }) :=
  if_neg fun h => by cases h.1

open Rfc

/-- The byte strings handed to `write_all` by one operation, and the new accumulator. -/
def pstep : UInt8 × UInt8 → WOp → List (List UInt8) × (UInt8 × UInt8)
  | (bit, bp), .bit b =>
    let bit := bit ||| ((if b then 1 else 0) <<< bp)
    if bp + 1 = 8 then ([[bit]], (0, 0)) else ([], (bit, bp + 1))
  | (bit, bp), .align => if bp ≠ 0 then ([[bit]], (0, 0)) else ([], (bit, bp))
  | (bit, bp), .bytes l => ([l], (bit, bp))

/-- The byte strings handed to `write_all` by a list of operations, and the new accumulator. -/
def pall : UInt8 × UInt8 → List WOp → List (List UInt8) × (UInt8 × UInt8)
  | st, [] => ([], st)
  | st, op :: ops =>
    let (c, st) := pstep st op
    let (cs, st) := pall st ops
    (c ++ cs, st)

/-- `write_all` of several byte strings, until the first error. -/
def writeMany {σ : Type} (S : Sink σ) (s : σ) : List (List UInt8) → Option (Except ErrKind Unit × σ)
  | [] => some (.ok (), s)
  | c :: cs => do
    let (r, s) ← S.writeAll s c
    match r with
    | .ok () => writeMany S s cs
    | .error e => return (.error e, s)

theorem writeMany_append {σ : Type} (S : Sink σ) : ∀ (a b : List (List UInt8)) (s : σ), writeMany S s (a ++ b) =
    (writeMany S s a).bind fun (r, s) => match r with | .ok () => writeMany S s b | .error e => some (.error e, s)
  | [], b, s => rfl
  | c :: a, b, s => by
    rw [List.cons_append, writeMany, writeMany]
    cases h : S.writeAll s c with
    | none => rfl
    | some p =>
      obtain ⟨r, s'⟩ := p
      rw [some_bind, some_bind]
      cases r with
      | ok u => exact writeMany_append S a b s'
      | error e => rfl

/-- The result of executing operations on a writer whose accumulator is `st`, in terms of what the sink does. -/
def ExecRel {σ : Type} (w : BitwiseWriter σ) (cs : List (List UInt8)) (st : UInt8 × UInt8) :
    Option (Except ErrKind Unit × σ) → Option (Except ErrKind Unit × BitwiseWriter σ) → Prop
  | none, x => x = none
  | some (.ok (), s), x => x = some (.ok (), ⟨st.1, st.2, w.len + cs.flatten.length, s⟩)
  | some (.error e, s), x => ∃ w', x = some (.error e, w') ∧ w'.out = s

theorem exec_rel {σ : Type} (S : Sink σ) (w : BitwiseWriter σ) (op : WOp) :
    ExecRel w (pstep (w.bit, w.bp) op).1 (pstep (w.bit, w.bp) op).2 (writeMany S w.out (pstep (w.bit, w.bp) op).1) (w.exec S op) := by
  obtain ⟨bit, bp, len, out⟩ := w
  have fin : ∀ (bit bp : UInt8), bp ≠ 0 → ExecRel ⟨bit, bp, len, out⟩ [[bit]] (0, 0) (writeMany S out [[bit]])
      (BitwiseWriter.finishPartialBits S ⟨bit, bp, len, out⟩) := by
    intro bit bp hbp
    unfold BitwiseWriter.finishPartialBits BitwiseWriter.addBytes
    rw [writeMany, if_pos hbp]
    dsimp only
    cases h : S.writeAll out [bit] with
    | none => exact rfl
    | some p =>
      obtain ⟨r, s'⟩ := p
      rw [some_bind, some_bind]
      cases r with
      | ok u => exact rfl
      | error e => exact ⟨_, rfl, rfl⟩
  cases op with
  | bit b =>
    by_cases h : bp + 1 = 8
    · have := fin (bit ||| ((if b then 1 else 0) <<< bp)) (bp + 1) (by rw [h]; decide)
      have e1 : pstep (bit, bp) (.bit b) = ([[bit ||| ((if b then 1 else 0) <<< bp)]], (0, 0)) := by
        unfold pstep; exact if_pos h
      have e2 : BitwiseWriter.exec S ⟨bit, bp, len, out⟩ (.bit b) =
          BitwiseWriter.finishPartialBits S ⟨bit ||| ((if b then 1 else 0) <<< bp), bp + 1, len, out⟩ := by
        exact (addBit_release S _ b).trans (if_pos h)
      dsimp only
      rw [e1, e2]
      unfold ExecRel at this ⊢
      exact this
    · have e1 : pstep (bit, bp) (.bit b) = ([], (bit ||| ((if b then 1 else 0) <<< bp), bp + 1)) := by
        unfold pstep; exact if_neg h
      have e2 : BitwiseWriter.exec S ⟨bit, bp, len, out⟩ (.bit b) =
          some (.ok (), ⟨bit ||| ((if b then 1 else 0) <<< bp), bp + 1, len, out⟩) := by
        exact (addBit_release S _ b).trans (if_neg h)
      dsimp only
      rw [e1, e2]
      exact rfl
  | align =>
    by_cases h : bp = 0
    · have e1 : pstep (bit, bp) .align = ([], (bit, bp)) := by
        unfold pstep; exact if_neg (not_not_intro h)
      have e2 : BitwiseWriter.exec S ⟨bit, bp, len, out⟩ .align = some (.ok (), ⟨bit, bp, len, out⟩) := by
        unfold BitwiseWriter.exec BitwiseWriter.finishPartialBits; exact if_neg (not_not_intro h)
      dsimp only
      rw [e1, e2]
      exact rfl
    · have e1 : pstep (bit, bp) .align = ([[bit]], (0, 0)) := by
        unfold pstep; exact if_pos h
      dsimp only
      rw [e1]
      exact fin bit bp h
  | bytes l =>
    show ExecRel _ [l] (bit, bp) (writeMany S out [l]) (BitwiseWriter.addBytes S ⟨bit, bp, len, out⟩ l)
    unfold BitwiseWriter.addBytes
    rw [writeMany]
    dsimp only
    cases h : S.writeAll out l with
    | none => exact rfl
    | some p =>
      obtain ⟨r, s'⟩ := p
      rw [some_bind, some_bind]
      cases r with
      | ok u => show some _ = some _; simp
      | error e => exact ⟨_, rfl, rfl⟩

theorem execAll_rel {σ : Type} (S : Sink σ) : ∀ (ops : List WOp) (w : BitwiseWriter σ),
    ExecRel w (pall (w.bit, w.bp) ops).1 (pall (w.bit, w.bp) ops).2 (writeMany S w.out (pall (w.bit, w.bp) ops).1) (w.execAll S ops)
  | [], w => rfl
  | op :: ops, w => by
    have h1 := exec_rel S w op
    rw [BitwiseWriter.execAll]
    show ExecRel w ((pstep (w.bit, w.bp) op).1 ++ (pall (pstep (w.bit, w.bp) op).2 ops).1) (pall (pstep (w.bit, w.bp) op).2 ops).2
      (writeMany S w.out ((pstep (w.bit, w.bp) op).1 ++ (pall (pstep (w.bit, w.bp) op).2 ops).1)) _
    rw [writeMany_append]
    cases hm : writeMany S w.out (pstep (w.bit, w.bp) op).1 with
    | none =>
      rw [hm] at h1
      have h1 : w.exec S op = none := h1
      rw [h1]
      exact rfl
    | some p =>
      obtain ⟨r, s⟩ := p
      rw [hm] at h1
      cases r with
      | error e =>
        obtain ⟨w', h1, h2⟩ := h1
        rw [h1]
        exact ⟨w', rfl, h2⟩
      | ok u =>
        have h1 : w.exec S op = _ := h1
        rw [h1, some_bind]
        have ih := execAll_rel S ops ⟨(pstep (w.bit, w.bp) op).2.1, (pstep (w.bit, w.bp) op).2.2, w.len + (pstep (w.bit, w.bp) op).1.flatten.length, s⟩
        dsimp only at ih ⊢
        show ExecRel _ _ _ (writeMany S s _) _
        cases hm2 : writeMany S s (pall (pstep (w.bit, w.bp) op).2 ops).1 with
        | none => rw [hm2] at ih; exact ih
        | some p2 =>
          obtain ⟨r2, s2⟩ := p2
          rw [hm2] at ih
          cases r2 with
          | error e => exact ih
          | ok u =>
            have ih : _ = _ := ih
            rw [ih]
            show some (_, _) = some (_, _)
            rw [List.flatten_append, List.length_append, Nat.add_assoc]

/-! ## Bit packing -/

/-- The accumulator holds the bits `pb`. -/
structure Pend (st : UInt8 × UInt8) (pb : List Bool) : Prop where
  lt : pb.length < 8
  bp : st.2 = UInt8.ofNat pb.length
  bit : byteBits st.1 = pb ++ List.replicate (8 - pb.length) false

theorem Pend.zero : Pend (0, 0) [] := ⟨by simp, rfl, by decide⟩

theorem byteBits_or_shift (bit : UInt8) (b : Bool) {n : Nat} (hn : n < 8) {pb : List Bool} (hp : pb.length = n)
    (h : byteBits bit = pb ++ List.replicate (8 - n) false) :
    byteBits (bit ||| ((if b then 1 else 0) <<< UInt8.ofNat n)) = pb ++ b :: List.replicate (7 - n) false := by
  apply List.ext_getElem
  · simp [byteBits_length, hp]; omega
  · intro i h1 h2
    rw [byteBits_length] at h1
    have hi : (byteBits bit)[i]? = (pb ++ List.replicate (8 - n) false)[i]? := by rw [h]
    have e1 : ∀ (x : UInt8), (byteBits x)[i]? = some (x.toNat.testBit i) := by
      intro x; simp [byteBits, h1]
    rw [e1] at hi
    have e2 : (byteBits (bit ||| ((if b then 1 else 0) <<< UInt8.ofNat n)))[i]'(by rw [byteBits_length]; exact h1) =
        (bit.toNat.testBit i || (decide (i = n) && b)) := by
      have := e1 (bit ||| ((if b then 1 else 0) <<< UInt8.ofNat n))
      rw [List.getElem?_eq_getElem (by rw [byteBits_length]; exact h1)] at this
      rw [Option.some.inj this, UInt8.toNat_or, Nat.testBit_or]
      congr 1
      cases b with
      | false => simp
      | true =>
        rw [if_pos rfl, UInt8.toNat_shiftLeft]
        have : (UInt8.ofNat n).toNat % 8 = n := by rw [UInt8.toNat_ofNat']; omega
        rw [this, Nat.testBit_mod_two_pow, Nat.shiftLeft_eq, show (1 : UInt8).toNat = 1 from rfl, Nat.one_mul, Nat.testBit_two_pow]
        have h8 : i < 8 := by assumption
        have : (n = i) = (i = n) := propext eq_comm
        simp [h8, this]
    rw [e2]
    by_cases hlt : i < n
    · rw [List.getElem_append_left (by omega)]
      rw [List.getElem?_append_left (by omega), List.getElem?_eq_getElem (by omega)] at hi
      rw [Option.some.inj hi]
      simp; omega
    · rw [List.getElem_append_right (by omega)]
      rw [List.getElem?_append_right (by omega), List.getElem?_replicate, if_pos (by omega)] at hi
      rw [Option.some.inj hi]
      by_cases hin : i = n
      · subst hin; simp [hp]
      · rw [List.getElem_cons, dif_neg (by omega)]
        simp [hin]

/-- The bytes handed to the sink, followed by the pending bits, are the bits written. -/
theorem pall_bits : ∀ (ops : List WOp) (st : UInt8 × UInt8) (pb : List Bool) (pos : Nat) (bits : List Bool), Pend st pb → pos % 8 = pb.length →
    render pos ops = some bits → ∃ pb', Pend (pall st ops).2 pb' ∧ bytesBits (pall st ops).1.flatten ++ pb' = pb ++ bits
  | [], st, pb, pos, bits, h1, h2, h3 => by
    cases h3
    exact ⟨pb, h1, by simp [pall, bytesBits]⟩
  | .bit b :: ops, (bit, bp), pb, pos, bits, h1, h2, h3 => by
    rw [render, Option.map_eq_some_iff] at h3
    obtain ⟨bits', e, rfl⟩ := h3
    have hlt := h1.lt
    have hbp : bp = UInt8.ofNat pb.length := h1.bp
    have hb := byteBits_or_shift bit b hlt rfl h1.bit
    rw [← hbp] at hb
    by_cases h : bp + 1 = 8
    · have h7 : pb.length = 7 := by
        have := congrArg UInt8.toNat h
        rw [hbp] at this
        rw [UInt8.toNat_add, UInt8.toNat_ofNat'] at this
        have e8 : (8 : UInt8).toNat = 8 := rfl
        have e1 : (1 : UInt8).toNat = 1 := rfl
        rw [e8, e1] at this
        omega
      have e1 : pstep (bit, bp) (.bit b) = ([[bit ||| ((if b then 1 else 0) <<< bp)]], (0, 0)) := by
        unfold pstep; exact if_pos h
      obtain ⟨pb', g1, g2⟩ := pall_bits ops (0, 0) [] (pos + 1) bits' Pend.zero (by simp; omega) e
      refine ⟨pb', ?_, ?_⟩
      · unfold pall; rw [e1]; exact g1
      · unfold pall; rw [e1]
        show bytesBits ([[_]] ++ (pall (0, 0) ops).1).flatten ++ pb' = _
        rw [List.flatten_append, bytesBits_append, List.append_assoc, g2]
        show bytesBits [_] ++ _ = _
        rw [bytesBits_cons, hb, h7]
        simp [bytesBits]
    · have e1 : pstep (bit, bp) (.bit b) = ([], (bit ||| ((if b then 1 else 0) <<< bp), bp + 1)) := by
        unfold pstep; exact if_neg h
      have hlen : pb.length ≠ 7 := by
        intro h7
        apply h
        rw [hbp, h7]
        rfl
      obtain ⟨pb', g1, g2⟩ := pall_bits ops (bit ||| ((if b then 1 else 0) <<< bp), bp + 1) (pb ++ [b]) (pos + 1) bits' (by
        refine ⟨by simp; omega, ?_, ?_⟩
        · dsimp only
          rw [hbp, List.length_append, List.length_singleton, UInt8.ofNat_add]
          rfl
        · dsimp only
          rw [hb, List.length_append, List.length_singleton, show 8 - (pb.length + 1) = 7 - pb.length by omega]
          simp) (by simp; omega) e
      refine ⟨pb', ?_, ?_⟩
      · unfold pall; rw [e1]; exact g1
      · unfold pall; rw [e1]
        show bytesBits ([] ++ (pall _ ops).1).flatten ++ pb' = _
        rw [List.nil_append, g2]
        simp
  | .align :: ops, (bit, bp), pb, pos, bits, h1, h2, h3 => by
    rw [render, Option.map_eq_some_iff] at h3
    obtain ⟨bits', e, rfl⟩ := h3
    have hlt := h1.lt
    have hbp : bp = UInt8.ofNat pb.length := h1.bp
    by_cases h : bp = 0
    · have h0 : pb.length = 0 := by
        have := congrArg UInt8.toNat h
        rw [hbp, UInt8.toNat_ofNat'] at this
        have e0 : (0 : UInt8).toNat = 0 := rfl
        rw [e0] at this
        omega
      have hpad : padLen pos = 0 := by unfold padLen; omega
      have e1 : pstep (bit, bp) .align = ([], (bit, bp)) := by
        unfold pstep; exact if_neg (not_not_intro h)
      rw [hpad] at e ⊢
      obtain ⟨pb', g1, g2⟩ := pall_bits ops (bit, bp) pb pos bits' h1 h2 e
      refine ⟨pb', ?_, ?_⟩
      · unfold pall; rw [e1]; exact g1
      · unfold pall; rw [e1]
        show bytesBits ([] ++ (pall _ ops).1).flatten ++ pb' = _
        rw [List.nil_append, g2]
        simp
    · have h0 : pb.length ≠ 0 := by
        intro h7
        apply h
        rw [hbp, h7]
        rfl
      have hpad : padLen pos = 8 - pb.length := by unfold padLen; omega
      have e1 : pstep (bit, bp) .align = ([[bit]], (0, 0)) := by
        unfold pstep; exact if_pos h
      obtain ⟨pb', g1, g2⟩ := pall_bits ops (0, 0) [] (pos + padLen pos) bits' Pend.zero (by rw [padLen_mod]; rfl) e
      refine ⟨pb', ?_, ?_⟩
      · unfold pall; rw [e1]; exact g1
      · unfold pall; rw [e1]
        show bytesBits ([[bit]] ++ (pall (0, 0) ops).1).flatten ++ pb' = _
        rw [List.flatten_append, bytesBits_append, List.append_assoc, g2]
        show bytesBits [bit] ++ _ = _
        rw [bytesBits_cons, hpad]
        have hb : byteBits bit = pb ++ List.replicate (8 - pb.length) false := h1.bit
        rw [hb]
        simp [bytesBits]
  | .bytes l :: ops, (bit, bp), pb, pos, bits, h1, h2, h3 => by
    rw [render] at h3
    split at h3
    · rename_i hp
      rw [Option.map_eq_some_iff] at h3
      obtain ⟨bits', e, rfl⟩ := h3
      have h0 : pb = [] := by rw [← List.length_eq_zero_iff]; omega
      subst h0
      obtain ⟨pb', g1, g2⟩ := pall_bits ops (bit, bp) [] (pos + 8 * l.length) bits' h1 (by simp; omega) e
      refine ⟨pb', g1, ?_⟩
      show bytesBits ([l] ++ (pall (bit, bp) ops).1).flatten ++ pb' = _
      rw [List.flatten_append, bytesBits_append, List.append_assoc, g2]
      simp
    · cases h3

theorem pall_append (a b : List WOp) : ∀ st, pall st (a ++ b) = ((pall st a).1 ++ (pall (pall st a).2 b).1, (pall (pall st a).2 b).2) := by
  induction a with
  | nil => intro st; rfl
  | cons op a ih =>
    intro st
    show ((pstep st op).1 ++ (pall (pstep st op).2 (a ++ b)).1, (pall (pstep st op).2 (a ++ b)).2) = _
    rw [ih]
    show _ = (((pstep st op).1 ++ (pall (pstep st op).2 a).1) ++ _, _)
    rw [List.append_assoc]
    rfl

end Zopfli
