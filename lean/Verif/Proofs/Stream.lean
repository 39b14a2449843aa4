import Verif.Proofs.EncoderPure
import Verif.Proofs.Part
/-! # The bytes of a whole DEFLATE stream -/

namespace Zopfli
open Rfc

variable {F : FloatOps}

/-- The last (at most) `n` elements. -/
def lastN {α : Type} (n : Nat) (l : List α) : List α := l.drop (l.length - n)

theorem lastN_length {α : Type} (n : Nat) (l : List α) : (lastN n l).length = min n l.length := by simp [lastN]; omega

theorem take_lastN {α : Type} (n : Nat) (l : List α) : l.take (l.length - n) ++ lastN n l = l := List.take_append_drop _ _

theorem lastN_append_le {α : Type} (n : Nat) (x y : List α) (h : n ≤ y.length) : lastN n (x ++ y) = lastN n y := by
  unfold lastN
  rw [List.drop_append, List.drop_eq_nil_of_le (by rw [List.length_append]; omega), List.nil_append, List.length_append]
  congr 1
  omega

theorem lastN_lastN {α : Type} (n : Nat) (a b : List α) : lastN n (lastN n a ++ b) = lastN n (a ++ b) := by
  by_cases h : n ≤ a.length
  · conv_rhs => rw [← take_lastN n a, List.append_assoc]
    rw [lastN_append_le n (a.take (a.length - n)) (lastN n a ++ b) (by rw [List.length_append, lastN_length]; omega)]
  · rw [show lastN n a = a by rw [lastN, show a.length - n = 0 by omega, List.drop_zero]]

/-- What has been written so far: the bytes `out` in the sink and the accumulator `acc` hold blocks that expand to
`prev`. -/
structure Written (acc : UInt8 × UInt8) (out : List UInt8) (blocks : List Block) (prev : List UInt8) (final : Bool) (pb : List Bool) : Prop where
  pend : Pend acc pb
  reads : ∀ rest, Reads ⟨(bytesBits out ++ pb) ++ rest, 0⟩ blocks ⟨rest, (bytesBits out ++ pb).length⟩
  exp : expand #[] blocks = some prev.toArray
  fin : FinalOk final blocks
  refs : ∀ b ∈ blocks, GoodRefs b

/-- The state of an encoder that has compressed `prev` and holds `chunk`. -/
structure DInv (c : DCore) (prev chunk out : List UInt8) : Prop where
  noChunk : c.haveChunk = false → chunk = []
  wac : c.wac.toList = lastN 32768 prev ++ chunk
  start : c.chunkStart = (lastN 32768 prev).length
  written : ∃ blocks pb, Written c.acc out blocks prev false pb

theorem DInv.new : DInv DCore.new [] [] [] :=
  ⟨fun _ => rfl, rfl, rfl, [], [], ⟨Pend.zero, fun rest => .nil _, rfl, by simp [FinalOk], by simp⟩⟩

theorem DInv.emit (L : FloatLaws F) (o : Options) (bt : BlockType) {c : DCore} {prev chunk out : List UInt8} (h : DInv c prev chunk out)
    (hsz : chunk.length < L.lim) (last : Bool) :
    Ret (c.emit F o bt last) fun r => ∃ blocks pb, Written r.2 (out ++ r.1.flatten) blocks (prev ++ chunk) last pb := by
  have hsize : c.wac.size = (lastN 32768 prev).length + chunk.length := by
    rw [← Array.length_toList, h.wac, List.length_append]
  have hl : (lastN 32768 prev).length ≤ 32768 := by rw [lastN_length]; omega
  have hlim := L.lim_ge
  unfold DCore.emit
  refine Ret.bind' (deflatePart_spec L o bt last (data := c.wac) (instart := c.chunkStart) (inend := c.wac.size) (by rw [h.start]; omega)
    (Nat.le_refl _) (by omega)) ?_
  rintro ops ⟨b2, he⟩
  obtain ⟨b1, pb, hw⟩ := h.written
  obtain ⟨bits, hr, hrd⟩ := he.read (bytesBits out ++ pb).length
  obtain ⟨pb', hp1, hp2⟩ := pall_bits ops c.acc pb (bytesBits out ++ pb).length bits hw.pend (by
    rw [List.length_append, bytesBits_length]
    have := hw.pend.lt
    omega) hr
  refine ⟨_, rfl, b1 ++ b2, pb', ⟨hp1, ?_, ?_, hw.fin.append he.fin, ?_⟩⟩
  · intro rest
    have e : bytesBits (out ++ (pall c.acc ops).1.flatten) ++ pb' = (bytesBits out ++ pb) ++ bits := by
      rw [bytesBits_append, List.append_assoc, hp2, List.append_assoc]
    rw [e, List.append_assoc, List.length_append]
    exact (hw.reads (bits ++ rest)).append (hrd rest)
  · rw [expand_append, hw.exp]
    have hH := he.exp (prev.take (prev.length - 32768)).toArray
    have e1 : (prev.take (prev.length - 32768)).toArray ++ c.wac.extract 0 c.chunkStart = prev.toArray := by
      apply Array.ext'
      rw [Array.toList_append, Array.toList_extract, h.wac, h.start, List.extract_eq_take_drop, List.drop_zero, Nat.sub_zero,
        List.take_left]
      rw [take_lastN]
    have e2 : (prev.take (prev.length - 32768)).toArray ++ c.wac.extract 0 c.wac.size = (prev ++ chunk).toArray := by
      apply Array.ext'
      rw [Array.extract_size, Array.toList_append, h.wac, ← List.append_assoc]
      rw [take_lastN]
    rw [e1, e2] at hH
    exact hH
  · intro b hb
    rw [List.mem_append] at hb
    exact hb.elim (hw.refs b) (he.refs b)

theorem DInv.write (L : FloatLaws F) (o : Options) (bt : BlockType) {c : DCore} {prev chunk out : List UInt8} (h : DInv c prev chunk out)
    (hsz : chunk.length < L.lim) (buf : List UInt8) :
    Ret (c.write F o bt buf) fun r => DInv r.2 (prev ++ chunk) buf (out ++ r.1.flatten) := by
  have key : ∀ (acc : UInt8 × UInt8) (out' : List UInt8), (∃ blocks pb, Written acc out' blocks (prev ++ chunk) false pb) →
      DInv ({ c with acc := acc }.setChunk buf) (prev ++ chunk) buf out' := by
    intro acc out' hw
    have hwin : (c.wac.extract (c.wac.size - WINDOW_SIZE) c.wac.size).toList = lastN 32768 (prev ++ chunk) := by
      rw [← lastN_lastN, ← h.wac, Array.toList_extract, List.extract_eq_take_drop, List.take_of_length_le (by simp)]
      unfold lastN
      rw [Array.length_toList]
    refine ⟨fun h => ?_, ?_, ?_, hw⟩
    · exact absurd (show true = false from h) (by simp)
    · rw [← hwin]
      simp only [DCore.setChunk, Array.toList_append]
    · rw [← hwin, Array.length_toList]
      simp only [DCore.setChunk]
  unfold DCore.write
  by_cases hb : c.haveChunk = true
  · rw [if_pos hb]
    refine Ret.bind' (h.emit L o bt hsz false) ?_
    rintro ⟨cs, acc⟩ hw
    exact ⟨_, rfl, key acc _ hw⟩
  · rw [if_neg hb, some_bind]
    refine ⟨_, rfl, key c.acc _ ?_⟩
    rw [h.noChunk (by simpa using hb)]
    dsimp only
    rw [List.append_nil, List.flatten_nil, List.append_nil]
    exact h.written

/-- A complete stream: the blocks, then zero padding to a byte boundary. -/
structure ValidStream (stream : List UInt8) (blocks : List Block) (data : List UInt8) : Prop where
  reads : ∃ bits pad, bytesBits stream = bits ++ List.replicate pad false ∧ pad < 8 ∧ ∀ rest, Reads ⟨bits ++ rest, 0⟩ blocks ⟨rest, bits.length⟩
  exp : expand #[] blocks = some data.toArray
  fin : FinalOk true blocks
  refs : ∀ b ∈ blocks, GoodRefs b

theorem DInv.finish (L : FloatLaws F) (o : Options) (bt : BlockType) {c : DCore} {prev chunk out : List UInt8} (h : DInv c prev chunk out)
    (hsz : chunk.length < L.lim) :
    Ret (c.finish F o bt) fun cs => ∃ blocks, ValidStream (out ++ cs.flatten) blocks (prev ++ chunk) := by
  unfold DCore.finish
  refine Ret.bind' (h.emit L o bt hsz true) ?_
  rintro ⟨cs, acc⟩ ⟨blocks, pb, hw⟩
  dsimp only at hw ⊢
  obtain ⟨pb', hp1, hp2⟩ := pall_bits [.align] acc pb pb.length (List.replicate (padLen pb.length) false) hw.pend (by
    have := hw.pend.lt; omega) (by simp [render])
  have hlen := congrArg List.length hp2
  rw [List.length_append, bytesBits_length, List.length_append, List.length_replicate] at hlen
  have hmod := padLen_mod pb.length
  have hlt := hp1.lt
  have hpb' : pb' = [] := by rw [← List.length_eq_zero_iff]; omega
  subst hpb'
  rw [List.append_nil] at hp2
  have hpall : (pall acc [.align]).1 = (pstep acc .align).1 := by
    show (pstep acc .align).1 ++ [] = _
    rw [List.append_nil]
  rw [hpall] at hp2
  refine ⟨_, rfl, blocks, ⟨⟨bytesBits (out ++ cs.flatten) ++ pb, padLen pb.length, ?_, padLen_lt _, hw.reads⟩, hw.exp, hw.fin, hw.refs⟩⟩
  rw [List.flatten_append, ← List.append_assoc, bytesBits_append, hp2, List.append_assoc]

/-- Parsing a complete stream yields its blocks and exactly the bytes that follow. -/
theorem ValidStream.parse {stream : List UInt8} {blocks : List Block} {data : List UInt8} (h : ValidStream stream blocks data) (rest : List UInt8) :
    parse (stream ++ rest) = some (blocks, rest) := by
  obtain ⟨bits, pad, e, hpad, hr⟩ := h.reads
  have hlen := congrArg List.length e
  rw [bytesBits_length, List.length_append, List.length_replicate] at hlen
  unfold Rfc.parse
  rw [bytesBits_append, e, List.append_assoc, readBlocks_of (hr _) h.fin, some_bind]
  show some (_, _) = _
  rw [show (bits.length + 7) / 8 = stream.length by omega, List.drop_left]

theorem ValidStream.inflatePrefix {stream : List UInt8} {blocks : List Block} {data : List UInt8} (h : ValidStream stream blocks data)
    (rest : List UInt8) : inflatePrefix (stream ++ rest) = some (data, rest) := by
  unfold Rfc.inflatePrefix
  rw [h.parse, some_bind]
  dsimp only
  rw [h.exp, some_bind]
  simp

theorem ValidStream.inflate {stream : List UInt8} {blocks : List Block} {data : List UInt8} (h : ValidStream stream blocks data) :
    inflate stream = some data := by
  unfold Rfc.inflate
  have := h.inflatePrefix []
  rw [List.append_nil] at this
  rw [this, some_bind]
  simp

/-- The byte strings handed to the sink by a sequence of writes, and the state after them. -/
def coreWrites (F : FloatOps) (o : Options) (bt : BlockType) : DCore → List (List UInt8) → Option (List (List UInt8) × DCore)
  | c, [] => some ([], c)
  | c, buf :: l => do
    let (cs, c) ← c.write F o bt buf
    let (cs', c) ← coreWrites F o bt c l
    return (cs ++ cs', c)

theorem coreWrites_spec (L : FloatLaws F) (o : Options) (bt : BlockType) : ∀ (writes : List (List UInt8)) {c : DCore} {prev chunk out : List UInt8},
    DInv c prev chunk out → chunk.length < L.lim → (∀ w ∈ writes, w.length < L.lim) →
    Ret (coreWrites F o bt c writes) fun r => ∃ prev' chunk', DInv r.2 prev' chunk' (out ++ r.1.flatten) ∧
      prev' ++ chunk' = prev ++ chunk ++ writes.flatten ∧ chunk'.length < L.lim
  | [], c, prev, chunk, out, h, hc, _ => by
    rw [coreWrites]
    refine ⟨_, rfl, prev, chunk, ?_, ?_, hc⟩
    · rw [List.flatten_nil, List.append_nil]
      exact h
    · rw [List.flatten_nil, List.append_nil]
  | buf :: l, c, prev, chunk, out, h, hc, hw => by
    rw [coreWrites]
    refine Ret.bind' (h.write L o bt hc buf) ?_
    rintro ⟨cs, c'⟩ h'
    refine Ret.bind' (coreWrites_spec L o bt l h' (hw buf (by simp)) fun w hw' => hw w (by simp [hw'])) ?_
    rintro ⟨cs', c2⟩ ⟨prev', chunk', hv, he, hlt⟩
    refine ⟨_, rfl, prev', chunk', ?_, ?_, hlt⟩
    · rw [List.flatten_append, ← List.append_assoc]
      exact hv
    · rw [he, List.flatten_cons, ← List.append_assoc]

end Zopfli
