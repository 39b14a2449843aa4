import Verif.Props.StreamShape
/-!
# C27: the stored mode, byte for byte
-/

namespace Zopfli
open Rfc

theorem byteBits_inj {a b : UInt8} (h : byteBits a = byteBits b) : a = b := by
  apply UInt8.toNat_inj.1
  apply Nat.eq_of_testBit_eq
  intro i
  by_cases hi : i < 8
  · have := congrArg (·[i]?) h
    simpa [byteBits, hi] using this
  · have h2 : (2 : Nat) ^ 8 ≤ 2 ^ i := Nat.pow_le_pow_right (by omega) (by omega)
    rw [Nat.testBit_lt_two_pow (Nat.lt_of_lt_of_le a.toNat_lt h2), Nat.testBit_lt_two_pow (Nat.lt_of_lt_of_le b.toNat_lt h2)]

theorem bytesBits_inj : ∀ {a b : List UInt8}, bytesBits a = bytesBits b → a = b
  | [], [], _ => rfl
  | [], b :: l, h => by have := congrArg List.length h; simp [bytesBits_length] at this
  | a :: l, [], h => by have := congrArg List.length h; simp [bytesBits_length] at this
  | a :: l, b :: m, h => by
    rw [bytesBits_cons, bytesBits_cons] at h
    obtain ⟨h1, h2⟩ := List.append_inj h (by rw [byteBits_length, byteBits_length])
    rw [byteBits_inj h1, bytesBits_inj h2]

theorem Pend.nil {st : UInt8 × UInt8} (h : Pend st []) : st = (0, 0) := by
  obtain ⟨a, b⟩ := st
  have h1 := h.bp
  have h2 := h.bit
  dsimp only at h1 h2
  rw [show b = 0 from h1, byteBits_inj (h2.trans (by decide : _ = byteBits 0))]

theorem storedBlock_pall (final : Bool) {chunk : List UInt8} (h : chunk.length ≤ 65535) :
    (pall (0, 0) (storedBlock final chunk)).1.flatten = storedBlockBytes final chunk ∧ (pall (0, 0) (storedBlock final chunk)).2 = (0, 0) := by
  obtain ⟨pb, h1, h2⟩ := pall_bits _ _ [] 0 _ Pend.zero rfl (render_storedBlock final chunk 0)
  have e : bytesBits (storedBlockBytes final chunk) = [final, false, false] ++ List.replicate (padLen (0 + 3)) false ++
      bitsLsb chunk.length 16 ++ bitsLsb (2 ^ 64 - 1 - chunk.length) 16 ++ bytesBits chunk := by
    unfold storedBlockBytes
    rw [bytesBits_append]
    congr 1
    rw [bytesBits_cons, bytesBits_cons, bytesBits_cons, bytesBits_cons, bytesBits_cons]
    rw [← bytes16, ← bytes16]
    have e1 : chunk.length / 256 % 256 = chunk.length / 256 := Nat.mod_eq_of_lt (by omega)
    have e2 : (2 ^ 64 - 1 - chunk.length) % 256 = 255 - chunk.length % 256 := by omega
    have e3 : (2 ^ 64 - 1 - chunk.length) / 256 % 256 = 255 - chunk.length / 256 := by omega
    rw [e1, e2, e3]
    cases final
    · simp [bytesBits, byteBits, padLen, List.range, List.range.loop, List.replicate]
    · simp [bytesBits, byteBits, padLen, List.range, List.range.loop, List.replicate]
      decide
  rw [List.nil_append, ← e] at h2
  have hl := congrArg List.length h2
  rw [List.length_append, bytesBits_length, bytesBits_length] at hl
  have hpb : pb = [] := by
    have := h1.lt
    rw [← List.length_eq_zero_iff]
    omega
  subst hpb
  rw [List.append_nil] at h2
  exact ⟨bytesBits_inj h2, h1.nil⟩

theorem storedItems_pall (final : Bool) : ∀ (items : List (List UInt8 × Bool)), (∀ x ∈ items, x.1.length ≤ 65535) →
    (pall (0, 0) (items.map fun (c, f) => storedBlock (final && f) c).flatten).1.flatten = (items.map fun (c, f) => storedBlockBytes (final && f) c).flatten ∧
    (pall (0, 0) (items.map fun (c, f) => storedBlock (final && f) c).flatten).2 = (0, 0)
  | [], _ => ⟨rfl, rfl⟩
  | (c, f) :: items, h => by
    obtain ⟨h1, h2⟩ := storedBlock_pall (final && f) (h (c, f) (by simp))
    obtain ⟨h3, h4⟩ := storedItems_pall final items fun x hx => h x (by simp [hx])
    rw [List.map_cons, List.flatten_cons, pall_append]
    dsimp only
    rw [h2, List.flatten_append, h1, h3, h4]
    exact ⟨rfl, rfl⟩

theorem flagged_chunk (final : Bool) (bytes : List UInt8) (hb : bytes ≠ []) :
    ((flagLast (chunksOf 65535 bytes)).map fun (c, f) => storedBlockBytes (final && f) c).flatten = storedChunk final bytes := by
  generalize hk : bytes.length = k
  induction k using Nat.strongRecOn generalizing bytes with
  | ind k ih =>
    rw [chunksOf_cons (by decide) hb, storedChunk]
    by_cases hle : bytes.length ≤ 65535
    · rw [if_pos hle, if_neg (fun h => hb h.1), List.take_of_length_le hle, List.drop_of_length_le hle, chunksOf_nil]
      simp [flagLast]
    · have hne : bytes.drop 65535 ≠ [] := by
        intro e
        have := congrArg List.length e
        rw [List.length_drop, List.length_nil] at this
        omega
      have hi := ih (bytes.length - 65535) (by omega) (bytes.drop 65535) hne (by rw [List.length_drop])
      rw [if_neg hle, ← hi]
      rw [chunksOf_cons (by decide) hne, flagLast, List.map_cons, List.flatten_cons]
      dsimp only
      rw [Bool.and_false]

theorem storedItems_chunk (final : Bool) (bytes : List UInt8) :
    ((storedItems final bytes).map fun (c, f) => storedBlockBytes (final && f) c).flatten = storedChunk final bytes := by
  unfold storedItems
  split
  · rename_i h
    obtain ⟨rfl, rfl⟩ := h
    rw [storedChunk]
    simp
  · rename_i h
    by_cases hb : bytes = []
    · subst hb
      have hf : final = false := by cases final <;> simp_all
      rw [hf, chunksOf_nil, storedChunk]
      simp [flagLast]
    · exact flagged_chunk final bytes hb

/-- The encoder holds `chunk` and its bit writer is at a byte boundary. -/
structure StInv (c : DCore) (chunk : List UInt8) : Prop where
  acc : c.acc = (0, 0)
  start : c.chunkStart ≤ c.wac.size
  chunk : (c.wac.extract c.chunkStart c.wac.size).toList = chunk

theorem StInv.emit {F : FloatOps} {o : Options} {c : DCore} {chunk : List UInt8} (h : StInv c chunk) (last : Bool) :
    ∃ cs, c.emit F o .uncompressed last = some (cs, (0, 0)) ∧ cs.flatten = storedChunk last chunk := by
  unfold DCore.emit deflatePart
  dsimp only
  rw [addNonCompressedBlock_eq h.start (Nat.le_refl _), some_bind, h.acc, h.chunk]
  obtain ⟨h1, h2⟩ := storedItems_pall last (storedItems last chunk) (storedItems_le _ _)
  refine ⟨_, ?_, h1.trans (storedItems_chunk last chunk)⟩
  exact congrArg some (Prod.ext rfl h2)

theorem StInv.set (c : DCore) (h : c.acc = (0, 0)) (buf : List UInt8) : StInv (c.setChunk buf) buf := by
  refine ⟨h, ?_, ?_⟩ <;> simp [DCore.setChunk]

theorem coreWrites_stored {F : FloatOps} {o : Options} : ∀ (writes : List (List UInt8)) {c : DCore} {chunk : List UInt8}, StInv c chunk → c.haveChunk = true →
    ∃ cs c' cs', coreWrites F o .uncompressed c writes = some (cs, c') ∧ c'.finish F o .uncompressed = some cs' ∧
      cs.flatten ++ cs'.flatten = storedStream (chunk :: writes)
  | [], c, chunk, h, hc => by
    obtain ⟨cs, e1, e2⟩ := h.emit (F := F) (o := o) true
    refine ⟨[], c, cs ++ (pstep (0, 0) .align).1, rfl, ?_, ?_⟩
    · unfold DCore.finish
      rw [e1, some_bind]
      rfl
    · rw [show (pstep (0, 0) .align).1 = [] from rfl, List.append_nil, storedStream, e2]
      rfl
  | buf :: l, c, chunk, h, hc => by
    obtain ⟨cs, e1, e2⟩ := h.emit (F := F) (o := o) false
    have hw : c.write F o .uncompressed buf = some (cs, { c with acc := (0, 0) }.setChunk buf) := by
      unfold DCore.write
      rw [if_pos hc, e1, some_bind]
      rfl
    obtain ⟨cs1, c1, cs2, f1, f2, f3⟩ := coreWrites_stored (F := F) (o := o) l (StInv.set { c with acc := (0, 0) } rfl buf) rfl
    refine ⟨cs ++ cs1, c1, cs2, ?_, f2, ?_⟩
    · rw [coreWrites, hw, some_bind]
      dsimp only
      rw [f1, some_bind]
      rfl
    · rw [List.flatten_append, List.append_assoc, f3, e2, storedStream]

theorem streamOf_stored (F : FloatOps) (o : Options) (fmt : Format) (writes : List (List UInt8)) :
    StreamOf F o .uncompressed fmt writes (header fmt ++ storedStream writes ++ (trailer fmt writes.flatten).flatten) := by
  cases writes with
  | nil =>
    have h : StInv DCore.new [] := ⟨rfl, Nat.le_refl _, rfl⟩
    obtain ⟨cs, e1, e2⟩ := h.emit (F := F) (o := o) true
    refine ⟨[], DCore.new, cs ++ (pstep (0, 0) .align).1, rfl, ?_, ?_⟩
    · unfold DCore.finish
      rw [e1, some_bind]
      rfl
    · rw [show (pstep (0, 0) .align).1 = [] from rfl, List.append_nil, List.flatten_append, e2, storedStream]
      simp
  | cons w l =>
    obtain ⟨cs1, c1, cs2, f1, f2, f3⟩ := coreWrites_stored (F := F) (o := o) l (StInv.set DCore.new rfl w) rfl
    refine ⟨cs1, c1, cs2, ?_, f2, ?_⟩
    · rw [coreWrites, show DCore.new.write F o .uncompressed w = some ([], DCore.new.setChunk w) from rfl, some_bind]
      dsimp only
      rw [f1, some_bind]
      rfl
    · rw [List.flatten_append, ← f3]
      simp [List.append_assoc]

/-! ## Sizes -/

/-- `n / 65535` rounded up. -/
def storedBlockCount (n : Nat) : Nat := (n + 65534) / 65535

theorem storedChunk_length (final : Bool) (data : List UInt8) :
    (storedChunk final data).length = data.length + 5 * (if final then max 1 (storedBlockCount data.length) else storedBlockCount data.length) := by
  generalize hk : data.length = k
  induction k using Nat.strongRecOn generalizing data with
  | ind k ih =>
    rw [storedChunk]
    by_cases hle : data.length ≤ 65535
    · rw [if_pos hle]
      by_cases hd : data = []
      · subst hd
        subst hk
        cases final <;> simp [storedBlockBytes, storedBlockCount]
      · have hpos : 0 < data.length := List.length_pos_iff.2 hd
        have : storedBlockCount k = 1 := by unfold storedBlockCount; omega
        rw [if_neg (fun h => hd h.1), this]
        cases final <;> simp [storedBlockBytes, hk]
    · have hi := ih (data.length - 65535) (by omega) (data.drop 65535) (by rw [List.length_drop])
      have e1 : storedBlockCount k = storedBlockCount (data.length - 65535) + 1 := by unfold storedBlockCount; omega
      have e2 : 1 ≤ storedBlockCount (data.length - 65535) := by unfold storedBlockCount; omega
      rw [if_neg hle, List.length_append, hi, e1]
      have : (storedBlockBytes false (data.take 65535)).length = 65540 := by
        simp [storedBlockBytes]; omega
      rw [this]
      cases final
      · simp only [Bool.false_eq_true, if_false]; omega
      · simp only [if_true]; omega

variable {log2 : Fp → Fp} {σ : Type} {S : Sink σ} {I : σ → Prop} {log : σ → List UInt8} {patience : σ → Nat}

/-- **C27** With `BlockType::Uncompressed` the DEFLATE body is exactly the stored blocks of the written buffers, in
`65535`-byte pieces, whatever the options (and whatever floating point does). -/
theorem C27_stored_stream (F : FloatOps) (hS : Reliable S I log patience) (o : Options) (fmt : Format) (calls : List Call) (ending : Ending) (s : σ) (hs : I s) :
    ∃ s' stream, session ⟨F, S, o, .uncompressed⟩ fmt calls ending s = some (.ok (), s') ∧ log s' = log s ++ stream ∧
      IsBody fmt stream (storedStream (writesOf calls)) := by
  obtain ⟨s', g1, g2, g3⟩ := session_reliable ⟨F, S, o, .uncompressed⟩ hS fmt calls ending hs (streamOf_stored F o fmt (writesOf calls))
  exact ⟨s', _, g1, g2, ⟨_, _, rfl, header_size fmt, trailer_size fmt _⟩⟩

/-- **C27** The size of a stored body: the data, and five bytes for each started piece of `65535` bytes of each written
buffer, at least one for the last. -/
theorem C27_stored_size (writes : List (List UInt8)) (last : List UInt8) :
    (storedStream (writes ++ [last])).length =
      (writes.map fun w => w.length + 5 * storedBlockCount w.length).sum + last.length + 5 * max 1 (storedBlockCount last.length) := by
  induction writes with
  | nil => simp [storedStream, storedChunk_length]
  | cons w l ih =>
    cases l with
    | nil => simp [storedStream, storedChunk_length]; omega
    | cons v l =>
      rw [List.cons_append] at ih ⊢
      rw [List.cons_append, storedStream, List.length_append, ih, storedChunk_length]
      simp; omega

/-! ## Concrete cases -/

example : storedStream [[7, 8], [], [9]] = [0, 2, 0, 253, 255, 7, 8, 1, 1, 0, 254, 255, 9] := by
  simp [storedStream, storedChunk, storedBlockBytes]

example : ∃ s' stream, session ⟨ieee floorLog2, stutterSink, Options.default, .uncompressed⟩ .gzip exampleCalls .drop ([9], 1) = some (.ok (), s') ∧
    s'.1 = [9] ++ stream ∧ IsBody .gzip stream (storedStream (writesOf exampleCalls)) :=
  C27_stored_stream (ieee floorLog2) stutterSink_reliable Options.default .gzip exampleCalls .drop ([9], 1) trivial

end Zopfli
