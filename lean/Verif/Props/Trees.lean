import Verif.Props.StreamShape
import Verif.Proofs.BlockSize
/-!
# C13, C15, C16, C17: histograms and tree descriptions
-/

namespace Zopfli
open Rfc Katajainen

/-! ## The symbols of the specification are those of the code -/

theorem llSym_eq {x : LitLen} (h : x.InRange) : llSym x = x.llSymbol := by
  cases x with
  | literal b => rfl
  | lengthDist len dist =>
    have key : ∀ len, len < 256 → (getLengthSymbol (len + 3)).getD 0 = lengthSymbol (len + 3) := by decide +kernel
    obtain ⟨h1, h2, -⟩ := h
    have := key (len - 3) (by omega)
    rwa [show len - 3 + 3 = len by omega] at this

theorem distSymbol_eq {dist : Nat} (h1 : 1 ≤ dist) (h2 : dist ≤ 32768) : getDistSymbol dist = distSymbol dist := by
  obtain ⟨a1, -, a3, a4, a5, -, a7⟩ := dist_spec h1 h2
  generalize getDistSymbol dist = s at *
  generalize getDistExtraBits dist = e at *
  generalize getDistExtraBitsValue dist = v at *
  unfold distSymbol
  have key : ∀ s, s < 30 → ∀ b, distBase[s]? = some b → ∀ e, distExtra[s]? = some e →
      (∀ x ∈ distBase.take (s + 1), x ≤ b) ∧ (∀ x ∈ distBase.drop (s + 1), b + 2 ^ e ≤ x) := by decide +kernel
  obtain ⟨k1, k2⟩ := key s a1 _ a7 _ a3
  rw [← List.take_append_drop (s + 1) distBase, List.filter_append, List.filter_eq_self.2, List.filter_eq_nil_iff.2]
  · rw [List.append_nil, List.length_take, show distBase.length = 30 from rfl]
    omega
  · intro x hx
    have := k2 x hx
    simp
    omega
  · intro x hx
    have := k1 x hx
    simp
    omega

theorem dSym_eq {x : LitLen} (h : x.InRange) : dSym x = x.dSymbol := by
  cases x with
  | literal b => rfl
  | lengthDist len dist => exact congrArg some (distSymbol_eq h.2.2.1 h.2.2.2)

theorem storeOf_loop : ∀ (items : List (LitLen × Nat)) (s : Lz77Store), StoreInv s → (∀ x ∈ items, x.1.InRange) →
    Ret (items.foldlM (fun s (x : LitLen × Nat) => s.appendStoreItem x.1 x.2) s) fun s' => StoreInv s' ∧
      s'.litlens.toList = s.litlens.toList ++ items.map Prod.fst ∧ s'.pos.toList = s.pos.toList ++ items.map Prod.snd
  | [], s, h, _ => Ret.pure ⟨h, by simp, by simp⟩
  | x :: items, s, h, hr => by
    rw [List.foldlM_cons]
    refine Ret.bind' (appendStoreItem_spec h (hr x (by simp)) x.2) ?_
    rintro s' ⟨h1, h2, h3⟩
    refine Ret.mono (storeOf_loop items s' h1 fun y hy => hr y (by simp [hy])) ?_
    rintro s'' ⟨g1, g2, g3⟩
    exact ⟨g1, by rw [g2, h2]; simp, by rw [g3, h3]; simp⟩

theorem storeOf_spec {items : List (LitLen × Nat)} (hr : ∀ x ∈ items, x.1.InRange) :
    Ret (storeOf items) fun s => StoreInv s ∧ s.litlens.toList = items.map Prod.fst ∧ s.pos.toList = items.map Prod.snd := by
  refine Ret.mono (storeOf_loop items _ StoreInv.new hr) ?_
  rintro s ⟨h1, h2, h3⟩
  exact ⟨h1, by simpa [Lz77Store.new] using h2, by simpa [Lz77Store.new] using h3⟩

/-- **C13** However long the sequence of items and whatever the range, the histogram of the range holds, for every
literal/length symbol and every distance symbol, the number of items of the range that have it. -/
theorem C13_histogram (items : List (LitLen × Nat)) (hr : ∀ x ∈ items, x.1.InRange) :
    ∃ s, storeOf items = some s ∧ ∀ lo hi, lo ≤ hi → hi ≤ items.length → ∃ ll d, s.getHistogram lo hi = some (ll, d) ∧
      ll.size = 288 ∧ d.size = 32 ∧
      (∀ i (h : i < ll.size), ll[i] = ((items.take hi).drop lo).countP fun x => x.1.llSymbol = i) ∧
      (∀ i (h : i < d.size), d[i] = ((items.take hi).drop lo).countP fun x => x.1.dSymbol = some i) := by
  obtain ⟨s, e, hs, hl, -⟩ := storeOf_spec hr
  refine ⟨s, e, fun lo hi h1 h2 => ?_⟩
  have hsz : s.size = items.length := by
    have := congrArg List.length hl
    simpa [Lz77Store.size] using this
  obtain ⟨⟨ll, d⟩, eg, ⟨g1, g2⟩, ⟨g3, g4⟩⟩ := getHistogram_spec hs h1 (by omega)
  dsimp only at g1 g2 g3 g4
  have hmem : ∀ x ∈ (items.take hi).drop lo, x.1.InRange := fun x hx => hr x (List.mem_of_mem_take (List.mem_of_mem_drop hx))
  refine ⟨ll, d, eg, g1, g3, fun i h => ?_, fun i h => ?_⟩
  · have := g2 i (by omega)
    rw [Array.getElem?_eq_getElem h, Option.some.injEq] at this
    rw [this, hl, List.map_map, ← List.map_take, ← List.map_drop, List.count, List.countP_map]
    refine List.countP_congr fun x hx => ?_
    simp [llSym_eq (hmem x hx)]
  · have := g4 i (by omega)
    rw [Array.getElem?_eq_getElem h, Option.some.injEq] at this
    rw [this, hl, List.map_map, ← List.map_take, ← List.map_drop, List.count, List.countP_map]
    refine List.countP_congr fun x hx => ?_
    simp [dSym_eq (hmem x hx)]

/-! ## Trees -/

theorem kraft15_of_sum {lens : List Nat} (hle : ∀ l ∈ lens, l ≤ 15) (h : kraftSum lens = 1) : kraft15 lens = 2 ^ 15 := by
  have := kraft15_rat lens hle
  rw [h, mul_one] at this
  exact_mod_cast this

theorem sum_of_kraft15 {lens : List Nat} (hle : ∀ l ∈ lens, l ≤ 15) (h : kraft15 lens = 2 ^ 15) : kraftSum lens = 1 := by
  have := kraft15_rat lens hle
  rw [h] at this
  push_cast at this
  have h2 : (2 : Rat) ^ 15 ≠ 0 := by positivity
  exact (mul_left_cancel₀ h2 (by rw [mul_one]; exact this)).symm

theorem GoodTree.ok {ll d : Array Nat} (h : GoodTree ll d) : TreeOk ll d where
  lls := h.llSize
  ds := h.dSize
  lle i hi := h.llMax _ (by simp)
  de i hi := h.dMax _ (by simp)
  ll286 i h1 h2 := h.llRange i h2 h1
  d30 i h1 h2 := h.dRange i h2 h1
  ll256 := by
    obtain ⟨h1, h2⟩ := h.endOfBlock
    rw [Array.getElem?_eq_getElem h1]
    simpa using h2
  llk := kraft15_of_sum h.llMax h.llComplete
  dk := kraft15_of_sum h.dMax h.dComplete

theorem mem_le {a : Array Nat} {n : Nat} (h : ∀ i (h : i < a.size), a[i] ≤ n) : ∀ l ∈ a.toList, l ≤ n := by
  intro l hl
  obtain ⟨i, hi, rfl⟩ := List.getElem_of_mem hl
  exact h i (by simpa using hi)

theorem TreeOk.good {ll d : Array Nat} (h : TreeOk ll d) : GoodTree ll d where
  llSize := h.lls
  dSize := h.ds
  llMax := mem_le h.lle
  dMax := mem_le h.de
  llRange i h1 h2 := h.ll286 i h2 h1
  dRange i h1 h2 := h.d30 i h2 h1
  endOfBlock := by
    have h1 : 256 < ll.size := by rw [h.lls]; omega
    have := h.ll256
    rw [Array.getElem?_eq_getElem h1] at this
    exact ⟨h1, by simpa using this⟩
  llComplete := sum_of_kraft15 (mem_le h.lle) h.llk
  dComplete := sum_of_kraft15 (mem_le h.de) h.dk

/-- **C16** Whatever combination of the repeat codes 16, 17 and 18 is allowed, the tree description written is bits that
RFC 1951 section 3.2.7 decodes, whatever follows, to the code lengths it was made from (the trailing lengths that are not
transmitted being zero). -/
theorem C16_tree_decodes (ll d : Array Nat) (h : GoodTree ll d) (use16 use17 use18 : Bool) :
    ∃ ops bits hdr, encodeTree ll d use16 use17 use18 = some ops ∧ WritesBits ops bits ∧
      (∃ k, ll.toList = hdr.ll ++ List.replicate k 0) ∧ (∃ k, d.toList = hdr.d ++ List.replicate k 0) ∧
      ∀ rest pos, readDynHeader ⟨bits ++ rest, pos⟩ = some (hdr, ⟨rest, pos + bits.length⟩) := by
  obtain ⟨ops, e, bits, e1, -, hdr, h1, h2, h3⟩ := encodeTree_spec h.ok use16 use17 use18
  exact ⟨ops, bits, hdr, e, e1, h1, h2, h3⟩

/-- **C16** The code lengths of every non-empty dynamic block are such lengths, and give a code to every symbol of the block. -/
theorem C16_block_lengths (items : List (LitLen × Nat)) (hr : ∀ x ∈ items, x.1.InRange) :
    ∃ s, storeOf items = some s ∧ ∀ lo hi, lo < hi → hi ≤ items.length → ∃ size ll d, getDynamicLengths s lo hi = some (size, ll, d) ∧
      GoodTree ll d ∧ ∀ x ∈ (items.take hi).drop lo, (∃ h : x.1.llSymbol < ll.size, ll[x.1.llSymbol] ≠ 0) ∧
        ∀ t, x.1.dSymbol = some t → ∃ h : t < d.size, d[t] ≠ 0 := by
  obtain ⟨s, e, hs, hl, -⟩ := storeOf_spec hr
  refine ⟨s, e, fun lo hi h1 h2 => ?_⟩
  have hsz : s.size = items.length := by
    have := congrArg List.length hl
    simpa [Lz77Store.size] using this
  obtain ⟨⟨size, ll, d⟩, eg, -, -, g1, g2, g3, -⟩ := getDynamicLengths_spec hs (Nat.le_of_lt h1) (by omega)
  refine ⟨size, ll, d, eg, (g1 h1).good, fun x hx => ?_⟩
  have hx' : x.1 ∈ (s.litlens.toList.take hi).drop lo := by
    rw [hl, ← List.map_take, ← List.map_drop]
    exact List.mem_map_of_mem hx
  have hr' := hr x (List.mem_of_mem_take (List.mem_of_mem_drop hx))
  rw [← llSym_eq hr', ← dSym_eq hr']
  exact ⟨g2 _ hx', g3 _ hx'⟩

/-- **C15** The tree description written for a dynamic block is that of one of the eight combinations of repeat codes, none
of the eight is shorter, and the size computed without output is the number of bits written. -/
theorem C15_tree_smallest (ll d : Array Nat) (h : GoodTree ll d) :
    ∃ ops bits, addDynamicTree ll d = some ops ∧ WritesBits ops bits ∧ calculateTreeSize ll d = some bits.length ∧
      (∃ use16 use17 use18, encodeTree ll d use16 use17 use18 = some ops) ∧
      ∀ use16 use17 use18, ∃ ops' bits', encodeTree ll d use16 use17 use18 = some ops' ∧ WritesBits ops' bits' ∧
        encodeTreeNoOutput ll d use16 use17 use18 = some bits'.length ∧ bits.length ≤ bits'.length := by
  obtain ⟨ops, e, bits, e1, h1, h2, -⟩ := addDynamicTree_spec h.ok
  refine ⟨ops, bits, e, e1, h2, ?_, fun u v w => ?_⟩
  · unfold addDynamicTree at e
    simp only [Option.bind_eq_bind, Option.bind_eq_some_iff] at e
    obtain ⟨⟨best, bs⟩, -, e⟩ := e
    exact ⟨_, _, _, e⟩
  · obtain ⟨ops', e', bits', e1', h1', -⟩ := encodeTree_spec h.ok u v w
    obtain ⟨n, en, hn⟩ := h1 u v w
    rw [h1'] at en
    cases en
    exact ⟨ops', bits', e', e1', h1', hn⟩

/-- **C17** Smoothing a histogram returns one of the same size in which every used symbol is still used and no symbol beyond
the last used one is used. -/
theorem C17_smoothing (counts : Array Nat) :
    ∃ out, optimizeHuffmanForRle counts = some out ∧ out.size = counts.size ∧
      (∀ i (h : i < counts.size) (h' : i < out.size), counts[i] ≠ 0 → out[i] ≠ 0) ∧
      (∀ i (h' : i < out.size), out[i] ≠ 0 → ∃ j, ∃ h : j < counts.size, i ≤ j ∧ counts[j] ≠ 0) := by
  obtain ⟨out, e, h1, h2, h3⟩ := optimizeHuffmanForRle_spec counts
  refine ⟨out, e, h1, h2, fun i hi hne => ?_⟩
  by_contra hc
  push Not at hc
  exact hne (h3 i (fun j hj hij => hc j hj hij) i hi (Nat.le_refl _))

/-! ## Concrete cases -/

/-- "abababab…": three literals and a match, many times over -/
def exampleItems : List (LitLen × Nat) :=
  [(.literal 97, 0), (.literal 98, 1), (.lengthDist 258 2, 2), (.literal 10, 260), (.lengthDist 3 32768, 261)]

theorem exampleItems_inRange : ∀ x ∈ exampleItems, x.1.InRange := by
  simp [exampleItems, LitLen.InRange]

example := C13_histogram exampleItems exampleItems_inRange

example := C16_block_lengths exampleItems exampleItems_inRange

/-- Lengths of a dynamic block: four literal/length symbols, two distances. -/
def exampleLL : Array Nat := (((Array.replicate 288 0).set! 97 2).set! 98 2 |>.set! 256 2).set! 285 2

/-- See `exampleLL`. -/
def exampleD : Array Nat := ((Array.replicate 32 0).set! 0 1).set! 29 1

theorem example_goodTree : GoodTree exampleLL exampleD where
  llSize := by decide +kernel
  dSize := by decide +kernel
  llMax := by decide +kernel
  dMax := by decide +kernel
  llRange := by decide +kernel
  dRange := by decide +kernel
  endOfBlock := by decide +kernel
  llComplete := by decide +kernel
  dComplete := by decide +kernel

example := C16_tree_decodes exampleLL exampleD example_goodTree
example := C15_tree_smallest exampleLL exampleD example_goodTree
example : optimizeHuffmanForRle #[5, 6, 5, 6, 5, 0, 0] = some #[5, 5, 5, 5, 5, 0, 0] := by decide +kernel

end Zopfli
