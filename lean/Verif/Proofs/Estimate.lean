import Verif.Props.Division
import Verif.Proofs.Cuts
/-! # The predicted sizes depend only on the items -/

namespace Zopfli
open Rfc Katajainen

variable {F : FloatOps}

theorem Hist.unique {c c' : Array Nat} {num : Nat} {l : List (Option Nat)} (h : Hist c num l) (h' : Hist c' num l) : c = c' := by
  refine Array.ext (by rw [h.1, h'.1]) fun i h1 h2 => ?_
  have k1 := h.2 i (by rw [← h.1]; exact h1)
  have k2 := h'.2 i (by rw [← h.1]; exact h1)
  rw [Array.getElem?_eq_getElem h1] at k1
  rw [Array.getElem?_eq_getElem h2] at k2
  rw [Option.some.inj k1, Option.some.inj k2]

theorem tryOptimize_congr {lz77 lz77' : Lz77Store} {lstart lend lstart' lend' : Nat} {llCounts dCounts ll d : Array Nat}
    (h : CountsOk llCounts dCounts) (hc : Codes llCounts dCounts ll d)
    (heq : ∀ ll d : Array Nat, ll.size = 288 → d.size = 32 →
      blockSymbolSizeGivenCounts llCounts dCounts ll d lz77 lstart lend = blockSymbolSizeGivenCounts llCounts dCounts ll d lz77' lstart' lend') :
    tryOptimizeHuffmanForRle lz77 lstart lend llCounts dCounts ll d = tryOptimizeHuffmanForRle lz77' lstart' lend' llCounts dCounts ll d := by
  unfold tryOptimizeHuffmanForRle
  rw [heq ll d hc.lls hc.ds]
  obtain ⟨llC, el, hlS, hlk, hlz⟩ := optimizeHuffmanForRle_spec llCounts
  obtain ⟨dC, ed, hdS, hdk, hdz⟩ := optimizeHuffmanForRle_spec dCounts
  rw [el, ed]
  have hS := h.lls
  have hDS := h.ds
  have hok : CountsOk llC dC := by
    refine ⟨by omega, by omega, fun i hi h286 => hlz 286 (fun j hj hj' => h.llz j hj hj') i hi h286,
      fun i hi h30 => hdz 30 (fun j hj hj' => h.dz j hj hj') i hi h30, by omega, ?_⟩
    obtain ⟨h1, h2⟩ := h.ll256
    exact hlk 256 h1 (by omega) h2
  obtain ⟨ll2, e1, d2, e2, hc2⟩ := lengths_spec hok hlS hdS hlk hdk
  have e2' : ∀ (f : Array Nat → Option (Nat × Array Nat × Array Nat)),
      (do let x ← lengthLimitedCodeLengths dC 15; let y ← patchDistanceCodes x; f y) = f d2 := by
    intro f
    rw [← bind_assoc, e2, some_bind]
  simp only [some_bind, e1, e2', heq ll2 d2 hc2.lls hc2.ds]

/-- The lengths of a dynamic block depend only on its items. -/
theorem getDynamicLengths_congr {s s' : Lz77Store} (h : StoreInv s) (h' : StoreInv s') {a b a' b' : Nat} (hle : a ≤ b) (hb : b ≤ s.size) (hle' : a' ≤ b')
    (hb' : b' ≤ s'.size) (he : (s.litlens.toList.take b).drop a = (s'.litlens.toList.take b').drop a') :
    getDynamicLengths s a b = getDynamicLengths s' a' b' := by
  unfold getDynamicLengths
  obtain ⟨⟨c1, c2⟩, e, h1, h2⟩ := getHistogram_spec h hle hb
  obtain ⟨⟨c1', c2'⟩, e', h1', h2'⟩ := getHistogram_spec h' hle' hb'
  rw [e, e', some_bind, some_bind]
  dsimp only at h1 h2 h1' h2' ⊢
  rw [← List.map_take, ← List.map_drop, ← he, List.map_drop, List.map_take] at h1' h2'
  obtain rfl := h1.unique h1'
  obtain rfl := h2.unique h2'
  rw [aset_eq (by rw [h1.1]; omega), some_bind]
  generalize hc1 : c1.set 256 1 (by rw [h1.1]; omega) = c1'
  have hr : ∀ x ∈ (s.litlens.toList.take b).drop a, x.InRange := fun x hx =>
    h.range x (List.mem_of_mem_take (List.mem_of_mem_drop hx))
  have hs1 : c1'.size = 288 := by rw [← hc1, Array.size_set, h1.1]
  have hc1v : ∀ t, t < 288 → t ≠ 256 → c1'[t]? = some ((((s.litlens.toList.map fun x => some (llSym x)).take b).drop a).count (some t)) := by
    intro t ht hne
    rw [← hc1, Array.getElem?_set, if_neg (by omega)]
    exact h1.2 t ht
  have hc1v' : ∀ t, t < 288 → t ≠ 256 → c1'[t]? = some ((((s'.litlens.toList.map fun x => some (llSym x)).take b').drop a').count (some t)) := by
    intro t ht hne
    rw [hc1v t ht hne, ← List.map_take, ← List.map_drop, he, List.map_drop, List.map_take]
  have h2'' : Hist c2 32 (((s'.litlens.toList.map dSym).take b').drop a') := by
    rw [← List.map_take, ← List.map_drop, ← he, List.map_drop, List.map_take]
    exact h2
  have hok : CountsOk c1' c2 := by
    refine ⟨hs1, h2.1, ?_, ?_, by omega, ?_⟩
    · intro i hi h286
      have := hc1v i (by omega) (by omega)
      rw [Array.getElem?_eq_getElem hi] at this
      rw [Option.some.inj this, List.count_eq_zero]
      rw [← List.map_take, ← List.map_drop]
      intro hm
      obtain ⟨x, hx, e⟩ := List.mem_map.mp hm
      have := (llSym_lt (hr x hx)).1
      have := Option.some.inj e
      omega
    · intro i hi h30
      have hi' : i < 32 := by rw [← h2.1]; exact hi
      have := h2.2 i hi'
      rw [Array.getElem?_eq_getElem hi] at this
      rw [Option.some.inj this, List.count_eq_zero]
      rw [← List.map_take, ← List.map_drop]
      intro hm
      obtain ⟨x, hx, e⟩ := List.mem_map.mp hm
      have := dSym_lt (hr x hx) e
      omega
    · simp [← hc1]
  obtain ⟨ll, e1, d, e2, hc⟩ := lengths_spec (llCounts := c1') (dCounts := c2) hok rfl rfl (fun _ _ _ h => h) (fun _ _ _ h => h)
  have e2' : ∀ (f : Array Nat → Option (Nat × Array Nat × Array Nat)),
      (do let x ← lengthLimitedCodeLengths c2 15; let y ← patchDistanceCodes x; f y) = f d := by
    intro f
    rw [← bind_assoc, e2, some_bind]
  simp only [some_bind, e1, e2']
  refine tryOptimize_congr hok hc fun ll d hl hd => ?_
  rw [blockSymbolSizeGivenCounts_spec hl hd h hle hb hc1v h2, blockSymbolSizeGivenCounts_spec hl hd h' hle' hb' hc1v' h2'', he]

theorem bitSequence_bitOps (bits : List Bool) : bitSequence [] (bitOps bits) = some bits := by
  rw [bitSequence_render, render_bitOps]
  rfl

/-- The bits of a fixed block of some items. -/
theorem writtenBits_fixed {items : List LitLen} (hr : ∀ x ∈ items, x.InRange) :
    writtenBits .fixed items = 3 + dataCost fixedTree.1 fixedTree.2 items := by
  obtain ⟨hp, -⟩ := placed_spec 0 items
  obtain ⟨s, e, h1, h2, -⟩ := storeOf_spec (items := placed 0 items) (by
    intro x hx
    refine hr x.1 ?_
    rw [← hp]
    exact List.mem_map_of_mem hx)
  rw [hp] at h2
  have hsz : s.size = items.length := by rw [Lz77Store.size_eq, h2]
  have h256 : 256 < fixedTree.1.size := by have := fixed_sizes; omega
  obtain ⟨bits, eb, el, -⟩ := addBlockData_spec h1.range (Nat.zero_le items.length) (by omega) fixed_codeOk.1 fixed_codeOk.2 (rll := fixedLL) (rd := fixedD)
    ⟨0, by rw [fixedLL_eq]; simp⟩ ⟨0, by rw [fixedD_eq]; simp⟩ ⟨h256, (fixed_ll_ne 256 h256).1⟩
    (fun x hx => fixed_coded (h1.range x (List.mem_of_mem_take (List.mem_of_mem_drop hx))))
  have hw : addLz77Block .fixed false #[] s 0 items.length = some (bitOps ([false, true, false] ++ bits)) := by
    unfold addLz77Block
    dsimp only
    rw [eb, some_bind, bitOps_append]
    rfl
  unfold writtenBits
  rw [e, some_bind, hw]
  dsimp only
  rw [bitSequence_bitOps, Option.getD_some, List.length_append, el, h2, List.drop_zero, List.take_length]
  rfl

/-- The bits of a dynamic block of some items. -/
theorem writtenBits_dynamic {s : Lz77Store} (h : StoreInv s) {a b : Nat} (hlt : a < b) (hb : b ≤ s.size) :
    ∃ t ll d, getDynamicLengths s a b = some (t + dataCost ll d ((s.litlens.toList.take b).drop a) % 2 ^ 32, ll, d) ∧ LensOk ll d ∧
      calculateTreeSize ll d = some t ∧
      writtenBits .dynamic ((s.litlens.toList.take b).drop a) = 3 + t + dataCost ll d ((s.litlens.toList.take b).drop a) := by
  obtain ⟨⟨n, ll, d⟩, e1, g1, ⟨t, g2, g3⟩, -⟩ := getDynamicLengths_spec h (Nat.le_of_lt hlt) hb
  dsimp only at g1 g2 g3
  refine ⟨t, ll, d, by rw [e1, g3], g1, g2, ?_⟩
  have hlen : ((s.litlens.toList.take b).drop a).length = b - a := by
    rw [List.length_drop, List.length_take, ← Lz77Store.size_eq]
    omega
  have hr : ∀ x ∈ (s.litlens.toList.take b).drop a, x.InRange := fun x hx =>
    h.range x (List.mem_of_mem_take (List.mem_of_mem_drop hx))
  generalize hit : (s.litlens.toList.take b).drop a = items at hlen hr ⊢
  obtain ⟨hp, -⟩ := placed_spec 0 items
  obtain ⟨s', e, h1, h2, -⟩ := storeOf_spec (items := placed 0 items) (by
    intro x hx
    refine hr x.1 ?_
    rw [← hp]
    exact List.mem_map_of_mem hx)
  rw [hp] at h2
  have hsz : s'.size = items.length := by rw [Lz77Store.size_eq, h2]
  have hall : (s'.litlens.toList.take items.length).drop 0 = items := by rw [h2, List.take_length, List.drop_zero]
  have hcongr := getDynamicLengths_congr h h1 (Nat.le_of_lt hlt) hb (Nat.zero_le items.length) (by omega) (by rw [hit, hall])
  obtain ⟨⟨n', ll', d'⟩, e1', g1', ⟨t', g2', g3'⟩, g4, g5, g6, g7⟩ := getDynamicLengths_spec h1 (Nat.zero_le items.length) (by omega)
  rw [← hcongr, e1] at e1'
  cases e1'
  dsimp only at g1' g2' g3' g4 g5 g6 g7
  have ht := g4 (by omega)
  obtain ⟨ops, e2, tb, rfl, -, k2, hdr, k3, k4, k5⟩ := addDynamicTree_spec ht
  rw [g2] at k2
  obtain ⟨bits, eb, el, -⟩ := addBlockData_spec h1.range (Nat.zero_le items.length) (by omega) (.of ht.lle ht.llk) (.of ht.de ht.dk) (rll := hdr.ll) (rd := hdr.d)
    k3 k4 g7 (fun x hx => ⟨g5 x hx, g6 x hx⟩)
  have hw : addLz77Block .dynamic false #[] s' 0 items.length = some (bitOps ([false, false, true] ++ (tb ++ bits))) := by
    unfold addLz77Block
    dsimp only
    rw [← hcongr, e1, some_bind]
    dsimp only
    rw [e2, some_bind, eb, some_bind, bitOps_append, bitOps_append]
    rfl
  unfold writtenBits
  rw [e, some_bind, hw]
  dsimp only
  rw [bitSequence_bitOps, Option.getD_some, List.length_append, List.length_append, el, hall, ← Option.some.inj k2]
  show 3 + _ = _
  omega

theorem storedBits_le (n : Nat) : storedBits n ≤ 48 * n := by unfold storedBits; omega

/-- The estimate of a range of fewer than 2^28 bytes is the predicted size of its items. -/
theorem autoType_predicted (X : FloatExact F) {data : Array UInt8} {p q : Nat} {s : Lz77Store} {a b : Nat} (h : RangeOk data p q s a b) (hlt : a < b)
    (hsz : q - p < 2 ^ 28) :
    calculateBlockSizeAutoType F s a b = some (F.ofUsize (predictedBits (decide (s.size ≤ 1000)) ((s.litlens.toList.take b).drop a))) ∧
      predictedBits (decide (s.size ≤ 1000)) ((s.litlens.toList.take b).drop a) ≤ 48 * (q - p) := by
  have hr : ∀ x ∈ (s.litlens.toList.take b).drop a, x.InRange := fun x hx =>
    h.inv.range x (List.mem_of_mem_take (List.mem_of_mem_drop hx))
  have hbytes : (((s.litlens.toList.take b).drop a).map LitLen.size).sum = q - p := by
    have := h.parses.stop
    omega
  have hst := storedBits_le (q - p)
  have hf := h.cost_lt hsz fixedLens_ok
  obtain ⟨t, ll, d, ed, hl, et, ew⟩ := writtenBits_dynamic h.inv hlt h.le'
  have hd := h.cost_lt hsz hl
  have ht := calculateTreeSize_le hl et
  have hwf := writtenBits_fixed hr
  refine ⟨?_, ?_⟩
  · unfold calculateBlockSizeAutoType
    rw [estimate_stored h, some_bind]
    obtain ⟨fbits, ef, ef2, ef3, -⟩ := estimate_fixed X h hf false
    obtain ⟨bits, e, el, -⟩ := addLz77Block_fixed h false
    rw [ef] at e
    have e := bitOps_inj (Option.some.inj e)
    subst e
    rw [← hwf] at el
    have edyn : calculateBlockSize F s a b .dynamic = some (F.ofUsize (writtenBits .dynamic ((s.litlens.toList.take b).drop a))) := by
      unfold calculateBlockSize
      dsimp only
      rw [ed, some_bind]
      show some (F.add (F.ofUsize _) (F.ofUsize 3)) = _
      rw [Nat.mod_eq_of_lt hd, X.add _ _ (by omega), ew]
      exact congrArg (fun z => some (F.ofUsize z)) (by omega)
    rw [edyn, ef2, el]
    unfold predictedBits
    rw [hbytes]
    by_cases hbig : s.size > 1000
    · rw [if_pos hbig, some_bind, some_bind, decide_eq_false (by omega)]
      show some _ = some _
      rw [X.min _ _ (by omega) (by omega), X.min _ _ (by rw [show Nat.min (storedBits (q - p)) (storedBits (q - p)) = storedBits (q - p) from Nat.min_self _]; omega)
        (by omega)]
      rw [show Nat.min (storedBits (q - p)) (storedBits (q - p)) = storedBits (q - p) from Nat.min_self _]
      rfl
    · rw [if_neg hbig, some_bind, some_bind, decide_eq_true (by omega)]
      show some _ = some _
      have hm : Nat.min (storedBits (q - p)) (writtenBits .fixed ((s.litlens.toList.take b).drop a)) < 2 ^ 53 :=
        Nat.lt_of_le_of_lt (Nat.min_le_left _ _) (by omega)
      rw [X.min _ _ (by omega) (by omega), X.min _ _ hm (by omega), if_pos rfl]
      exact congrArg (fun z => some (F.ofUsize z)) (Nat.min_assoc _ _ _)
  · unfold predictedBits
    rw [hbytes]
    exact Nat.le_trans (Nat.min_le_left _ _) hst

end Zopfli
