import Verif.Proofs.TreeEnc
/-! # Histogram smoothing, the distance-code patch and the lengths of a dynamic block -/

namespace Zopfli
open Rfc Katajainen

theorem trimTrailing_spec (counts : Array Nat) : ∀ (n : Nat), n ≤ counts.size →
    Ret (trimTrailing counts n) fun r => r ≤ n ∧ (∀ i (h : i < counts.size), r ≤ i → i < n → counts[i] = 0) ∧
      (∀ h : r - 1 < counts.size, 0 < r → counts[r - 1] ≠ 0)
  | 0, _ => Ret.some ⟨Nat.le_refl _, fun i h h1 h2 => by omega, fun _ h => by omega⟩
  | n + 1, hn => by
    unfold trimTrailing
    refine Ret.bind (Ret.getElem? (by omega) ?_)
    split
    · rename_i h0
      exact Ret.pure ⟨Nat.le_refl _, fun i h h1 h2 => by omega, fun _ _ => h0⟩
    · rename_i h0
      refine Ret.mono (trimTrailing_spec counts n (by omega)) ?_
      rintro r ⟨h1, h2, h3⟩
      refine ⟨by omega, fun i h g1 g2 => ?_, h3⟩
      rcases Nat.lt_or_eq_of_le (Nat.le_of_lt_succ g2) with hlt | rfl
      · exact h2 i h g1 hlt
      · simpa using h0

theorem markGoodForRle_spec (counts : Array Nat) (length : Nat) (hl : length ≤ counts.size) (h0 : 0 < length) :
    Ret (markGoodForRle counts length) fun g => g.size = length := by
  unfold markGoodForRle
  refine Ret.bind (Ret.getElem? (by omega) ?_)
  refine Ret.bind' (forRange_spec (fun i (s : Array Bool × Nat × Nat) => s.1.size = length ∧ s.2.2 ≤ i) (by omega) (by simp) ?_) ?_
  · rintro i ⟨good, symbol, stride⟩ - hi ⟨h1, h2⟩
    dsimp only at h1 h2 ⊢
    refine Ret.bind (Ret.getElem? (by omega) ?_)
    split
    · exact Ret.pure ⟨h1, by dsimp only; omega⟩
    · have hinner : Ret (if (symbol = 0 ∧ stride ≥ 5) ∨ (symbol ≠ 0 ∧ stride ≥ 7) then
            forRange 0 stride good fun k good => do aset good (← usub (i - k) 1) true
          else some good) fun g => g.size = length := by
        split
        · refine forRange_spec (fun _ (g : Array Bool) => g.size = length) (by omega) h1 ?_
          rintro k g - hk hg
          refine Ret.bind (Ret.usub (by omega) ?_)
          refine Ret.aset (by omega) (by simpa using hg)
        · exact Ret.some h1
      refine Ret.bind' hinner fun g hg => Ret.pure ⟨hg, by dsimp only; omega⟩
  · rintro ⟨good, symbol, stride⟩ ⟨h1, h2⟩
    exact Ret.pure h1

structure SmoothInv (c0 : Array Nat) (length i : Nat) (st : RleState) : Prop where
  size : st.counts.size = c0.size
  stride : st.stride ≤ i
  keep : ∀ j (h : j < c0.size) (h' : j < st.counts.size), c0[j] ≠ 0 → st.counts[j] ≠ 0
  tail : ∀ j (h : j < c0.size) (h' : j < st.counts.size), length ≤ j → st.counts[j] = c0[j]
  zero : st.sum = 0 → ∀ j (h' : j < st.counts.size), i ≤ j + st.stride → j < i → st.counts[j] = 0

theorem setCounts_eq {counts : Array Nat} {count i stride : Nat} (h : stride ≤ i) (h' : i ≤ counts.size) :
    setCountsToCount counts count i stride
      = some (counts.mapIdx fun k x => if i - stride ≤ k ∧ k < i then count else x) := by
  simp [setCountsToCount, h, h']

theorem rleStep_spec {c0 : Array Nat} {length : Nat} {good : Array Bool} (hl : length ≤ c0.size) (hg : good.size = length)
    {i : Nat} {st : RleState} (hi : i ≤ length) (h : SmoothInv c0 length i st) :
    Ret (rleStep length good i st) fun st' => (i < length → SmoothInv c0 length (i + 1) st') ∧
      st'.counts.size = c0.size ∧
      (∀ j (h : j < c0.size) (h' : j < st'.counts.size), c0[j] ≠ 0 → st'.counts[j] ≠ 0) ∧
      (∀ j (h : j < c0.size) (h' : j < st'.counts.size), length ≤ j → st'.counts[j] = c0[j]) := by
  obtain ⟨counts, stride, limit, sum⟩ := st
  obtain ⟨hs, hst, hk, ht, hz⟩ := h
  dsimp only at hs hst hk ht hz
  unfold rleStep
  dsimp only
  have hcol : Ret (if i = length then some true
      else do if ← good[i]? then some true else farFrom (← counts[i]?) limit) fun _ => True := by
    split
    · exact Ret.some trivial
    · refine Ret.bind (Ret.getElem? (by omega) ?_)
      split
      · exact Ret.some trivial
      · refine Ret.bind (Ret.getElem? (by omega) ?_)
        exact Ret.some trivial
  refine Ret.bind' hcol fun collapse _ => ?_
  have hmid : Ret (if collapse then do
        let counts ←
          (if stride ≥ 4 ∨ (stride ≥ 3 ∧ sum = 0) then
            setCountsToCount counts (if sum = 0 then 0 else max ((sum + stride / 2) / stride) 1) i stride
          else some counts)
        let limit ←
          (if length > 2 ∧ i < length - 3 then do
            some (((← counts[i]?) + (← counts[i + 1]?) + (← counts[i + 2]?) + (← counts[i + 3]?) + 2) / 4)
          else if i < length then counts[i]?
          else some 0)
        some (counts, 0, limit, 0)
      else some (counts, stride, limit, sum)) fun r =>
        r.1.size = c0.size ∧ r.2.1 ≤ i ∧
        (∀ j (h : j < c0.size) (h' : j < r.1.size), c0[j] ≠ 0 → r.1[j] ≠ 0) ∧
        (∀ j (h : j < c0.size) (h' : j < r.1.size), length ≤ j → r.1[j] = c0[j]) ∧
        (r.2.2.2 = 0 → ∀ j (h' : j < r.1.size), i ≤ j + r.2.1 → j < i → r.1[j] = 0) := by
    split
    · have h1 : Ret (if stride ≥ 4 ∨ (stride ≥ 3 ∧ sum = 0) then
            setCountsToCount counts (if sum = 0 then 0 else max ((sum + stride / 2) / stride) 1) i stride
          else some counts) fun c => c.size = c0.size ∧
            (∀ j (h : j < c0.size) (h' : j < c.size), c0[j] ≠ 0 → c[j] ≠ 0) ∧
            (∀ j (h : j < c0.size) (h' : j < c.size), length ≤ j → c[j] = c0[j]) := by
        split
        · refine Ret.of_eq (setCounts_eq hst (by omega)) ⟨by simpa using hs, ?_, ?_⟩
          · intro j h h' hne
            simp only [Array.getElem_mapIdx]
            split
            · rename_i hj
              split
              · rename_i h0
                exact absurd (hz h0 j (by omega) (by omega) (by omega)) (hk j h (by omega) hne)
              · omega
            · exact hk j h (by omega) hne
          · intro j h h' hlj
            simp only [Array.getElem_mapIdx]
            rw [if_neg (by omega)]
            exact ht j h (by omega) hlj
        · exact Ret.some ⟨hs, hk, ht⟩
      refine Ret.bind' h1 ?_
      rintro c ⟨g1, g2, g3⟩
      have h2 : Ret (if length > 2 ∧ i < length - 3 then do
            some (((← c[i]?) + (← c[i + 1]?) + (← c[i + 2]?) + (← c[i + 3]?) + 2) / 4)
          else if i < length then c[i]?
          else some 0) fun _ => True := by
        split
        · refine Ret.bind (Ret.getElem? (by omega) ?_)
          refine Ret.bind (Ret.getElem? (by omega) ?_)
          refine Ret.bind (Ret.getElem? (by omega) ?_)
          refine Ret.bind (Ret.getElem? (by omega) ?_)
          exact Ret.some trivial
        · split
          · exact Ret.getElem? (by omega) trivial
          · exact Ret.some trivial
      refine Ret.bind' h2 fun lim _ => ?_
      refine Ret.some ⟨g1, Nat.zero_le _, g2, g3, ?_⟩
      intro _ j _ h1 h2
      dsimp only at h1
      omega
    · exact Ret.some ⟨hs, hst, hk, ht, hz⟩
  refine Ret.bind' hmid ?_
  rintro ⟨c, stride', limit', sum'⟩ ⟨g1, g2, g3, g4, g5⟩
  dsimp only at g1 g2 g3 g4 g5 ⊢
  have hsum : Ret (if i ≠ length then do some (sum' + (← c[i]?)) else some sum') fun s =>
      i < length → ∃ hc : i < c.size, s = sum' + c[i] := by
    split
    · refine Ret.bind (Ret.getElem? (by omega) ?_)
      exact Ret.some fun _ => ⟨by omega, rfl⟩
    · exact Ret.some fun h => by omega
  refine Ret.bind' hsum fun s hs' => ?_
  refine Ret.pure ⟨fun hlt => ⟨g1, by dsimp only; omega, g3, g4, ?_⟩, g1, g3, g4⟩
  obtain ⟨hc, rfl⟩ := hs' hlt
  dsimp only
  intro h0 j hj h1 h2
  rcases Nat.lt_or_eq_of_le (Nat.le_of_lt_succ h2) with hlt | rfl
  · exact g5 (by omega) j hj (by omega) hlt
  · omega

/-- Smoothing never drops a used symbol, and leaves the trailing unused symbols alone. -/
theorem optimizeHuffmanForRle_spec (c0 : Array Nat) :
    Ret (optimizeHuffmanForRle c0) fun c => c.size = c0.size ∧
      (∀ j (h : j < c0.size) (h' : j < c.size), c0[j] ≠ 0 → c[j] ≠ 0) ∧
      (∀ k, (∀ j (h : j < c0.size), k ≤ j → c0[j] = 0) → ∀ j (h' : j < c.size), k ≤ j → c[j] = 0) := by
  unfold optimizeHuffmanForRle
  refine Ret.bind' (trimTrailing_spec c0 c0.size (Nat.le_refl _)) ?_
  rintro length ⟨hl, -, hlast0⟩
  split
  · exact Ret.pure ⟨rfl, fun j _ _ h => h, fun k h => h⟩
  · rename_i h0
    refine Ret.bind' (markGoodForRle_spec c0 length hl (by omega)) fun good hg => ?_
    refine Ret.bind (Ret.getElem? (by omega) ?_)
    rw [forRange_snoc (Nat.zero_le _)]
    have hloop : Ret (forRange 0 length (⟨c0, 0, c0[0]'(by omega), 0⟩ : RleState) fun i st => rleStep length good i st)
        (SmoothInv c0 length length) := by
      refine forRange_spec (SmoothInv c0 length) (by omega) ⟨rfl, by simp, fun _ _ _ h => h, fun _ _ _ _ => rfl, ?_⟩ ?_
      · intro _ j _ _ h; omega
      · intro i st _ hi hinv
        exact Ret.mono (rleStep_spec hl hg (by omega) hinv) fun st' h => h.1 hi
    refine Ret.bind (Ret.bind' hloop ?_)
    intro st hinv
    refine Ret.mono (rleStep_spec hl hg (Nat.le_refl _) hinv) ?_
    rintro st' ⟨-, g1, g2, g3⟩
    refine Ret.pure ⟨g1, g2, ?_⟩
    intro k hk j hj hkj
    have hj0 : j < c0.size := by omega
    by_cases hlt : length ≤ j
    · rw [g3 j hj0 hj hlt]; exact hk j hj0 hkj
    · -- then the trimmed part contains a position at or after `k`: impossible unless it is zero
      exfalso
      exact hlast0 (by omega) (by omega) (hk _ (by omega) (by omega))

/-- `add_dynamic_tree` writes a header that the decoder reads back, and that is the smallest of the eight variants. -/
theorem addDynamicTree_spec {ll d : Array Nat} (h : TreeOk ll d) :
    Ret (addDynamicTree ll d) fun ops => ∃ bits, ops = bitOps bits ∧
      (∀ u16 u17 u18, Ret (encodeTreeNoOutput ll d u16 u17 u18) fun n => bits.length ≤ n) ∧
      calculateTreeSize ll d = some bits.length ∧
      ∃ hdr : DynHeader, (∃ k, ll.toList = hdr.ll ++ List.replicate k 0) ∧ (∃ k, d.toList = hdr.d ++ List.replicate k 0) ∧
        ∀ rest pos, readDynHeader ⟨bits ++ rest, pos⟩ = some (hdr, ⟨rest, pos + bits.length⟩) := by
  have hn : ∀ u16 u17 u18, ∃ n, encodeTreeNoOutput ll d u16 u17 u18 = some n ∧ 26 ≤ n := fun u16 u17 u18 => by
    obtain ⟨n, e, hn⟩ := encodeTreeNoOutput_ret h.toLensOk u16 u17 u18
    exact ⟨n, e, hn⟩
  choose N hN hN26 using hn
  unfold addDynamicTree
  have hloop : Ret (forRange 0 8 (0, 0) fun i (x : Nat × Nat) => do
      let size ← encodeTreeNoOutput ll d (decide (i &&& 1 > 0)) (decide (i &&& 2 > 0)) (decide (i &&& 4 > 0))
      if x.2 = 0 ∨ size < x.2 then return (i, size) else return (x.1, x.2)) fun r =>
      r.2 = N (decide (r.1 &&& 1 > 0)) (decide (r.1 &&& 2 > 0)) (decide (r.1 &&& 4 > 0)) ∧
      ∀ j, j < 8 → r.2 ≤ N (decide (j &&& 1 > 0)) (decide (j &&& 2 > 0)) (decide (j &&& 4 > 0)) := by
    refine Ret.mono (forRange_spec (fun i (r : Nat × Nat) => (i = 0 ∧ r.2 = 0) ∨
      (0 < i ∧ r.2 = N (decide (r.1 &&& 1 > 0)) (decide (r.1 &&& 2 > 0)) (decide (r.1 &&& 4 > 0)) ∧
      ∀ j, j < i → r.2 ≤ N (decide (j &&& 1 > 0)) (decide (j &&& 2 > 0)) (decide (j &&& 4 > 0)))) (by omega) (by simp) ?_) ?_
    · rintro i ⟨best, bestsize⟩ - hi hinv
      dsimp only at hinv ⊢
      rw [hN, some_bind]
      have h26 := hN26 (decide (i &&& 1 > 0)) (decide (i &&& 2 > 0)) (decide (i &&& 4 > 0))
      split
      · rename_i hc
        refine Ret.pure (.inr ⟨by omega, rfl, fun j hj => ?_⟩)
        dsimp only
        rcases Nat.lt_or_eq_of_le (Nat.le_of_lt_succ hj) with hlt | rfl
        · rcases hinv with hinv | ⟨h1, h2, h3⟩
          · omega
          · have := h3 j hlt
            have := hN26 (decide (best &&& 1 > 0)) (decide (best &&& 2 > 0)) (decide (best &&& 4 > 0))
            omega
        · exact Nat.le_refl _
      · rename_i hc
        rcases hinv with hinv | ⟨h1, h2, h3⟩
        · omega
        · refine Ret.pure (.inr ⟨by omega, h2, fun j hj => ?_⟩)
          rcases Nat.lt_or_eq_of_le (Nat.le_of_lt_succ hj) with hlt | rfl
          · exact h3 j hlt
          · dsimp only; omega
    · rintro r (h | ⟨-, h⟩)
      · omega
      · exact h
  refine Ret.bind' hloop ?_
  rintro ⟨best, bestsize⟩ ⟨h1, h2⟩
  dsimp only at h1 h2 ⊢
  refine Ret.mono (encodeTree_spec h _ _ _) ?_
  rintro ops ⟨bits, e1, e2, e3⟩
  have hb : bits.length = bestsize := by
    rw [hN] at e2
    rw [h1]
    exact (Option.some.inj e2).symm
  refine ⟨bits, e1, ?_, ?_, e3⟩
  · intro u16 u17 u18
    refine ⟨_, hN _ _ _, ?_⟩
    rw [hb]
    have := h2 (u16.toNat + 2 * u17.toNat + 4 * u18.toNat) (by cases u16 <;> cases u17 <;> cases u18 <;> decide)
    revert this
    cases u16 <;> cases u17 <;> cases u18 <;> exact id
  · unfold calculateTreeSize
    simp only [hN, some_bind]
    show some _ = _
    congr 1
    have a0 := h2 0 (by omega)
    have a1 := h2 1 (by omega)
    have a2 := h2 2 (by omega)
    have a3 := h2 3 (by omega)
    have a4 := h2 4 (by omega)
    have a5 := h2 5 (by omega)
    have a6 := h2 6 (by omega)
    have a7 := h2 7 (by omega)
    simp only [show decide (0 &&& 1 > 0) = false from rfl, show decide (0 &&& 2 > 0) = false from rfl, show decide (0 &&& 4 > 0) = false from rfl,
      show decide (1 &&& 1 > 0) = true from rfl, show decide (1 &&& 2 > 0) = false from rfl, show decide (1 &&& 4 > 0) = false from rfl,
      show decide (2 &&& 1 > 0) = false from rfl, show decide (2 &&& 2 > 0) = true from rfl, show decide (2 &&& 4 > 0) = false from rfl,
      show decide (3 &&& 1 > 0) = true from rfl, show decide (3 &&& 2 > 0) = true from rfl, show decide (3 &&& 4 > 0) = false from rfl,
      show decide (4 &&& 1 > 0) = false from rfl, show decide (4 &&& 2 > 0) = false from rfl, show decide (4 &&& 4 > 0) = true from rfl,
      show decide (5 &&& 1 > 0) = true from rfl, show decide (5 &&& 2 > 0) = false from rfl, show decide (5 &&& 4 > 0) = true from rfl,
      show decide (6 &&& 1 > 0) = false from rfl, show decide (6 &&& 2 > 0) = true from rfl, show decide (6 &&& 4 > 0) = true from rfl,
      show decide (7 &&& 1 > 0) = true from rfl, show decide (7 &&& 2 > 0) = true from rfl, show decide (7 &&& 4 > 0) = true from rfl]
      at a0 a1 a2 a3 a4 a5 a6 a7
    rw [hb]
    revert h1
    cases decide (best &&& 1 > 0) <;> cases decide (best &&& 2 > 0) <;> cases decide (best &&& 4 > 0) <;> (intro h1; omega)

/-! ## The distance-code patch -/

theorem kraft15_set : ∀ (l : List Nat) (i v : Nat) (h : i < l.length), l[i] = 0 → v ≠ 0 →
    kraft15 (l.set i v) = kraft15 l + 2 ^ (15 - v)
  | x :: l, 0, v, _, h0, hv => by
    simp only [List.getElem_cons_zero] at h0
    subst h0
    simp [kraft15, hv, Nat.add_comm]
  | x :: l, i + 1, v, h, h0, hv => by
    have ih := kraft15_set l i v (by simpa using h) (by simpa using h0) hv
    unfold kraft15 at ih ⊢
    simp only [List.set_cons_succ, List.map_cons, List.sum_cons, ih]
    omega

theorem used_count (f : Array Nat) : (usedLeaves f).length = ((List.range f.size).filter fun i => f.getD i 0 ≠ 0).length := by
  unfold usedLeaves
  generalize List.range f.size = l
  induction l with
  | nil => rfl
  | cons x l ih =>
    simp only [List.filterMap_cons, List.filter_cons]
    rw [Array.getD_eq_getD_getElem?] at *
    by_cases h : f[x]?.getD 0 = 0
    · simpa [h] using ih
    · simpa [h] using ih

theorem nonzero_count (a : Array Nat) (n : Nat) (hn : n ≤ a.size) (hz : ∀ i (h : i < a.size), n ≤ i → a[i] = 0) :
    ((a.toList.take n).filter (· ≠ 0)).length = ((List.range a.size).filter fun i => a.getD i 0 ≠ 0).length := by
  have h1 : a.toList.take n = (List.range n).map fun i => a.getD i 0 := by
    apply List.ext_getElem
    · simp; omega
    · intro i h1 h2
      simp at h1 h2
      simp [show i < a.size by omega]
  have h2 : List.range a.size = List.range n ++ (List.range (a.size - n)).map (n + ·) := by
    rw [← List.range_add]; congr 1; omega
  rw [h1, h2, List.filter_append, List.filter_map, List.length_map, List.length_append]
  have h3 : ((List.range (a.size - n)).map (n + ·)).filter (fun i => decide (a.getD i 0 ≠ 0)) = [] := by
    rw [List.filter_eq_nil_iff]
    intro i hi
    obtain ⟨j, hj, rfl⟩ := List.mem_map.mp hi
    have hj' : j < a.size - n := List.mem_range.mp hj
    have := hz (n + j) (by omega) (by omega)
    simp [show n + j < a.size by omega, this]
  rw [h3]
  rfl

/-- The distance lengths after the patch: complete, at most 15, nothing dropped, 30 and 31 unused. -/
theorem dLengths_spec (c : Array Nat) (hs : c.size = 32) (hz : ∀ i (h : i < c.size), 30 ≤ i → c[i] = 0) :
    Ret (do patchDistanceCodes (← lengthLimitedCodeLengths c 15)) fun d => d.size = 32 ∧
      (∀ i (h : i < d.size), d[i] ≤ 15) ∧ (∀ i (h : i < d.size), 30 ≤ i → d[i] = 0) ∧
      (∀ i (h : i < c.size) (h' : i < d.size), c[i] ≠ 0 → d[i] ≠ 0) ∧ kraft15 d.toList = 2 ^ 15 := by
  refine Ret.bind' (lengthLimited_spec c 15 (by omega) (by omega) (by omega)
    (Nat.le_trans (usedLeaves_length_le _) (by rw [hs]; norm_num))) ?_
  rintro bl ⟨h1, h2, h3, -, h4⟩
  have hbl : bl.size = 32 := by omega
  have hget : ∀ i (h : i < bl.size) (h' : i < c.size), bl[i] ≤ 15 ∧ (bl[i] = 0 ↔ c[i] = 0) := by
    intro i h h'
    obtain ⟨l, e, g1, g2⟩ := h2 i h'
    rw [Array.getElem?_eq_getElem h] at e
    cases e
    exact ⟨g1, g2⟩
  have hblz : ∀ i (h : i < bl.size), 30 ≤ i → bl[i] = 0 := fun i h hi => (hget i h (by omega)).2.mpr (hz i (by omega) hi)
  have hnum : ((bl.toList.take 30).filter (· ≠ 0)).length = (usedLeaves c).length := by
    rw [nonzero_count bl 30 (by omega) hblz, used_count, h1]
    congr 1
    apply List.filter_congr
    intro i hi
    have hi' : i < c.size := List.mem_range.mp hi
    have := (hget i (by omega) hi').2
    simp [hi', show i < bl.size by omega, this]
  unfold patchDistanceCodes
  dsimp only
  rw [hnum]
  split
  · rename_i h0
    have hk := h4 (by omega)
    rw [h0, Nat.zero_mul] at hk
    have hall : ∀ i (h : i < bl.size), bl[i] = 0 := by
      intro i h
      by_contra hne
      have hne' : c[i]'(by omega) ≠ 0 := fun e => hne ((hget i h (by omega)).2.mpr e)
      have : (⟨c[i]'(by omega), i⟩ : Leaf) ∈ usedLeaves c := usedLeaves_mem.mpr ⟨show i < c.size by omega, rfl, hne'⟩
      rw [List.length_eq_zero_iff] at h0
      rw [h0] at this
      cases this
    refine Ret.bind (Ret.aset (by omega) ?_)
    refine Ret.aset (by simp; omega) ⟨by simpa using hbl, ?_, ?_, ?_, ?_⟩
    · intro i h
      simp only [Array.getElem_set]
      split
      · omega
      · split
        · omega
        · rw [hall]; omega
    · intro i h hi
      simp only [Array.getElem_set]
      rw [if_neg (by omega), if_neg (by omega)]
      exact hall _ _
    · intro i h h' hne
      exact absurd (hall i (by omega)) (fun e => hne ((hget i (by omega) h).2.mp e))
    · simp only [Array.toList_set]
      have g0 : bl[0]'(by omega) = 0 := hall _ _
      have g1 : bl[1]'(by omega) = 0 := hall _ _
      rw [kraft15_set _ 1 1 (by simp; omega) (by rw [List.getElem_set, if_neg (by omega)]; simpa using g1) (by omega),
        kraft15_set _ 0 1 (by simp; omega) (by simpa using g0) (by omega), hk]
      norm_num
  · split
    · rename_i h0 h1'
      have hk := h4 (by omega)
      rw [h1', Nat.one_mul] at hk
      refine Ret.bind (Ret.getElem? (by omega) ?_)
      have main : ∀ j, j < 2 → (hj : j < bl.size) → bl[j] = 0 → Ret (aset bl j 1) fun d => d.size = 32 ∧
          (∀ i (h : i < d.size), d[i] ≤ 15) ∧ (∀ i (h : i < d.size), 30 ≤ i → d[i] = 0) ∧
          (∀ i (h : i < c.size) (h' : i < d.size), c[i] ≠ 0 → d[i] ≠ 0) ∧ kraft15 d.toList = 2 ^ 15 := by
        intro j hj2 hj hj0
        refine Ret.aset hj ⟨by simpa using hbl, ?_, ?_, ?_, ?_⟩
        · intro i h
          simp only [Array.getElem_set]
          split
          · omega
          · exact (hget i (by simpa using h) (by simp at h; omega)).1
        · intro i h hi
          simp only [Array.getElem_set]
          rw [if_neg (by omega)]
          exact hblz i (by simpa using h) hi
        · intro i h h' hne
          simp only [Array.getElem_set]
          split
          · omega
          · exact fun e => hne ((hget i (by simpa using h') h).2.mp e)
        · simp only [Array.toList_set]
          rw [kraft15_set _ j 1 (by simpa using hj) (by simpa using hj0) (by omega), hk]
          norm_num
      by_cases hb0 : bl[0]'(by omega) = 0
      · rw [if_neg (by simpa using hb0)]
        exact main 0 (by omega) _ hb0
      · rw [if_pos hb0]
        refine main 1 (by omega) (by omega) ?_
        by_contra hb1
        have := two_used (f := c) (i := 0) (j := 1) (by omega) (by omega) (by omega)
          (fun e => hb0 ((hget 0 (by omega) (by omega)).2.mpr e)) (fun e => hb1 ((hget 1 (by omega) (by omega)).2.mpr e))
        omega
    · refine Ret.pure ⟨hbl, fun i h => (hget i h (by omega)).1, hblz, ?_, h3 (by omega)⟩
      intro i h h' hne e
      exact hne ((hget i h' h).2.mp e)

/-- The literal/length code lengths of a dynamic block. -/
theorem llLengths_spec (c : Array Nat) (hs : c.size = 288) (hz : ∀ i (h : i < c.size), 286 ≤ i → c[i] = 0) :
    Ret (lengthLimitedCodeLengths c 15) fun l => l.size = 288 ∧
      (∀ i (h : i < l.size), l[i] ≤ 15) ∧ (∀ i (h : i < l.size), 286 ≤ i → l[i] = 0) ∧
      (∀ i (h : i < c.size) (h' : i < l.size), c[i] ≠ 0 → l[i] ≠ 0) ∧
      ((∃ i j, i ≠ j ∧ ∃ (hi : i < c.size) (hj : j < c.size), c[i] ≠ 0 ∧ c[j] ≠ 0) → kraft15 l.toList = 2 ^ 15) := by
  refine Ret.mono (lengthLimited_spec c 15 (by omega) (by omega) (by omega)
    (Nat.le_trans (usedLeaves_length_le _) (by rw [hs]; norm_num))) ?_
  rintro bl ⟨h1, h2, h3, -, h4⟩
  have hget : ∀ i (h : i < bl.size) (h' : i < c.size), bl[i] ≤ 15 ∧ (bl[i] = 0 ↔ c[i] = 0) := by
    intro i h h'
    obtain ⟨l, e, g1, g2⟩ := h2 i h'
    rw [Array.getElem?_eq_getElem h] at e
    cases e
    exact ⟨g1, g2⟩
  refine ⟨by omega, fun i h => (hget i h (by omega)).1, fun i h hi => (hget i h (by omega)).2.mpr (hz i (by omega) hi),
    fun i h h' hne e => hne ((hget i h' h).2.mp e), ?_⟩
  rintro ⟨i, j, hij, hi, hj, hne, hne'⟩
  exact h3 (two_used hij hi hj hne hne')

/-- What is needed of the histogram of a block. -/
structure CountsOk (llCounts dCounts : Array Nat) : Prop where
  lls : llCounts.size = 288
  ds : dCounts.size = 32
  llz : ∀ i (h : i < llCounts.size), 286 ≤ i → llCounts[i] = 0
  dz : ∀ i (h : i < dCounts.size), 30 ≤ i → dCounts[i] = 0
  ll256 : ∃ h : 256 < llCounts.size, llCounts[256] ≠ 0

/-- Lengths that can code everything the histogram counts. -/
structure Codes (llCounts dCounts ll d : Array Nat) : Prop extends LensOk ll d where
  llu : ∀ i (h : i < llCounts.size) (h' : i < ll.size), llCounts[i] ≠ 0 → ll[i] ≠ 0
  du : ∀ i (h : i < dCounts.size) (h' : i < d.size), dCounts[i] ≠ 0 → d[i] ≠ 0
  tree : (∃ i, i ≠ 256 ∧ ∃ hi : i < llCounts.size, llCounts[i] ≠ 0) → TreeOk ll d

theorem lengths_spec {llCounts dCounts llC dC : Array Nat} (h : CountsOk llC dC)
    (hls : llC.size = llCounts.size) (hds : dC.size = dCounts.size)
    (hl : ∀ i (h : i < llCounts.size) (h' : i < llC.size), llCounts[i] ≠ 0 → llC[i] ≠ 0)
    (hd : ∀ i (h : i < dCounts.size) (h' : i < dC.size), dCounts[i] ≠ 0 → dC[i] ≠ 0) :
    Ret (lengthLimitedCodeLengths llC 15) fun ll => Ret (do patchDistanceCodes (← lengthLimitedCodeLengths dC 15)) fun d =>
      Codes llCounts dCounts ll d := by
  have hS := h.lls
  have hDS := h.ds
  refine Ret.mono (llLengths_spec llC h.lls h.llz) ?_
  rintro ll ⟨a1, a2, a3, a4, a5⟩
  refine Ret.mono (dLengths_spec dC h.ds h.dz) ?_
  rintro d ⟨b1, b2, b3, b4, b5⟩
  refine ⟨⟨a1, b1, a2, b2⟩, fun i h1 h2 hne => a4 i (by omega) h2 (hl i h1 (by omega) hne),
    fun i h1 h2 hne => b4 i (by omega) h2 (hd i h1 (by omega) hne), ?_⟩
  rintro ⟨i, hi, hi', hne⟩
  obtain ⟨h256, hne256⟩ := h.ll256
  refine ⟨⟨a1, b1, a2, b2⟩, fun i hi h => a3 i h hi, fun i hi h => b3 i h hi, ?_, ?_, b5⟩
  · rw [Array.getElem?_eq_getElem (by omega)]
    simpa using a4 256 (by omega) (by omega) hne256
  · exact a5 ⟨i, 256, hi, by omega, h256, hl i hi' (by omega) hne, hne256⟩

/-- `try_optimize_huffman_for_rle` -/
theorem tryOptimize_spec {lz77 : Lz77Store} {lstart lend : Nat} {llCounts dCounts ll d : Array Nat}
    (h : CountsOk llCounts dCounts) (hc : Codes llCounts dCounts ll d)
    (hsz : ∀ ll d : Array Nat, ll.size = 288 → d.size = 32 →
      Ret (blockSymbolSizeGivenCounts llCounts dCounts ll d lz77 lstart lend) fun _ => True) :
    Ret (tryOptimizeHuffmanForRle lz77 lstart lend llCounts dCounts ll d) fun r =>
      Codes llCounts dCounts r.2.1 r.2.2 ∧ ∃ t s, calculateTreeSize r.2.1 r.2.2 = some t ∧
        blockSymbolSizeGivenCounts llCounts dCounts r.2.1 r.2.2 lz77 lstart lend = some s ∧ r.1 = t + s := by
  unfold tryOptimizeHuffmanForRle
  obtain ⟨t1, et1, -⟩ := calculateTreeSize_ret hc.toLensOk
  rw [et1, some_bind]
  obtain ⟨s1, es1, -⟩ := hsz ll d hc.lls hc.ds
  rw [es1, some_bind]
  obtain ⟨llC, el, hlS, hlk, hlz⟩ := optimizeHuffmanForRle_spec llCounts
  rw [el, some_bind]
  obtain ⟨dC, ed, hdS, hdk, hdz⟩ := optimizeHuffmanForRle_spec dCounts
  rw [ed, some_bind]
  have hS := h.lls
  have hDS := h.ds
  have hok : CountsOk llC dC := by
    refine ⟨by omega, by omega, fun i hi h286 => hlz 286 (fun j hj hj' => h.llz j hj hj') i hi h286,
      fun i hi h30 => hdz 30 (fun j hj hj' => h.dz j hj hj') i hi h30, by omega, ?_⟩
    obtain ⟨h1, h2⟩ := h.ll256
    exact hlk 256 h1 (by omega) h2
  obtain ⟨ll2, e1, d2, e2, hc2⟩ := lengths_spec hok hlS hdS hlk hdk
  rw [e1, some_bind]
  have e2' : ∀ (f : Array Nat → Option (Nat × Array Nat × Array Nat)),
      (do let x ← lengthLimitedCodeLengths dC 15; let y ← patchDistanceCodes x; f y) = f d2 := by
    intro f
    rw [← bind_assoc, e2, some_bind]
  rw [e2']
  obtain ⟨t2, et2, -⟩ := calculateTreeSize_ret hc2.toLensOk
  rw [et2, some_bind]
  obtain ⟨s2, es2, -⟩ := hsz ll2 d2 hc2.lls hc2.ds
  rw [es2, some_bind]
  split
  · exact Ret.pure ⟨hc2, t2, s2, et2, es2, rfl⟩
  · exact Ret.pure ⟨hc, t1, s1, et1, es1, rfl⟩

end Zopfli
