import Verif.Proofs.Katajainen2
import Mathlib.Algebra.BigOperators.Ring.Finset
/-! # Boundary package merge yields the cheapest code lengths -/

namespace Zopfli.Katajainen
open Finset Rfc

theorem sum_list_range (f : Nat → Nat) (n : Nat) : ((List.range n).map f).sum = ∑ i ∈ range n, f i := by
  induction n with
  | zero => rfl
  | succ n ih => rw [List.range_succ, List.map_append, List.sum_append, ih, sum_range_succ]; simp

/-! ## The cost of code lengths, counted by levels -/

theorem sum_lens (w : Nat → Nat) (n : Nat) : ∀ cs : List Nat, (∀ c ∈ cs, c ≤ n) →
    ∑ k ∈ range n, w k * (cs.filter (k < ·)).length = cost w cs
  | [], _ => by simp [cost]
  | c :: cs, h => by
    have ih := sum_lens w n cs fun c hc => h c (by simp [hc])
    have hc := h c (by simp)
    have e : ∀ k, w k * ((c :: cs).filter (k < ·)).length = (if k < c then w k else 0) + w k * (cs.filter (k < ·)).length := by
      intro k
      by_cases hk : k < c
      · simp [hk]; ring
      · simp [hk]
    rw [sum_congr rfl fun k _ => e k, sum_add_distrib, ih]
    show _ = (∑ k ∈ range c, w k) + cost w cs
    congr 1
    rw [← sum_filter]
    congr 1
    ext k
    simp
    omega

/-- The cheapest leaves are the first. -/
theorem sum_first_le {w : Nat → Nat} : ∀ {n : Nat} (_ : ∀ a b, a ≤ b → b < n → w a ≤ w b) (S : Finset Nat), S ⊆ range n →
    ∑ k ∈ range S.card, w k ≤ ∑ k ∈ S, w k
  | 0, _, S, hS => by
    have : S = ∅ := by simpa using hS
    subst this
    simp
  | n + 1, hw, S, hS => by
    have hw' : ∀ a b, a ≤ b → b < n → w a ≤ w b := fun a b h1 h2 => hw a b h1 (by omega)
    by_cases hn : n ∈ S
    · have hS' : S.erase n ⊆ range n := by
        intro k hk
        have h1 := mem_of_mem_erase hk
        have h2 := ne_of_mem_erase hk
        have := mem_range.1 (hS h1)
        exact mem_range.2 (by omega)
      have ih := sum_first_le hw' _ hS'
      have hcard := card_le_card hS'
      rw [card_range] at hcard
      rw [← card_erase_add_one hn, sum_range_succ, ← sum_erase_add _ _ hn]
      exact Nat.add_le_add ih (hw _ _ hcard (by omega))
    · refine sum_first_le hw' S fun k hk => ?_
      have := mem_range.1 (hS hk)
      have : k ≠ n := fun e => hn (e ▸ hk)
      exact mem_range.2 (by omega)

/-- The leaves, each counted with what it is worth in the bottom list. -/
def worth : List Nat → Nat
  | [] => 0
  | c :: cs => c * 2 ^ cs.length + worth cs

theorem worth_val : ∀ cs : List Nat, cs ≠ [] → worth cs + 1 ≤ 2 ^ (cs.length - 1) * (val cs + 1)
  | [], h => absurd rfl h
  | [c], _ => by simp [worth, val]
  | c :: d :: cs, _ => by
    have ih := worth_val (d :: cs) (by simp)
    have h1 : val (d :: cs) + 1 ≤ 2 * (val (d :: cs) / 2 + 1) := by omega
    have h2 := Nat.mul_le_mul_left (2 ^ ((d :: cs).length - 1)) h1
    have h3 : 2 ^ ((d :: cs).length - 1) * (2 * (val (d :: cs) / 2 + 1)) = 2 ^ (d :: cs).length * (val (d :: cs) / 2 + 1) := by
      simp only [List.length_cons, Nat.add_sub_cancel]
      ring
    rw [worth, val, show (c :: d :: cs).length - 1 = (d :: cs).length by simp]
    generalize 2 ^ (d :: cs).length = P at *
    have : P * (c + val (d :: cs) / 2 + 1) = c * P + P * (val (d :: cs) / 2 + 1) := by ring
    omega

theorem worth_range (c : Nat → Nat) : ∀ (L a : Nat), worth ((List.range' a L).map c) = ∑ i ∈ range L, c (a + i) * 2 ^ (L - 1 - i)
  | 0, a => by simp [worth]
  | L + 1, a => by
    rw [List.range'_succ, List.map_cons, worth, worth_range c L (a + 1), sum_range_succ']
    simp only [List.length_map, List.length_range', Nat.add_zero, Nat.add_sub_cancel, Nat.sub_zero]
    rw [Nat.add_comm]
    congr 1
    refine sum_congr rfl fun i hi => ?_
    rw [show a + 1 + i = a + (i + 1) by omega, show L - 1 - i = L - (i + 1) by omega]

theorem sum_ite_lt {l M : Nat} (h : l ≤ M) (f : Nat → Nat) : (∑ i ∈ range M, if i < l then f i else 0) = ∑ i ∈ range l, f i := by
  rw [← sum_filter]
  congr 1
  ext k
  simp
  omega

theorem sum_pow (M : Nat) : ∀ {l : Nat}, l ≤ M → ∑ i ∈ range l, 2 ^ (M - 1 - i) + 2 ^ (M - l) = 2 ^ M
  | 0, _ => by simp
  | l + 1, h => by
    have := sum_pow M (l := l) (by omega)
    rw [sum_range_succ, show M - 1 - l = M - (l + 1) by omega]
    rw [show M - l = M - (l + 1) + 1 by omega, pow_succ] at this
    omega

/-- How many of the leaves have a code longer than `i`. -/
def longer (n : Nat) (len : Nat → Nat) (i : Nat) : Nat := ((range n).filter fun k => i < len k).card

theorem longer_eq (n : Nat) (len : Nat → Nat) (i : Nat) : longer n len i = ∑ k ∈ range n, if i < len k then 1 else 0 := by
  rw [longer, card_filter]

theorem longer_worth {n M : Nat} {len : Nat → Nat} (hl : ∀ k < n, len k ≤ M) :
    worth ((List.range' 0 M).map (longer n len)) + ∑ k ∈ range n, 2 ^ (M - len k) = n * 2 ^ M := by
  rw [worth_range]
  have h1 : ∑ i ∈ range M, longer n len (0 + i) * 2 ^ (M - 1 - i) = ∑ k ∈ range n, ∑ i ∈ range (len k), 2 ^ (M - 1 - i) := by
    rw [sum_congr rfl (g := fun i => ∑ k ∈ range n, if i < len k then 2 ^ (M - 1 - i) else 0), sum_comm]
    · refine sum_congr rfl fun k hk => ?_
      exact sum_ite_lt (hl k (mem_range.1 hk)) _
    · intro i _
      rw [Nat.zero_add, longer_eq, Finset.sum_mul]
      refine sum_congr rfl fun k _ => ?_
      split <;> simp
  rw [h1, ← sum_add_distrib, sum_congr rfl fun k hk => sum_pow M (hl k (mem_range.1 hk))]
  simp

theorem longer_val {n M : Nat} (hM : 1 ≤ M) {len : Nat → Nat} (hl : ∀ k < n, len k ≤ M)
    (hk : ∑ k ∈ range n, 2 ^ (M - len k) ≤ 2 ^ M) : 2 * n - 2 ≤ val ((List.range' 0 M).map (longer n len)) := by
  have h1 := longer_worth hl
  have h2 := worth_val ((List.range' 0 M).map (longer n len)) (by simp; omega)
  simp only [List.length_map, List.length_range'] at h2
  generalize val ((List.range' 0 M).map (longer n len)) = v at *
  generalize worth ((List.range' 0 M).map (longer n len)) = wv at *
  obtain ⟨M, rfl⟩ : ∃ m, M = m + 1 := ⟨M - 1, by omega⟩
  simp only [Nat.add_sub_cancel] at h2
  by_contra hlt
  have h3 : v + 3 ≤ 2 * n := by omega
  have h4 := Nat.mul_le_mul_left (2 ^ M) h3
  have h5 : 2 ^ M * (2 * n) = n * 2 ^ (M + 1) := by ring
  have h6 : 2 ^ M * (v + 3) = 2 ^ M * (v + 1) + 2 ^ (M + 1) := by ring
  omega

theorem longer_cost {w : Nat → Nat} {n M : Nat} (hw : ∀ a b, a ≤ b → b < n → w a ≤ w b) {len : Nat → Nat} (hl : ∀ k < n, len k ≤ M) :
    cost w ((List.range' 0 M).map (longer n len)) ≤ ∑ k ∈ range n, w k * len k := by
  have h1 : cost w ((List.range' 0 M).map (longer n len)) = ∑ i ∈ range M, ∑ k ∈ range (longer n len i), w k := by
    rw [cost, List.map_map, ← List.range_eq_range', sum_list_range]
    rfl
  rw [h1]
  calc ∑ i ∈ range M, ∑ k ∈ range (longer n len i), w k
      ≤ ∑ i ∈ range M, ∑ k ∈ (range n).filter (fun k => i < len k), w k :=
        sum_le_sum fun i _ => sum_first_le hw _ (filter_subset _ _)
    _ = ∑ i ∈ range M, ∑ k ∈ range n, if i < len k then w k else 0 := sum_congr rfl fun i _ => sum_filter _ _
    _ = ∑ k ∈ range n, ∑ i ∈ range M, if i < len k then w k else 0 := sum_comm
    _ = ∑ k ∈ range n, w k * len k := by
      refine sum_congr rfl fun k hk => ?_
      rw [sum_ite_lt (hl k (mem_range.1 hk)) fun _ => w k]
      simp [Nat.mul_comm]

/-! ## More lists than leaves do not help -/

theorem mergeElem_leaf {n N : Nat} {w q : Nat → Nat} (hw : ∀ a b, a ≤ b → b < n → w a ≤ w b) (hq : ∀ a b, a ≤ b → b < N → q a ≤ q b) {c : Nat} :
    ∀ {t : Nat}, t < n + N → c < (mergePos n N w q (t + 1)).1 → w c ≤ mergeElem n N w q t
  | 0, ht, h => by
    rw [mergePos] at h
    unfold mergeElem
    split at h
    · rename_i hn
      rw [if_pos hn]
      have : c = 0 := by simpa [mergePos] using h
      subst this
      exact Nat.le_refl _
    · simp [mergePos] at h
  | t + 1, ht, h => by
    rw [mergePos] at h
    by_cases hc : c < (mergePos n N w q (t + 1)).1
    · exact Nat.le_trans (mergeElem_leaf hw hq (by omega) hc) (mergeElem_mono hw hq ht)
    · unfold mergeElem
      dsimp only at h ⊢
      split at h
      · rename_i hn
        rw [if_pos hn]
        have : c = (mergePos n N w q (t + 1)).1 := by dsimp only at h; omega
        rw [this]
      · exact absurd h hc

theorem elem_leaf {n : Nat} {w : Nat → Nat} (hw : ∀ a b, a ≤ b → b < n → w a ≤ w b) {j t c : Nat} (ht : t < TT n j)
    (h : c < (cnts n w j (t + 1)).headD 0) : w c ≤ elem n w j t := by
  cases j with
  | zero =>
    have : c < t + 1 := h
    exact hw _ _ (by omega) ht
  | succ j => exact mergeElem_leaf hw (packs_mono hw j) ht h

theorem elem_pos {n : Nat} {w : Nat → Nat} (hw : ∀ a b, a ≤ b → b < n → w a ≤ w b) (hpos : ∀ k < n, 0 < w k) :
    ∀ {j t : Nat}, t < TT n j → 0 < elem n w j t
  | 0, t, ht => hpos t ht
  | j + 1, t, ht => by
    have hloc := mergePos_loc hw (packs_mono hw j) t (Nat.le_of_lt ht)
    have hs := mergePos_sum (n := n) (N := TT n j / 2) (w := w) (q := packs n w j) t
    show 0 < mergeElem n (TT n j / 2) w (packs n w j) t
    unfold mergeElem
    dsimp only
    split
    · rename_i h
      exact hpos _ h.1
    · rename_i h
      have hp : (mergePos n (TT n j / 2) w (packs n w j) t).2 < TT n j / 2 := by
        by_contra hge
        have h1 : ¬ (mergePos n (TT n j / 2) w (packs n w j) t).1 < n := fun hc => h ⟨hc, fun h' => absurd h' hge⟩
        have := hloc.leaf
        have := hloc.pack
        simp only [TT] at ht
        omega
      have := elem_pos hw hpos (j := j) (t := 2 * (mergePos n (TT n j / 2) w (packs n w j) t).2) (by omega)
      show 0 < elem n w j _ + elem n w j _
      omega

theorem cnts_head {n : Nat} {w : Nat → Nat} (hw : ∀ a b, a ≤ b → b < n → w a ≤ w b) (hpos : ∀ k < n, 0 < w k) :
    ∀ {j t : Nat}, 1 ≤ t → t ≤ TT n j → t < 2 * (cnts n w j t).headD 0 ∧ (cnts n w j t).headD 0 ≤ n
  | 0, t, h1, h => ⟨by show t < 2 * t; omega, h⟩
  | j + 1, t, h1, h => by
    have hloc := mergePos_loc hw (packs_mono hw j) t h
    have hs := mergePos_sum (n := n) (N := TT n j / 2) (w := w) (q := packs n w j) t
    refine ⟨?_, hloc.leaf⟩
    show t < 2 * (mergePos n (TT n j / 2) w (packs n w j) t).1
    generalize (mergePos n (TT n j / 2) w (packs n w j) t).1 = c at *
    generalize (mergePos n (TT n j / 2) w (packs n w j) t).2 = p at *
    rcases Nat.eq_zero_or_pos p with rfl | hp
    · omega
    · have hpk := hloc.pack
      obtain ⟨ih1, ih2⟩ := cnts_head hw hpos (j := j) (t := 2 * p) (by omega) (by omega)
      by_contra hge
      have hc : c < (cnts n w j (2 * p - 1 + 1)).headD 0 := by
        rw [show 2 * p - 1 + 1 = 2 * p by omega]
        omega
      have h2 := elem_leaf hw (by omega) hc
      rw [show 2 * p - 1 + 1 = 2 * p by omega] at hc
      have h3 := hloc.b hp (by omega)
      have h4 := elem_pos hw hpos (j := j) (t := 2 * (p - 1)) (by omega)
      unfold packs at h3
      rw [show 2 * (p - 1) + 1 = 2 * p - 1 by omega] at h3
      omega

theorem cnts_length {n : Nat} {w : Nat → Nat} (hw : ∀ a b, a ≤ b → b < n → w a ≤ w b) (hpos : ∀ k < n, 0 < w k) :
    ∀ {j t s : Nat}, 1 ≤ t → t ≤ TT n j → t + 2 * s ≤ 2 * n - 2 → (cnts n w j t).length + s ≤ n - 1
  | 0, t, s, h1, h, hs => by simp [cnts]; omega
  | j + 1, t, s, h1, h, hs => by
    have hh := (cnts_head hw hpos h1 h)
    have hloc := mergePos_loc hw (packs_mono hw j) t h
    have hsum := mergePos_sum (n := n) (N := TT n j / 2) (w := w) (q := packs n w j) t
    rw [cnts] at hh ⊢
    simp only [List.headD_cons] at hh
    have hpk : (posOf n w j t).2 ≤ TT n j / 2 := hloc.pack
    have hsum' : (posOf n w j t).1 + (posOf n w j t).2 = t := hsum
    split
    · simp; omega
    · have ih := cnts_length hw hpos (j := j) (t := 2 * (posOf n w j t).2) (s := s + 1) (by omega) (by omega) (by omega)
      simp only [List.length_cons]
      omega

theorem cnts_le {n : Nat} {w : Nat → Nat} (hw : ∀ a b, a ≤ b → b < n → w a ≤ w b) :
    ∀ {j t : Nat}, t ≤ TT n j → (∀ c ∈ cnts n w j t, c ≤ n) ∧ t ≤ val (cnts n w j t)
  | 0, t, h => by simpa [cnts, val, TT] using h
  | j + 1, t, h => by
    have hloc := mergePos_loc hw (packs_mono hw j) t h
    have hsum := mergePos_sum (n := n) (N := TT n j / 2) (w := w) (q := packs n w j) t
    have hpk : (posOf n w j t).2 ≤ TT n j / 2 := hloc.pack
    have hlf : (posOf n w j t).1 ≤ n := hloc.leaf
    have hsum' : (posOf n w j t).1 + (posOf n w j t).2 = t := hsum
    rw [cnts]
    split
    · simp [val]; omega
    · obtain ⟨a, b⟩ := cnts_le hw (j := j) (t := 2 * (posOf n w j t).2) (by omega)
      refine ⟨fun c hc => ?_, ?_⟩
      · rcases List.mem_cons.1 hc with rfl | hc
        · exact hlf
        · exact a c hc
      · rw [val]; omega

/-- The cheapest `2n - 2` elements of list `min (n - 1) M - 1` are as cheap as any code of lengths at most `M`. -/
theorem best_le {w : Nat → Nat} {n M : Nat} (hn : 2 ≤ n) (hM : 1 ≤ M) (hcap : n ≤ 2 ^ M) (hw : ∀ a b, a ≤ b → b < n → w a ≤ w b)
    (hpos : ∀ k < n, 0 < w k) {len : Nat → Nat} (hl : ∀ k < n, len k ≤ M) (hk : ∑ k ∈ range n, 2 ^ (M - len k) ≤ 2 ^ M) :
    ∑ i ∈ range (2 * n - 2), elem n w (min (n - 1) M - 1) i ≤ ∑ k ∈ range n, w k * len k := by
  have hlow : ∑ i ∈ range (2 * n - 2), elem n w (M - 1) i ≤ ∑ k ∈ range n, w k * len k := by
    refine Nat.le_trans (cost_lower hw (M - 1) ((List.range' 0 M).map (longer n len)) _ ?_ ?_ (longer_val hM hl hk)) (longer_cost hw hl)
    · simp; omega
    · intro c hc
      obtain ⟨i, _, rfl⟩ := List.mem_map.1 hc
      exact Nat.le_trans (card_filter_le _ _) (by simp)
  rcases Nat.le_total (n - 1) M with h | h
  · rw [Nat.min_eq_left h]
    refine Nat.le_trans ?_ hlow
    have hT := TT_enough hcap hM
    rw [← cost_cnts hw (M - 1) _ hT]
    have hlen := cnts_length hw hpos (j := M - 1) (t := 2 * n - 2) (s := 0) (by omega) hT (by omega)
    obtain ⟨ha, hb⟩ := cnts_le hw hT
    exact cost_lower hw _ _ _ (by omega) ha hb
  · rw [Nat.min_eq_right h]
    exact hlow

/-! ## For the frequencies -/

theorem countsOf_le {n : Nat} {j : Nat} {x : Node} (h : Valid n j x) : ∀ c ∈ countsOf x, c ≤ n := by
  intro c hc
  have h1 := (countsOf_sorted h).2 c hc
  have h2 := (count_le_n h).1
  omega

theorem used_sum (f : Array Nat) (g : Nat → Nat) : ((usedLeaves f).map fun l => l.weight * g l.count).sum = ∑ i ∈ range f.size, f.getD i 0 * g i := by
  unfold usedLeaves
  rw [sum_filterMap, sum_list_range]
  refine sum_congr rfl fun i hi => ?_
  by_cases h : f.getD i 0 = 0
  · simp [h]
  · simp only [ne_eq, h, not_false_eq_true, if_true]

theorem used_kraft (f : Array Nat) (g : Nat → Nat) (hg : ∀ i (h : i < f.size), f[i] ≠ 0 → g i ≠ 0) (D : Nat) :
    ((usedLeaves f).map fun l => 2 ^ (D - g l.count)).sum ≤ ∑ i ∈ range f.size, if g i = 0 then 0 else 2 ^ (D - g i) := by
  unfold usedLeaves
  rw [sum_filterMap, sum_list_range]
  refine sum_le_sum fun i hi => ?_
  have hi' : i < f.size := by simpa using hi
  by_cases h : f.getD i 0 = 0
  · simp [h]
  · simp only [ne_eq, h, not_false_eq_true, if_true]
    rw [if_neg (hg i hi' (by simpa [hi'] using h))]

theorem lengthLimited_optimal (f : Array Nat) (maxBits : Nat) (hN : f.size ≤ 288) (hm1 : 1 ≤ maxBits) (hm : maxBits ≤ 15)
    (hcap : (usedLeaves f).length ≤ 2 ^ maxBits) :
    Ret (lengthLimitedCodeLengths f maxBits) fun bl => ∀ g : Nat → Nat, (∀ i (h : i < f.size), f[i] ≠ 0 → g i ≠ 0) →
      (∀ i < f.size, g i ≤ maxBits) → (∑ i ∈ range f.size, if g i = 0 then 0 else 2 ^ (maxBits - g i)) ≤ 2 ^ maxBits →
      ∑ i ∈ range f.size, f.getD i 0 * bl.getD i 0 ≤ ∑ i ∈ range f.size, f.getD i 0 * g i := by
  refine Ret.mono (lengthLimited_full f maxBits hN hm1 hm hcap) ?_
  rintro bl ⟨⟨hs, hl, -⟩, h2, h3⟩ g hg hgm hgk
  rcases Nat.lt_or_ge (usedLeaves f).length 3 with hlt | hge
  · have h2 := h2 (by omega)
    refine sum_le_sum fun i hi => ?_
    have hi' : i < f.size := by simpa using hi
    by_cases h0 : f[i] = 0
    · simp [hi', h0]
    · have e := h2 ⟨f[i], i⟩ (usedLeaves_mem.mpr ⟨hi', rfl, h0⟩)
      have := hg i hi' h0
      dsimp only at e
      rw [e]
      exact Nat.mul_le_mul_left _ (by omega)
  · obtain ⟨L, x, B, hperm, hlv, hB2, hB, hcapB, hlen, hv, hcn⟩ := h3 hge
    have hLl := hperm.length_eq
    have hwk : ∀ k (h : k < L.length), wOf L.toArray k = L[k].weight := by
      intro k h
      have : wOf L.toArray k = _ := lw_succ (leaves := L.toArray) (c := k) (by simpa using h)
      rw [this]
      simp
    have hw : ∀ a b, a ≤ b → b < L.length → wOf L.toArray a ≤ wOf L.toArray b := by
      intro a b hab hb
      rw [hwk a (by omega), hwk b hb]
      have := hlv.sorted a b hab (by simpa using hb)
      simpa using this
    have hpos : ∀ k < L.length, 0 < wOf L.toArray k := by
      intro k hk
      rw [hwk k hk]
      have := hlv.pos k (by simpa using hk)
      simpa using this
    have eL : ∀ φ : Leaf → Nat, ((usedLeaves f).map φ).sum = ∑ k ∈ range L.length, φ (L.getD k default) := by
      intro φ
      rw [← (hperm.map φ).sum_eq, sum_map_finset]
    rw [← used_sum, ← used_sum, eL, eL]
    have e1 : ∑ k ∈ range L.length, (L.getD k default).weight * bl.getD (L.getD k default).count 0 =
        ∑ i ∈ range (2 * L.length - 2), elem L.length (wOf L.toArray) (B - 1) i := by
      have hT : 2 * L.length - 2 ≤ TT L.length (B - 1) := TT_enough hcapB (by omega)
      rw [← cost_cnts hw _ _ hT, ← hcn, ← sum_lens _ L.length _ (countsOf_le hv)]
      refine sum_congr rfl fun k hk => ?_
      have hk' : k < L.length := by simpa using hk
      rw [List.getD_eq_getElem _ _ hk', hlen k hk', hwk k hk']
      rfl
    rw [e1, hB]
    have e2 : ∑ k ∈ range L.length, (L.getD k default).weight * g (L.getD k default).count =
        ∑ k ∈ range L.length, wOf L.toArray k * g (L.getD k default).count := by
      refine sum_congr rfl fun k hk => ?_
      have hk' : k < L.length := by simpa using hk
      rw [List.getD_eq_getElem _ _ hk', hwk k hk']
    rw [e2]
    refine best_le (len := fun k => g (L.getD k default).count) (by omega) hm1 (by omega) hw hpos ?_ ?_
    · intro k hk
      rw [List.getD_eq_getElem _ _ hk]
      obtain ⟨h, -⟩ := usedLeaves_mem.mp (hperm.mem_iff.mp (List.getElem_mem hk))
      exact hgm _ h
    · have := used_kraft f g hg maxBits
      rw [eL] at this
      exact Nat.le_trans this hgk

end Zopfli.Katajainen
