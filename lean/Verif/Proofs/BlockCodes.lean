import Verif.Props.Codes
import Verif.Props.Trees
import Verif.Spec.BlockCodes
/-! # Dynamic blocks are no larger than with the exact optimal codes -/

namespace Zopfli
open Rfc Katajainen

/-! ## Cost of the items by symbol -/

theorem itemCost_split (ll d : Array Nat) (x : LitLen) :
    itemCost ll d x = ll.getD (llSym x) 0 + ((dSym x).map fun t => d.getD t 0).getD 0 + itemCost #[] #[] x := by
  unfold itemCost llCost dCost
  cases dSym x <;> simp <;> omega

/-- The cost is the cost of the symbols by frequency, and the extra bits, which do not depend on the codes. -/
theorem dataCost_split {ll d c1 c2 : Array Nat} {items : List LitLen} (hr : ∀ x ∈ items, x.InRange) (h1 : c1.size = 288) (h2 : c2.size = 32)
    (hc1 : ∀ t, t < 288 → t ≠ 256 → c1[t]? = some ((items.map fun x => some (llSym x)).count (some t))) (h256 : c1[256]? = some 1)
    (hc2 : ∀ t, t < 32 → c2[t]? = some ((items.map dSym).count (some t))) :
    dataCost ll d items = ∑ i ∈ Finset.range c1.size, c1.getD i 0 * ll.getD i 0 + ∑ i ∈ Finset.range c2.size, c2.getD i 0 * d.getD i 0
      + dataCost #[] #[] items := by
  have e : (items.map (itemCost ll d)).sum = ((items.map fun x => some (llSym x)).map fun o => (o.map fun t => ll.getD t 0).getD 0).sum
      + ((items.map dSym).map fun o => (o.map fun t => d.getD t 0).getD 0).sum + (items.map (itemCost #[] #[])).sum := by
    simp only [List.map_map]
    clear hc1 hc2 hr
    induction items with
    | nil => rfl
    | cons x l ih =>
      simp only [List.map_cons, List.sum_cons, ih, Function.comp_apply, Option.map_some, Option.getD_some]
      rw [itemCost_split ll d x]
      omega
  rw [sum_by_symbol _ 288 _ (by
      intro t ht
      obtain ⟨x, hx, e⟩ := List.mem_map.mp ht
      cases e
      have := (llSym_lt (hr x hx)).1
      omega), sum_by_symbol _ 32 _ (by
      intro t ht
      obtain ⟨x, hx, e⟩ := List.mem_map.mp ht
      have := dSym_lt (hr x hx) e
      omega)] at e
  have e1 : ∑ i ∈ Finset.range c1.size, c1.getD i 0 * ll.getD i 0
      = ∑ s ∈ Finset.range 288, ll.getD s 0 * (items.map fun x => some (llSym x)).count (some s) + ll.getD 256 0 := by
    rw [h1]
    have hm : 256 ∈ Finset.range 288 := by simp
    rw [← Finset.sum_erase_add _ _ hm, ← Finset.sum_erase_add (Finset.range 288) (fun s => ll.getD s 0 * _) hm]
    have h0 : (items.map fun x => some (llSym x)).count (some 256) = 0 := by
      rw [List.count_eq_zero]
      intro hm
      obtain ⟨x, hx, e⟩ := List.mem_map.mp hm
      exact (llSym_lt (hr x hx)).2 (Option.some.inj e)
    rw [h0, Nat.mul_zero, Nat.add_zero]
    have e256 : c1.getD 256 0 = 1 := by rw [show c1.getD 256 0 = _ from Array.getD_eq_getD_getElem?, h256, Option.getD_some]
    rw [e256, Nat.one_mul]
    refine congrArg (· + ll.getD 256 0) (Finset.sum_congr rfl fun i hi => ?_)
    rw [Finset.mem_erase, Finset.mem_range] at hi
    rw [show c1.getD i 0 = _ from Array.getD_eq_getD_getElem?, hc1 i hi.2 hi.1, Option.getD_some, Nat.mul_comm]
  have e2 : ∑ i ∈ Finset.range c2.size, c2.getD i 0 * d.getD i 0
      = ∑ s ∈ Finset.range 32, d.getD s 0 * (items.map dSym).count (some s) := by
    rw [h2]
    refine Finset.sum_congr rfl fun i hi => ?_
    rw [Finset.mem_range] at hi
    rw [show c2.getD i 0 = _ from Array.getD_eq_getD_getElem?, hc2 i hi, Option.getD_some, Nat.mul_comm]
  rw [e1, e2]
  unfold dataCost
  rw [e]
  simp
  omega

theorem codedBits_eq {ll d : Array Nat} {x : LitLen} (h : x.InRange) : itemCost ll d x = x.codedBits ll d := by
  cases x with
  | literal b =>
    have hb : b < 256 := h
    unfold itemCost llCost
    simp [llSym, dSym, LitLen.codedBits, show b < 257 by omega]
  | lengthDist len dist =>
    obtain ⟨g1, g2, g3, g4⟩ := h
    obtain ⟨sy, eb, v, e, -, -, hs1, hs2, he, he2, -⟩ := length_spec g1 g2
    obtain ⟨hd1, hd2, hd3, -⟩ := dist_spec g3 g4
    have es := llSym_eq (x := .lengthDist len dist) ⟨g1, g2, g3, g4⟩
    have ed := distSymbol_eq g3 g4
    unfold itemCost llCost dCost
    simp only [LitLen.llSymbol, LitLen.codedBits] at es ⊢
    rw [← es, ← ed]
    simp only [dSym, Option.map_some, Option.getD_some, hd2]
    simp only [llSym, e, Option.getD_some]
    rw [if_neg (by omega), he, List.getD_eq_getElem?_getD, he2, List.getD_eq_getElem?_getD, hd3]
    simp only [Option.getD_some]
    omega

theorem bodyBits_eq {ll d : Array Nat} {items : List LitLen} (h : ∀ x ∈ items, x.InRange) : dataCost ll d items = bodyBits ll d items := by
  unfold dataCost bodyBits
  rw [List.map_congr_left fun x hx => codedBits_eq (h x hx)]

theorem codedBits_le {ll d : Array Nat} {x : LitLen} (hl : ∀ l ∈ ll.toList, l ≤ 15) (hd : ∀ l ∈ d.toList, l ≤ 15) : x.codedBits ll d ≤ 48 := by
  have g : ∀ (a : Array Nat), (∀ l ∈ a.toList, l ≤ 15) → ∀ i, a.getD i 0 ≤ 15 := by
    intro a ha i
    by_cases h : i < a.size
    · simpa [h] using ha a[i] (by simp)
    · simp [h]
  have g5 : ∀ i, lengthExtra.getD i 0 ≤ 5 := by
    intro i
    by_cases h : i < lengthExtra.length
    · have : ∀ x ∈ lengthExtra, x ≤ 5 := by decide
      simpa [h, List.getD_eq_getElem?_getD] using this lengthExtra[i] (by simp)
    · simp [h, List.getD_eq_getElem?_getD]
  have g13 : ∀ i, distExtra.getD i 0 ≤ 13 := by
    intro i
    by_cases h : i < distExtra.length
    · have : ∀ x ∈ distExtra, x ≤ 13 := by decide
      simpa [h, List.getD_eq_getElem?_getD] using this distExtra[i] (by simp)
    · simp [h, List.getD_eq_getElem?_getD]
  cases x with
  | literal b =>
    have := g ll hl b
    simp only [LitLen.codedBits]
    omega
  | lengthDist len dist =>
    have := g ll hl (lengthSymbol len)
    have := g d hd (distSymbol dist)
    have := g5 (lengthSymbol len - 257)
    have := g13 (distSymbol dist)
    simp only [LitLen.codedBits]
    omega

theorem bodyBits_le {ll d : Array Nat} {items : List LitLen} (hl : ∀ l ∈ ll.toList, l ≤ 15) (hd : ∀ l ∈ d.toList, l ≤ 15) :
    bodyBits ll d items ≤ 48 * items.length + 15 := by
  unfold bodyBits
  have h1 : (items.map (LitLen.codedBits ll d)).sum ≤ 48 * items.length := by
    induction items with
    | nil => simp
    | cons x l ih =>
      have := codedBits_le (x := x) hl hd
      simp only [List.map_cons, List.sum_cons, List.length_cons]
      omega
  have h2 : ll.getD 256 0 ≤ 15 := by
    by_cases h : 256 < ll.size
    · simpa [h] using hl ll[256] (by simp)
    · simp [h]
  omega

/-! ## Size of the tree description -/

theorem rleApply_worth {acc acc' : List Nat} {x : Nat × Nat} (h : rleApply acc x = some acc') :
    5 * acc.length + (5 + rleExtra x.1) ≤ 5 * acc'.length := by
  unfold rleApply at h
  unfold rleExtra
  split at h
  · rw [if_neg (by omega), if_neg (by omega), if_neg (by omega)]
    cases h; simp; omega
  · split at h
    · rename_i h16
      rw [if_pos h16]
      cases hl : acc.getLast? with
      | none => rw [hl] at h; cases h
      | some p => rw [hl] at h; cases h; simp; omega
    · rename_i h16
      rw [if_neg h16]
      split at h
      · rename_i h17
        rw [if_pos h17]
        cases h; simp; omega
      · rename_i h17
        rw [if_neg h17]
        cases h
        simp
        split <;> omega

theorem rle_worth : ∀ {items : List (Nat × Nat)} {acc acc' : List Nat}, items.foldlM rleApply acc = some acc' →
    5 * acc.length + (items.map fun x => 5 + rleExtra x.1).sum ≤ 5 * acc'.length
  | [], acc, acc', h => by simp at h; subst h; simp
  | x :: items, acc, acc', h => by
    rw [List.foldlM_cons] at h
    cases hx : rleApply acc x with
    | none => rw [hx] at h; cases h
    | some acc1 =>
      rw [hx, some_bind] at h
      have h1 := rle_worth h
      have h2 := rleApply_worth hx
      simp only [List.map_cons, List.sum_cons]
      omega

theorem TreePre.size_le {ll d : Array Nat} {u16 u17 u18 : Bool} {hlit hdist : Nat} {o : RleOut} {items : List (Nat × Nat)}
    {clcl : Array Nat} {hclen : Nat} (p : TreePre ll d u16 u17 u18 hlit hdist o items clcl hclen) :
    treeSizeOf items clcl hclen ≤ 1651 := by
  have hsz := p.enc.size
  obtain ⟨cl', e', ho⟩ := lengthLimited_optimal o.clcounts 7 (by omega) (by omega) (by omega)
    (Nat.le_trans (usedLeaves_length_le _) (by rw [hsz]; omega))
  rw [p.e5] at e'
  cases e'
  have h5 := ho (fun _ => 5) (fun _ _ _ => by omega) (fun _ _ => by omega) (by rw [hsz]; decide)
  have hw := rle_worth p.enc.dec
  have hcount : ∀ f : Nat → Nat, ∑ i ∈ Finset.range o.clcounts.size, o.clcounts.getD i 0 * f i = (items.map fun x => f x.1).sum := by
    intro f
    rw [← sum_counts f items fun x hx => (p.enc.ok x hx).1, hsz]
    refine Finset.sum_congr rfl fun s hs => ?_
    rw [show o.clcounts.getD s 0 = _ from Array.getD_eq_getD_getElem?, p.enc.counts s (Finset.mem_range.mp hs), Option.getD_some, Nat.mul_comm]
  rw [hcount fun i => clcl.getD i 0, hcount fun _ => 5] at h5
  rw [List.sum_map_add] at hw
  have hl := p.hl
  have hd := p.hd
  have hc := p.hc
  have hlen : (ll.toList.take (hlit + 257) ++ d.toList.take (hdist + 1)).length ≤ 316 := by
    rw [List.length_append, List.length_take, List.length_take]
    omega
  unfold treeSizeOf
  rw [List.sum_map_add]
  simp only [List.length_nil] at hw
  omega

theorem treeSize_bound {ll d : Array Nat} (h : LensOk ll d) : Ret (calculateTreeSize ll d) fun n => n ≤ 1651 := by
  have hb : ∀ a b c, Ret (encodeTreeNoOutput ll d a b c) fun n => n ≤ 1651 := by
    intro a b c
    obtain ⟨hlit, hdist, o, items, clcl, hclen, p⟩ := tree_pre h a b c
    exact ⟨_, p.size, p.size_le⟩
  unfold calculateTreeSize
  refine Ret.bind' (hb _ _ _) fun _ h1 => ?_
  refine Ret.bind' (hb _ _ _) fun _ _ => ?_
  refine Ret.bind' (hb _ _ _) fun _ _ => ?_
  refine Ret.bind' (hb _ _ _) fun _ _ => ?_
  refine Ret.bind' (hb _ _ _) fun _ _ => ?_
  refine Ret.bind' (hb _ _ _) fun _ _ => ?_
  refine Ret.bind' (hb _ _ _) fun _ _ => ?_
  refine Ret.bind' (hb _ _ _) fun _ _ => ?_
  refine Ret.pure ?_
  simp only [Nat.min_def]
  split_ifs <;> omega

/-! ## The choice between exact and smoothed codes -/

/-- `try_optimize_huffman_for_rle` returns no more than the size with the given lengths. -/
theorem tryOptimize_le {lz77 : Lz77Store} {lstart lend : Nat} {llCounts dCounts ll d : Array Nat} {r : Nat × Array Nat × Array Nat}
    (hr : tryOptimizeHuffmanForRle lz77 lstart lend llCounts dCounts ll d = some r) {t s : Nat} (ht : calculateTreeSize ll d = some t)
    (hs : blockSymbolSizeGivenCounts llCounts dCounts ll d lz77 lstart lend = some s) : r.1 ≤ t + s := by
  unfold tryOptimizeHuffmanForRle at hr
  rw [ht, some_bind, hs, some_bind] at hr
  simp only [Option.bind_eq_bind, Option.bind_eq_some_iff] at hr
  obtain ⟨_, -, _, -, _, -, _, -, _, -, _, -, _, -, hr⟩ := hr
  split at hr
  · cases hr
    dsimp only
    omega
  · cases hr
    exact Nat.le_refl _

/-- The patch changes only zero lengths. -/
theorem patch_keeps {raw d : Array Nat} (h : patchDistanceCodes raw = some d) (hz : ∀ i, 30 ≤ i → raw.getD i 0 = 0) : d.size = raw.size ∧ ∀ i, raw.getD i 0 ≠ 0 → d.getD i 0 = raw.getD i 0 := by
  have hset : ∀ (a b : Array Nat) (k : Nat), aset a k 1 = some b → b.size = a.size ∧ ∀ i, i ≠ k → b.getD i 0 = a.getD i 0 := by
    intro a b k h
    unfold aset at h
    split at h
    · cases h
      refine ⟨by simp, fun i hi => ?_⟩
      simp [Ne.symm hi]
    · cases h
  unfold patchDistanceCodes at h
  dsimp only at h
  split at h
  · rename_i h0
    simp only [Option.bind_eq_bind, Option.bind_eq_some_iff] at h
    obtain ⟨a, ha, hb⟩ := h
    obtain ⟨s1, -⟩ := hset _ _ _ ha
    obtain ⟨s2, -⟩ := hset _ _ _ hb
    refine ⟨by omega, fun i hi => absurd ?_ hi⟩
    rw [List.length_eq_zero_iff, List.filter_eq_nil_iff] at h0
    by_cases h30 : 30 ≤ i
    · exact hz i h30
    · by_cases his : i < raw.size
      · have := h0 raw[i] (by
          rw [List.mem_take_iff_getElem]
          exact ⟨i, by simp; omega, by simp⟩)
        simpa [his] using this
      · simp [his]
  · split at h
    · rename_i h1
      simp only [Option.bind_eq_bind, Option.bind_eq_some_iff] at h
      obtain ⟨v, hv, hb⟩ := h
      obtain ⟨s2, hk⟩ := hset _ _ _ hb
      refine ⟨s2, fun i hi => ?_⟩
      by_cases hik : i = if v ≠ 0 then 1 else 0
      · exfalso
        have hv' : raw.getD 0 0 = v := by rw [show raw.getD 0 0 = _ from Array.getD_eq_getD_getElem?, hv]; rfl
        split at hik
        · rename_i hne
          subst hik
          -- entries 0 and 1 are both used: two at least
          have hs : 1 < raw.size := by
            by_contra hc
            simp [hc] at hi
          have e : raw.toList.take 30 = raw[0] :: raw[1] :: (raw.toList.take 30).drop 2 := by
            apply List.ext_getElem?
            intro j
            rcases j with _ | _ | j
            · simp [show 0 < raw.size by omega]
            · simp [hs]
            · simp [Nat.add_comm 2]
          rw [e] at h1
          have a0 : raw[0] ≠ 0 := by
            rw [← hv'] at hne
            simpa [show 0 < raw.size by omega] using hne
          have a1 : raw[1] ≠ 0 := by simpa [hs] using hi
          simp [a0, a1] at h1
        · rename_i hne
          subst hik
          rw [hv'] at hi
          exact hne hi
      · exact hk i hik
    · cases h
      exact ⟨rfl, fun _ _ => rfl⟩

/-! ## The block -/

theorem kraft_range {a : Array Nat} (hm : ∀ l ∈ a.toList, l ≤ 15) (hk : kraftSum a.toList ≤ 1) :
    (∑ i ∈ Finset.range a.size, if a.getD i 0 = 0 then 0 else 2 ^ (15 - a.getD i 0)) ≤ 2 ^ 15 := by
  have := kraft_nat hm hk
  rw [← sum_list_range fun i => if a.getD i 0 = 0 then 0 else 2 ^ (15 - a.getD i 0)]
  have e2 : (List.range a.size).map (fun i => if a.getD i 0 = 0 then 0 else 2 ^ (15 - a.getD i 0)) =
      a.toList.map fun x => if x = 0 then 0 else 2 ^ (15 - x) := by
    apply List.ext_getElem
    · simp
    · intro i h1 h2
      have h' : i < a.size := by simpa using h2
      simp [h']
  rw [e2]
  exact this

theorem getD_le {a : Array Nat} (h : ∀ l ∈ a.toList, l ≤ 15) (i : Nat) : a.getD i 0 ≤ 15 := by
  by_cases hi : i < a.size
  · simpa [hi] using h a[i] (by simp)
  · simp [hi]

/-- The size computed for a dynamic block is at most the size with the exact optimal codes. -/
theorem getDynamicLengths_le {s : Lz77Store} (h : StoreInv s) {lstart lend : Nat} (hlt : lstart < lend) (hlend : lend ≤ s.size)
    {items : List LitLen} (hit : (s.litlens.toList.take lend).drop lstart = items) (hbig : 48 * items.length + 15 < 2 ^ 32) :
    Ret (getDynamicLengths s lstart lend) fun r => ∃ ll d t, TreeOk ll d ∧ CanCode ll d items ∧ calculateTreeSize ll d = some t ∧ t ≤ 1651 ∧
      r.1 ≤ t + bodyBits ll d items ∧ ∀ ll' d', CanCode ll' d' items → bodyBits ll d items ≤ bodyBits ll' d' items := by
  have hle := Nat.le_of_lt hlt
  obtain ⟨r, er, -⟩ := getDynamicLengths_spec h hle hlend
  refine ⟨r, er, ?_⟩
  unfold getDynamicLengths at er
  obtain ⟨⟨c1, c2⟩, e, h1, h2⟩ := getHistogram_spec h hle hlend
  rw [e, some_bind] at er
  dsimp only at h1 h2 er
  rw [aset_eq (by rw [h1.1]; omega), some_bind] at er
  generalize hc1 : c1.set 256 1 (by rw [h1.1]; omega) = c1' at er
  have hr : ∀ x ∈ items, x.InRange := fun x hx => by
    rw [← hit] at hx
    exact h.range x (List.mem_of_mem_take (List.mem_of_mem_drop hx))
  have hs1 : c1'.size = 288 := by rw [← hc1, Array.size_set, h1.1]
  have hc1v' : ∀ t, t < 288 → t ≠ 256 → c1'[t]? = some ((((s.litlens.toList.map fun x => some (llSym x)).take lend).drop lstart).count (some t)) := by
    intro t ht hne
    rw [← hc1, Array.getElem?_set, if_neg (by omega)]
    exact h1.2 t ht
  have hc1v := hc1v'
  simp only [← List.map_take, ← List.map_drop, hit] at hc1v
  have hc2v : ∀ t, t < 32 → c2[t]? = some ((items.map dSym).count (some t)) := by
    intro t ht
    rw [h2.2 t ht, ← List.map_take, ← List.map_drop, hit]
  have h256 : c1'[256]? = some 1 := by
    rw [← hc1, Array.getElem?_set, if_pos rfl]
  have hg1 : ∀ t, t < 288 → t ≠ 256 → c1'.getD t 0 = (items.map fun x => some (llSym x)).count (some t) := by
    intro t ht hne
    rw [show c1'.getD t 0 = _ from Array.getD_eq_getD_getElem?, hc1v t ht hne, Option.getD_some]
  have hg2 : ∀ t, t < 32 → c2.getD t 0 = (items.map dSym).count (some t) := by
    intro t ht
    rw [show c2.getD t 0 = _ from Array.getD_eq_getD_getElem?, hc2v t ht, Option.getD_some]
  have hok : CountsOk c1' c2 := by
    refine ⟨hs1, h2.1, ?_, ?_, by omega, ?_⟩
    · intro i hi h286
      have := hg1 i (by omega) (by omega)
      rw [show c1'.getD i 0 = c1'[i] by simp [hi]] at this
      rw [this, List.count_eq_zero]
      intro hm
      obtain ⟨x, hx, e⟩ := List.mem_map.mp hm
      have := (llSym_lt (hr x hx)).1
      have := Option.some.inj e
      omega
    · intro i hi h30
      have hi' : i < 32 := by rw [← h2.1]; exact hi
      have := hg2 i hi'
      rw [show c2.getD i 0 = c2[i] by simp [hi]] at this
      rw [this, List.count_eq_zero]
      intro hm
      obtain ⟨x, hx, e⟩ := List.mem_map.mp hm
      have := dSym_lt (hr x hx) e
      omega
    · simp [← hc1]
  obtain ⟨ll, e1, d, e2, hc⟩ := lengths_spec (llCounts := c1') (dCounts := c2) hok rfl rfl (fun _ _ _ h => h) (fun _ _ _ h => h)
  have hne : items ≠ [] := by
    intro h0
    have := congrArg List.length hit
    have hsz : s.size = s.litlens.size := rfl
    rw [h0] at this
    simp at this
    omega
  have hused : ∀ x ∈ items, c1'.getD (llSym x) 0 ≠ 0 := by
    intro x hx
    have hlt := llSym_lt (hr x hx)
    rw [hg1 _ (by omega) hlt.2]
    have := List.count_pos_iff.mpr (List.mem_map.mpr ⟨x, hx, rfl⟩ : some (llSym x) ∈ items.map fun x => some (llSym x))
    omega
  have hused2 : ∀ x ∈ items, ∀ t, dSym x = some t → c2.getD t 0 ≠ 0 := by
    intro x hx t ht
    have hlt := dSym_lt (hr x hx) ht
    rw [hg2 _ (by omega)]
    have := List.count_pos_iff.mpr (List.mem_map.mpr ⟨x, hx, ht⟩ : some t ∈ items.map dSym)
    omega
  have htree : TreeOk ll d := by
    obtain ⟨x, hx⟩ := List.exists_mem_of_ne_nil _ hne
    have hl := llSym_lt (hr x hx)
    refine hc.tree ⟨llSym x, hl.2, by omega, ?_⟩
    have := hused x hx
    simpa [show llSym x < c1'.size by omega] using this
  have hgood := htree.good
  have hcan : CanCode ll d items := by
    refine ⟨hgood.llSize, hgood.dSize, hgood.llMax, hgood.dMax, le_of_eq hgood.llComplete, le_of_eq hgood.dComplete, ?_, ?_, ?_⟩
    · obtain ⟨g1, g2⟩ := hgood.endOfBlock
      simpa [g1] using g2
    · intro x hx
      have hl := llSym_lt (hr x hx)
      have hsz := hc.lls
      have := hused x hx
      rw [← llSym_eq (hr x hx)]
      have := hc.llu (llSym x) (by omega) (by omega) (by simpa [show llSym x < c1'.size by omega] using this)
      simpa [show llSym x < ll.size by omega] using this
    · intro x hx t ht
      rw [← dSym_eq (hr x hx)] at ht
      have hl := dSym_lt (hr x hx) ht
      have hsz := hc.ds
      have hsz2 := h2.1
      have := hused2 x hx t ht
      have := hc.du t (by omega) (by omega) (by simpa [show t < c2.size by omega] using this)
      simpa [show t < d.size by omega] using this
  obtain ⟨t, et, ht⟩ := treeSize_bound hc.toLensOk
  have hbody := bodyBits_le (items := items) hgood.llMax hgood.dMax
  have hsz := blockSymbolSizeGivenCounts_spec (llCounts := c1') (dCounts := c2) hc.lls hc.ds h hle hlend hc1v' h2
  rw [hit, bodyBits_eq hr, Nat.mod_eq_of_lt (by omega)] at hsz
  have e2' : ∀ (f : Array Nat → Option (Nat × Array Nat × Array Nat)),
      (do let x ← lengthLimitedCodeLengths c2 15; let y ← patchDistanceCodes x; f y) = f d := by
    intro f
    rw [← bind_assoc, e2, some_bind]
  rw [e1, some_bind, e2'] at er
  refine ⟨ll, d, t, htree, hcan, et, ht, tryOptimize_le er et hsz, fun ll' d' hcan' => ?_⟩
  -- optimality
  rw [← bodyBits_eq hr, ← bodyBits_eq hr, dataCost_split hr hs1 h2.1 hc1v h256 hc2v, dataCost_split hr hs1 h2.1 hc1v h256 hc2v (ll := ll')]
  have hnz1 : ∀ i, i < 288 → c1'.getD i 0 ≠ 0 → i = 256 ∨ ∃ x ∈ items, llSym x = i := by
    intro i hi hne
    by_cases h256 : i = 256
    · exact .inl h256
    · right
      rw [hg1 i hi h256] at hne
      obtain ⟨x, hx, e⟩ := List.mem_map.mp (List.count_pos_iff.mp (Nat.pos_of_ne_zero hne))
      exact ⟨x, hx, Option.some.inj e⟩
  have hnz2 : ∀ i, i < 32 → c2.getD i 0 ≠ 0 → ∃ x ∈ items, dSym x = some i := by
    intro i hi hne
    rw [hg2 i hi] at hne
    obtain ⟨x, hx, e⟩ := List.mem_map.mp (List.count_pos_iff.mp (Nat.pos_of_ne_zero hne))
    exact ⟨x, hx, e⟩
  have o1 : ∑ i ∈ Finset.range c1'.size, c1'.getD i 0 * ll.getD i 0 ≤ ∑ i ∈ Finset.range c1'.size, c1'.getD i 0 * ll'.getD i 0 := by
    obtain ⟨bl, eb, ho⟩ := lengthLimited_optimal c1' 15 (by omega) (by omega) (by omega)
      (Nat.le_trans (usedLeaves_length_le _) (by rw [hs1]; norm_num))
    rw [e1] at eb
    cases eb
    refine ho (fun i => ll'.getD i 0) ?_ (fun i _ => getD_le hcan'.llMax i) ?_
    · intro i hi hne
      rcases hnz1 i (by omega) (by simpa [hi] using hne) with rfl | ⟨x, hx, rfl⟩
      · exact hcan'.endOfBlock
      · rw [llSym_eq (hr x hx)]
        exact hcan'.llUsed x hx
    · rw [hs1, ← hcan'.llSize]
      exact kraft_range hcan'.llMax hcan'.llKraft
  have o2 : ∑ i ∈ Finset.range c2.size, c2.getD i 0 * d.getD i 0 ≤ ∑ i ∈ Finset.range c2.size, c2.getD i 0 * d'.getD i 0 := by
    have hs2 := h2.1
    obtain ⟨bl, eb, ho⟩ := lengthLimited_optimal c2 15 (by omega) (by omega) (by omega)
      (Nat.le_trans (usedLeaves_length_le _) (by rw [hs2]; norm_num))
    obtain ⟨bl', eb', hbs, hbl, -⟩ := lengthLimited_spec c2 15 (by omega) (by omega) (by omega)
      (Nat.le_trans (usedLeaves_length_le _) (by rw [hs2]; norm_num))
    obtain rfl : bl = bl' := Option.some.inj (eb.symm.trans eb')
    rw [eb] at e2
    have hz : ∀ i, (hi : i < c2.size) → (bl.getD i 0 = 0 ↔ c2[i] = 0) := by
      intro i hi
      obtain ⟨l, g1, -, g3⟩ := hbl i hi
      rw [show bl.getD i 0 = _ from Array.getD_eq_getD_getElem?, g1]
      exact g3
    obtain ⟨-, hp⟩ := patch_keeps (raw := bl) (d := d) e2 (by
      intro i h30
      by_cases hi : i < c2.size
      · exact (hz i hi).mpr (hok.dz i hi h30)
      · simp [show ¬ i < bl.size by omega])
    have eq : ∑ i ∈ Finset.range c2.size, c2.getD i 0 * d.getD i 0 = ∑ i ∈ Finset.range c2.size, c2.getD i 0 * bl.getD i 0 := by
      refine Finset.sum_congr rfl fun i hi => ?_
      have hi' : i < c2.size := Finset.mem_range.mp hi
      by_cases h0 : c2[i] = 0
      · simp [hi', h0]
      · rw [hp i fun e => h0 ((hz i hi').mp e)]
    rw [eq]
    refine ho (fun i => d'.getD i 0) ?_ (fun i _ => getD_le hcan'.dMax i) ?_
    · intro i hi hne
      obtain ⟨x, hx, e⟩ := hnz2 i (by omega) (by simpa [hi] using hne)
      rw [dSym_eq (hr x hx)] at e
      exact hcan'.dUsed x hx i e
    · rw [hs2, ← hcan'.dSize]
      exact kraft_range hcan'.dMax hcan'.dKraft
  omega

end Zopfli
