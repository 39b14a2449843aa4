import Verif.Proofs.Store
import Verif.Proofs.Smooth
/-! # Block sizes are computed exactly -/

namespace Zopfli
open Rfc Katajainen

/-- Bits for a literal/length symbol including its extra bits. -/
def llCost (ll : Array Nat) (s : Nat) : Nat := ll.getD s 0 + (if s < 257 then 0 else (getLengthSymbolExtraBits s).getD 0)
/-- Bits for a distance symbol including its extra bits. -/
def dCost (d : Array Nat) (s : Nat) : Nat := d.getD s 0 + (getDistSymbolExtraBits s).getD 0
/-- Bits for an item. -/
def itemCost (ll d : Array Nat) (x : LitLen) : Nat := llCost ll (llSym x) + ((dSym x).map (dCost d)).getD 0
/-- Bits of the data of a block, including the end symbol. -/
def dataCost (ll d : Array Nat) (items : List LitLen) : Nat := (items.map (itemCost ll d)).sum + ll.getD 256 0

theorem getD_eq {a : Array Nat} {i n : Nat} (hs : a.size = n) (hi : i < n) : a[i]? = some (a.getD i 0) := by
  simp [hs, hi]

theorem itemSize_eq {ll d : Array Nat} (hl : ll.size = 288) (hd : d.size = 32) {x : LitLen} (hx : x.InRange) :
    itemSize ll d x = some (itemCost ll d x) := by
  cases x with
  | literal b =>
    have hb : b < 256 := hx
    have e1 : llCost ll (llSym (.literal b)) = ll.getD b 0 := by
      show ll.getD b 0 + (if b < 257 then 0 else (getLengthSymbolExtraBits b).getD 0) = _
      rw [if_pos (by omega)]; rfl
    rw [itemCost, e1, itemSize, guardR_eq (by simp only [decide_eq_true_eq]; omega), some_bind]
    exact getD_eq hl (by omega)
  | lengthDist len dist =>
    obtain ⟨g1, g2, g3, g4⟩ := hx
    obtain ⟨sy, eb, v, e, -, -, hs1, hs2, he, -⟩ := length_spec g1 g2
    obtain ⟨hd1, hd2, -⟩ := dist_spec g3 g4
    rw [itemSize, guardR_eq (by simp only [decide_eq_true_eq]; omega), some_bind]
    unfold itemCost llCost dCost
    simp only [llSym, dSym, e, Option.getD_some, Option.map_some, some_bind]
    rw [getD_eq hl (by omega), some_bind, getD_eq hd (by omega), some_bind, he, some_bind, hd2, some_bind, if_neg (by omega)]
    refine congrArg some ?_
    simp only [Option.getD_some]
    omega

theorem u32_eq [Checks] {x : Nat} (h : Checks.on = true → x < 2 ^ 32) : u32 x = some (x % 2 ^ 32) := by
  unfold u32
  rw [if_neg (fun hh => absurd (h hh.1) (by omega))]

theorem blockSymbolSizeSmall_gen [Checks] {ll d : Array Nat} (hl : ll.size = 288) (hd : d.size = 32) {s : Lz77Store} (h : StoreInv s)
    {lstart lend : Nat} (hle : lstart ≤ lend) (hlend : lend ≤ s.size)
    (hov : Checks.on = true → dataCost ll d ((s.litlens.toList.take lend).drop lstart) < 2 ^ 32) :
    blockSymbolSizeSmall ll d s lstart lend = some (dataCost ll d ((s.litlens.toList.take lend).drop lstart) % 2 ^ 32) := by
  unfold blockSymbolSizeSmall
  rw [slice_eq hle hlend, some_bind]
  generalize hit : s.litlens.extract lstart lend = items
  have hitl : items.toList = (s.litlens.toList.take lend).drop lstart := by
    rw [← hit]
    simp [List.drop_take]
  have hr : ∀ x ∈ items.toList, x.InRange := by
    intro x hx
    rw [hitl] at hx
    exact h.range x (List.mem_of_mem_take (List.mem_of_mem_drop hx))
  rw [← hitl, dataCost] at hov
  obtain ⟨r, er, hr⟩ : Ret (forRange 0 items.size 0 fun i r => do
      u32 (r + (← itemSize ll d (← items[i]?)))) fun r => r = (items.toList.map (itemCost ll d)).sum % 2 ^ 32 := by
    refine Ret.mono (forRange_spec (fun i r => r = ((items.toList.take i).map (itemCost ll d)).sum % 2 ^ 32) (by omega) (by simp) ?_) ?_
    · rintro i r - hi rfl
      have hi' : i < items.toList.length := by simpa using hi
      rw [Array.getElem?_eq_getElem hi, some_bind, itemSize_eq hl hd (hr _ (by simp)), some_bind, u32_eq (fun hon => by
        have h1 := hov hon
        have h2 : (items.toList.map (itemCost ll d)).sum = ((items.toList.take (i + 1)).map (itemCost ll d)).sum + ((items.toList.drop (i + 1)).map (itemCost ll d)).sum := by
          rw [← List.sum_append, ← List.map_append, List.take_append_drop]
        rw [List.take_succ_eq_append_getElem hi', List.map_append, List.sum_append, List.map_singleton, List.sum_singleton, Array.getElem_toList] at h2
        omega)]
      refine Ret.some ?_
      rw [List.take_succ_eq_append_getElem (by simpa using hi), List.map_append, List.sum_append]
      simp [Nat.add_mod]
    · rintro r rfl
      rw [List.take_of_length_le (by simp)]
  rw [er, some_bind, getD_eq hl (by omega), some_bind, u32_eq (fun hon => by have := hov hon; omega)]
  rw [hr, ← hitl, dataCost, Nat.mod_add_mod]

theorem blockSymbolSizeSmall_spec {ll d : Array Nat} (hl : ll.size = 288) (hd : d.size = 32) {s : Lz77Store} (h : StoreInv s)
    {lstart lend : Nat} (hle : lstart ≤ lend) (hlend : lend ≤ s.size) :
    blockSymbolSizeSmall ll d s lstart lend = some (dataCost ll d ((s.litlens.toList.take lend).drop lstart) % 2 ^ 32) :=
  blockSymbolSizeSmall_gen hl hd h hle hlend (fun h => nomatch h)

/-- A sum over items grouped by symbol. -/
theorem sum_by_symbol (f : Nat → Nat) (n : Nat) : ∀ (l : List (Option Nat)), (∀ s, some s ∈ l → s < n) →
    (l.map fun o => (o.map f).getD 0).sum = ∑ s ∈ Finset.range n, f s * l.count (some s)
  | [], _ => by simp
  | none :: l, h => by
    rw [List.map_cons, List.sum_cons, sum_by_symbol f n l fun s hs => h s (by simp [hs])]
    simp
  | some v :: l, h => by
    rw [List.map_cons, List.sum_cons, sum_by_symbol f n l fun s hs => h s (by simp [hs])]
    have hv : v ∈ Finset.range n := Finset.mem_range.mpr (h v (by simp))
    rw [← Finset.sum_erase_add _ _ hv, ← Finset.sum_erase_add (Finset.range n) _ hv]
    have : ∑ s ∈ (Finset.range n).erase v, f s * (some v :: l).count (some s)
        = ∑ s ∈ (Finset.range n).erase v, f s * l.count (some s) := by
      refine Finset.sum_congr rfl fun s hs => ?_
      have : ¬ v = s := fun e => by simp [e] at hs
      rw [List.count_cons]
      simp [this]
    rw [this, List.count_cons]
    simp
    ring

theorem count_map_some {α : Type} (f : α → Nat) (l : List α) (s : Nat) :
    (l.map fun x => some (f x)).count (some s) = (l.map f).count s := by
  induction l with
  | nil => rfl
  | cons x l ih => simp [List.count_cons, ih]

theorem sum_loop [Checks] {a b : Nat} (hab : a ≤ b) (f : Nat → Nat) (r0 : Nat) {g : Nat → Nat → Option Nat}
    (hg : ∀ i r, a ≤ i → i < b → r < 2 ^ 32 → (Checks.on = true → r + f i < 2 ^ 32) → g i r = some ((r + f i) % 2 ^ 32))
    (hov : Checks.on = true → r0 + ∑ i ∈ Finset.Ico a b, f i < 2 ^ 32) :
    forRange a b (r0 % 2 ^ 32) g = some ((r0 + ∑ i ∈ Finset.Ico a b, f i) % 2 ^ 32) := by
  obtain ⟨r, e, hr⟩ := forRange_spec (f := g) (a := a) (b := b) (s := r0 % 2 ^ 32)
    (fun i r => r = (r0 + ∑ i ∈ Finset.Ico a i, f i) % 2 ^ 32) hab (by simp) (by
      rintro i r h1 h2 rfl
      rw [hg i _ h1 h2 (Nat.mod_lt _ (by norm_num)) (fun hon => by
        have g1 := hov hon
        rw [← Finset.sum_Ico_consecutive _ h1 (Nat.le_of_lt h2), Finset.sum_eq_sum_Ico_succ_bot h2] at g1
        have g2 := Nat.mod_le (r0 + ∑ i ∈ Finset.Ico a i, f i) (2 ^ 32)
        omega)]
      refine Ret.some ?_
      rw [Finset.sum_Ico_succ_top h1, Nat.mod_add_mod, Nat.add_assoc])
  rw [e, hr]

theorem mul_step [Checks] {r l c : Nat} (hr : r < 2 ^ 32) (hov : Checks.on = true → r + l * c < 2 ^ 32) :
    (do u32 (r + (← u32 (l * (c % 2 ^ 32))))) = some ((r + l * c) % 2 ^ 32) := by
  have hm : l * (c % 2 ^ 32) ≤ l * c := Nat.mul_le_mul_left _ (Nat.mod_le _ _)
  rw [u32_eq (fun hon => by have := hov hon; omega), some_bind, u32_eq (fun hon => by
    have := hov hon
    have := Nat.mod_le (l * (c % 2 ^ 32)) (2 ^ 32)
    omega), Nat.add_mod_mod, Nat.add_mod, Nat.mul_mod_mod, ← Nat.add_mod]

theorem mul_step2 [Checks] {r l e c : Nat} (hr : r < 2 ^ 32) (hov : Checks.on = true → r + (l + e) * c < 2 ^ 32) :
    (do
      let r ← u32 (r + (← u32 (l * (c % 2 ^ 32))))
      u32 (r + e * c % 2 ^ 32)) = some ((r + (l + e) * c) % 2 ^ 32) := by
  rw [Nat.add_mul] at hov ⊢
  have h1 := mul_step hr (l := l) (c := c) (fun hon => by have := hov hon; omega)
  rw [← bind_assoc, h1, some_bind, u32_eq (fun hon => by
    have := hov hon
    have := Nat.mod_le (r + l * c) (2 ^ 32)
    have := Nat.mod_le (e * c) (2 ^ 32)
    omega)]
  refine congrArg some ?_
  omega

/-- The size computed from the histogram equals the size computed item by item. -/
theorem blockSymbolSizeGivenCounts_gen [Checks] {llCounts dCounts ll d : Array Nat} (hl : ll.size = 288) (hd : d.size = 32) {s : Lz77Store}
    (h : StoreInv s) {lstart lend : Nat} (hle : lstart + 864 > lend → lstart ≤ lend ∧ lend ≤ s.size)
    (hcl : ∀ t, t < 288 → t ≠ 256 → llCounts[t]? = some ((((s.litlens.toList.map fun x => some (llSym x)).take lend).drop lstart).count (some t)))
    (hcd : Hist dCounts 32 (((s.litlens.toList.map dSym).take lend).drop lstart))
    (hov : Checks.on = true → dataCost ll d ((s.litlens.toList.take lend).drop lstart) < 2 ^ 32) :
    blockSymbolSizeGivenCounts llCounts dCounts ll d s lstart lend
      = some (dataCost ll d ((s.litlens.toList.take lend).drop lstart) % 2 ^ 32) := by
  unfold blockSymbolSizeGivenCounts
  split
  · rename_i hc
    exact blockSymbolSizeSmall_gen hl hd h (hle hc).1 (hle hc).2 hov
  · rw [← List.map_take, ← List.map_drop] at hcl hcd
    generalize hit : (s.litlens.toList.take lend).drop lstart = items at *
    have hr : ∀ x ∈ items, x.InRange := by
      intro x hx
      rw [← hit] at hx
      exact h.range x (List.mem_of_mem_take (List.mem_of_mem_drop hx))
    have hsum : (items.map (itemCost ll d)).sum = ∑ i ∈ Finset.Ico 0 256, ll.getD i 0 * (items.map fun x => some (llSym x)).count (some i) +
        ∑ i ∈ Finset.Ico 257 286, llCost ll i * (items.map fun x => some (llSym x)).count (some i) +
        ∑ i ∈ Finset.Ico 0 30, dCost d i * (items.map dSym).count (some i) := by
      have hs1 : (items.map (itemCost ll d)).sum = ((items.map fun x => some (llSym x)).map fun o => (o.map (llCost ll)).getD 0).sum
          + ((items.map dSym).map fun o => (o.map (dCost d)).getD 0).sum := by
        simp only [List.map_map]
        clear hit hcl hcd hov hr
        induction items with
        | nil => rfl
        | cons x l ih => 
          simp only [List.map_cons, List.sum_cons, ih, itemCost, Function.comp_apply, Option.map_some, Option.getD_some]
          omega
      rw [hs1, sum_by_symbol (llCost ll) 286 _ (by
          intro t ht
          obtain ⟨x, hx, e⟩ := List.mem_map.mp ht
          cases e
          exact (llSym_lt (hr x hx)).1),
        sum_by_symbol (dCost d) 30 _ (by
          intro t ht
          obtain ⟨x, hx, e⟩ := List.mem_map.mp ht
          exact dSym_lt (hr x hx) e)]
      rw [Finset.range_eq_Ico, Finset.range_eq_Ico]
      refine congrArg (fun z => z + ∑ i ∈ Finset.Ico 0 30, dCost d i * (items.map dSym).count (some i)) ?_
      rw [← Finset.sum_Ico_consecutive _ (show 0 ≤ 256 by omega) (show 256 ≤ 286 by omega)]
      rw [← Finset.sum_Ico_consecutive _ (show 256 ≤ 257 by omega) (show 257 ≤ 286 by omega)]
      have h256 : (items.map fun x => some (llSym x)).count (some 256) = 0 := by
        rw [List.count_eq_zero]
        intro hm
        obtain ⟨x, hx, e⟩ := List.mem_map.mp hm
        exact (llSym_lt (hr x hx)).2 (Option.some.inj e)
      rw [show Finset.Ico 256 257 = {256} by rfl, Finset.sum_singleton, h256, Nat.mul_zero, Nat.zero_add]
      refine congrArg (fun z => z + ∑ i ∈ Finset.Ico 257 286, llCost ll i * (items.map fun x => some (llSym x)).count (some i)) ?_
      refine Finset.sum_congr rfl fun i hi => ?_
      have : i < 256 := (Finset.mem_Ico.mp hi).2
      rw [llCost, if_pos (by omega), Nat.add_zero]
    rw [dataCost, hsum] at hov ⊢
    have e1 := sum_loop (a := 0) (b := 256) (by omega) (fun i => ll.getD i 0 * (items.map fun x => some (llSym x)).count (some i)) 0
      (g := fun i r => do u32 (r + (← u32 ((← ll[i]?) * ((← llCounts[i]?) % 2 ^ 32))))) (by
        intro i r _ hi hr hov
        rw [getD_eq hl (by omega), some_bind, hcl i (by omega) (by omega), some_bind]
        exact mul_step hr (by simpa using hov)) (fun hon => by have := hov hon; omega)
    rw [Nat.zero_mod] at e1
    rw [e1, some_bind]
    have e2 := sum_loop (a := 257) (b := 286) (by omega) (fun i => llCost ll i * (items.map fun x => some (llSym x)).count (some i))
      (0 + ∑ i ∈ Finset.Ico 0 256, ll.getD i 0 * (items.map fun x => some (llSym x)).count (some i))
      (g := fun i r => do
        let r ← u32 (r + (← u32 ((← ll[i]?) * ((← llCounts[i]?) % 2 ^ 32))))
        u32 (r + (← getLengthSymbolExtraBits i) * (← llCounts[i]?) % 2 ^ 32)) (by
        intro i r hi1 hi hr hov
        have he : ∀ i : Fin 29, getLengthSymbolExtraBits (257 + i.1) ≠ none := by decide
        obtain ⟨e, he⟩ := Option.ne_none_iff_exists'.mp (he ⟨i - 257, by omega⟩)
        rw [show 257 + (i - 257) = i by omega] at he
        have hce : llCost ll i = ll.getD i 0 + e := by rw [llCost, if_neg (by omega), he, Option.getD_some]
        rw [hce] at hov ⊢
        rw [getD_eq hl (by omega), some_bind, hcl i (by omega) (by omega), some_bind]
        simp only [he, some_bind]
        exact mul_step2 hr hov) (fun hon => by have := hov hon; omega)
    rw [e2, some_bind]
    have e3 := sum_loop (a := 0) (b := 30) (by omega) (fun i => dCost d i * (items.map dSym).count (some i))
      (0 + ∑ i ∈ Finset.Ico 0 256, ll.getD i 0 * (items.map fun x => some (llSym x)).count (some i) +
        ∑ i ∈ Finset.Ico 257 286, llCost ll i * (items.map fun x => some (llSym x)).count (some i))
      (g := fun i r => do
        let r ← u32 (r + (← u32 ((← d[i]?) * ((← dCounts[i]?) % 2 ^ 32))))
        u32 (r + (← getDistSymbolExtraBits i) * (← dCounts[i]?) % 2 ^ 32)) (by
        intro i r hi1 hi hr hov
        have he : ∀ i : Fin 30, getDistSymbolExtraBits i.1 ≠ none := by decide
        obtain ⟨e, he⟩ := Option.ne_none_iff_exists'.mp (he ⟨i, by omega⟩)
        dsimp only at he
        have hce : dCost d i = d.getD i 0 + e := by rw [dCost, he, Option.getD_some]
        rw [hce] at hov ⊢
        rw [getD_eq hd (by omega), some_bind, hcd.2 i (by omega), some_bind]
        simp only [he, some_bind]
        exact mul_step2 hr hov) (fun hon => by have := hov hon; omega)
    rw [e3, some_bind, getD_eq hl (by omega), some_bind, u32_eq (fun hon => by
      have := hov hon
      have := Nat.mod_le (0 + ∑ i ∈ Finset.Ico 0 256, ll.getD i 0 * (items.map fun x => some (llSym x)).count (some i) +
        ∑ i ∈ Finset.Ico 257 286, llCost ll i * (items.map fun x => some (llSym x)).count (some i) +
        ∑ i ∈ Finset.Ico 0 30, dCost d i * (items.map dSym).count (some i)) (2 ^ 32)
      omega)]
    refine congrArg some ?_
    omega

theorem blockSymbolSizeGivenCounts_spec {llCounts dCounts ll d : Array Nat} (hl : ll.size = 288) (hd : d.size = 32) {s : Lz77Store}
    (h : StoreInv s) {lstart lend : Nat} (hle : lstart ≤ lend) (hlend : lend ≤ s.size)
    (hcl : ∀ t, t < 288 → t ≠ 256 → llCounts[t]? = some ((((s.litlens.toList.map fun x => some (llSym x)).take lend).drop lstart).count (some t)))
    (hcd : Hist dCounts 32 (((s.litlens.toList.map dSym).take lend).drop lstart)) :
    blockSymbolSizeGivenCounts llCounts dCounts ll d s lstart lend
      = some (dataCost ll d ((s.litlens.toList.take lend).drop lstart) % 2 ^ 32) :=
  blockSymbolSizeGivenCounts_gen hl hd h (fun _ => ⟨hle, hlend⟩) hcl hcd (fun h => nomatch h)

theorem blockSymbolSize_spec {ll d : Array Nat} (hl : ll.size = 288) (hd : d.size = 32) {s : Lz77Store}
    (h : StoreInv s) {lstart lend : Nat} (hle : lstart ≤ lend) (hlend : lend ≤ s.size) :
    blockSymbolSize ll d s lstart lend = some (dataCost ll d ((s.litlens.toList.take lend).drop lstart) % 2 ^ 32) := by
  unfold blockSymbolSize
  split
  · exact blockSymbolSizeSmall_spec hl hd h hle hlend
  · obtain ⟨⟨c1, c2⟩, e, h1, h2⟩ := getHistogram_spec h hle hlend
    rw [e, some_bind]
    exact blockSymbolSizeGivenCounts_spec hl hd h hle hlend (fun t ht _ => h1.2 t ht) h2

theorem blockSymbolSize_checked {ll d : Array Nat} (hl : ll.size = 288) (hd : d.size = 32) {s : Lz77Store}
    (h : StoreInv s) {lstart lend : Nat} (hle : lstart ≤ lend) (hlend : lend ≤ s.size)
    (hov : dataCost ll d ((s.litlens.toList.take lend).drop lstart) < 2 ^ 32) :
    @blockSymbolSize checkedBuild ll d s lstart lend = some (dataCost ll d ((s.litlens.toList.take lend).drop lstart)) := by
  unfold blockSymbolSize
  split
  · rw [@blockSymbolSizeSmall_gen checkedBuild ll d hl hd s h lstart lend hle hlend fun _ => hov, Nat.mod_eq_of_lt hov]
  · obtain ⟨⟨c1, c2⟩, e, h1, h2⟩ := getHistogram_spec h hle hlend
    rw [e, some_bind]
    dsimp only
    rw [@blockSymbolSizeGivenCounts_gen checkedBuild c1 c2 ll d hl hd s h lstart lend (fun _ => ⟨hle, hlend⟩)
      (fun t ht _ => h1.2 t ht) h2 fun _ => hov, Nat.mod_eq_of_lt hov]

/-- The lengths chosen for a dynamic block, and the computed size. -/
theorem getDynamicLengths_spec {s : Lz77Store} (h : StoreInv s) {lstart lend : Nat} (hle : lstart ≤ lend) (hlend : lend ≤ s.size) :
    Ret (getDynamicLengths s lstart lend) fun r => LensOk r.2.1 r.2.2 ∧
      (∃ t, calculateTreeSize r.2.1 r.2.2 = some t ∧
        r.1 = t + dataCost r.2.1 r.2.2 ((s.litlens.toList.take lend).drop lstart) % 2 ^ 32) ∧
      (lstart < lend → TreeOk r.2.1 r.2.2) ∧
      (∀ x ∈ (s.litlens.toList.take lend).drop lstart, ∃ h : llSym x < r.2.1.size, r.2.1[llSym x] ≠ 0) ∧
      (∀ x ∈ (s.litlens.toList.take lend).drop lstart, ∀ t, dSym x = some t → ∃ h : t < r.2.2.size, r.2.2[t] ≠ 0) ∧
      (∃ h : 256 < r.2.1.size, r.2.1[256] ≠ 0) := by
  unfold getDynamicLengths
  obtain ⟨⟨c1, c2⟩, e, h1, h2⟩ := getHistogram_spec h hle hlend
  rw [e, some_bind]
  dsimp only at h1 h2 ⊢
  rw [aset_eq (by rw [h1.1]; omega), some_bind]
  generalize hc1 : c1.set 256 1 (by rw [h1.1]; omega) = c1'
  have hr : ∀ x ∈ (s.litlens.toList.take lend).drop lstart, x.InRange := fun x hx =>
    h.range x (List.mem_of_mem_take (List.mem_of_mem_drop hx))
  have hs1 : c1'.size = 288 := by rw [← hc1, Array.size_set, h1.1]
  have hc1v : ∀ t, t < 288 → t ≠ 256 → c1'[t]? = some ((((s.litlens.toList.map fun x => some (llSym x)).take lend).drop lstart).count (some t)) := by
    intro t ht hne
    rw [← hc1, Array.getElem?_set, if_neg (by omega)]
    exact h1.2 t ht
  have hok : CountsOk c1' c2 := by
    refine ⟨hs1, h2.1, ?_, ?_, by omega, ?_⟩
    · intro i hi h286
      have := hc1v i (by omega) (by omega)
      rw [Array.getElem?_eq_getElem hi] at this
      rw [Option.some.inj this, List.count_eq_zero]
      rw [← List.map_take, ← List.map_drop]
      intro hm
      obtain ⟨x, hx, e⟩ := List.mem_map.mp hm
      have := (llSym_lt (hr x hx)).1
      have := Option.some.inj e
      omega
    · intro i hi h30
      have hi' : i < 32 := by rw [← h2.1]; exact hi
      have := h2.2 i hi'
      rw [Array.getElem?_eq_getElem hi] at this
      rw [Option.some.inj this, List.count_eq_zero]
      rw [← List.map_take, ← List.map_drop]
      intro hm
      obtain ⟨x, hx, e⟩ := List.mem_map.mp hm
      have := dSym_lt (hr x hx) e
      omega
    · simp [← hc1]
  obtain ⟨ll, e1, d, e2, hc⟩ := lengths_spec (llCounts := c1') (dCounts := c2) hok rfl rfl (fun _ _ _ h => h) (fun _ _ _ h => h)
  rw [e1, some_bind]
  have e2' : ∀ (f : Array Nat → Option (Nat × Array Nat × Array Nat)),
      (do let x ← lengthLimitedCodeLengths c2 15; let y ← patchDistanceCodes x; f y) = f d := by
    intro f
    rw [← bind_assoc, e2, some_bind]
  rw [e2']
  have hsz : ∀ ll d : Array Nat, ll.size = 288 → d.size = 32 → blockSymbolSizeGivenCounts c1' c2 ll d s lstart lend
      = some (dataCost ll d ((s.litlens.toList.take lend).drop lstart) % 2 ^ 32) := fun ll d hl hd =>
    blockSymbolSizeGivenCounts_spec hl hd h hle hlend hc1v h2
  refine Ret.mono (tryOptimize_spec hok hc fun ll d hl hd => ⟨_, hsz ll d hl hd, trivial⟩) ?_
  rintro ⟨size, ll', d'⟩ ⟨hc', t, sz, et, es, rfl⟩
  dsimp only at hc' et es ⊢
  rw [hsz ll' d' hc'.lls hc'.ds] at es
  cases es
  have hused : ∀ x ∈ (s.litlens.toList.take lend).drop lstart, ∃ hh : llSym x < c1'.size, c1'[llSym x] ≠ 0 := by
    intro x hx
    have hlt := llSym_lt (hr x hx)
    refine ⟨by omega, ?_⟩
    have := hc1v (llSym x) (by omega) hlt.2
    rw [Array.getElem?_eq_getElem (by omega)] at this
    rw [Option.some.inj this]
    have hm : some (llSym x) ∈ ((s.litlens.toList.map fun x => some (llSym x)).take lend).drop lstart := by
      rw [← List.map_take, ← List.map_drop]
      exact List.mem_map.mpr ⟨x, hx, rfl⟩
    have := List.count_pos_iff.mpr hm
    omega
  refine ⟨hc'.toLensOk, ⟨t, et, rfl⟩, ?_, ?_, ?_, ?_⟩
  · intro hlt
    have hlen : 0 < ((s.litlens.toList.take lend).drop lstart).length := by
      have : s.size = s.litlens.size := rfl
      simp; omega
    obtain ⟨x, hx⟩ := List.exists_mem_of_length_pos hlen
    obtain ⟨hh, hne⟩ := hused x hx
    exact hc'.tree ⟨llSym x, (llSym_lt (hr x hx)).2, hh, hne⟩
  · intro x hx
    obtain ⟨hh, hne⟩ := hused x hx
    have hlt := (llSym_lt (hr x hx)).1
    exact ⟨by rw [hc'.lls]; omega, hc'.llu _ hh _ hne⟩
  · intro x hx t ht
    have hlt := dSym_lt (hr x hx) ht
    have hlt' : t < c2.size := by rw [h2.1]; omega
    refine ⟨by rw [hc'.ds]; omega, hc'.du t hlt' _ ?_⟩
    have := h2.2 t (by omega)
    rw [Array.getElem?_eq_getElem hlt'] at this
    rw [Option.some.inj this]
    have hm : some t ∈ ((s.litlens.toList.map dSym).take lend).drop lstart := by
      rw [← List.map_take, ← List.map_drop]
      exact List.mem_map.mpr ⟨x, hx, ht⟩
    have := List.count_pos_iff.mpr hm
    omega
  · obtain ⟨g1, g2⟩ := hok.ll256
    exact ⟨by rw [hc'.lls]; omega, hc'.llu _ g1 _ g2⟩

end Zopfli
