import Verif.Proofs.WordsSmooth
import Verif.Proofs.Sizes
import Verif.Proofs.Overflow
/-! # Block sizes fit in a machine word -/

namespace Zopfli.Words
open Katajainen Rfc

variable [Checks]
set_option linter.unusedSectionVars false

/-! ## Tree sizes -/

theorem counts_total {l : List (Option Nat)} : ∀ (num : Nat), ∑ s ∈ Finset.range num, l.count (some s) ≤ l.length := by
  intro num
  induction l with
  | nil => simp
  | cons x l ih =>
    simp only [List.count_cons, List.length_cons, Finset.sum_add_distrib]
    have : ∑ s ∈ Finset.range num, (if (x == some s) = true then 1 else 0) ≤ 1 := by
      cases x with
      | none => simp
      | some v =>
        have e : ∀ s, (if ((some v : Option Nat) == some s) = true then 1 else 0) = if s = v then 1 else 0 := by
          intro s
          by_cases h : v = s
          · subst h; simp
          · simp [h, Ne.symm h]
        simp only [e, Finset.sum_ite_eq']
        split <;> omega
    omega

theorem Hist.sum_le {c : Array Nat} {num : Nat} {l : List (Option Nat)} (h : Hist c num l) : c.toList.sum ≤ l.length := by
  rw [← seg_total, h.1, seg, ← Finset.range_eq_Ico]
  refine Nat.le_trans (Nat.le_of_eq (Finset.sum_congr rfl fun s hs => ?_)) (counts_total num)
  have := h.2 s (Finset.mem_range.mp hs)
  rw [Array.getD_eq_getD_getElem?, this]
  rfl

theorem treeBits_words {W : Nat} {clcl clcounts : Array Nat} (h1 : clcl.size = 19) (h2 : clcounts.size = 19) (hclen : Nat) {n : Nat}
    (hn : Zopfli.treeBits clcl clcounts hclen = some n) (hW : n < 2 ^ W) : treeBits W clcl clcounts hclen = Zopfli.treeBits clcl clcounts hclen := by
  have hv := treeBits_spec h1 h2 hclen
  rw [hn, Option.some.injEq] at hv
  have hx := extra_sum fun s => clcounts.getD s 0
  simp only [Nat.add_mul, Finset.sum_add_distrib] at hv
  rw [hx] at hv
  have g : ∀ i, i < 19 → clcounts[i]? = some (clcounts.getD i 0) := by
    intro i hi
    simp [h2, hi]
  have g' : ∀ i, i < 19 → clcl[i]? = some (clcl.getD i 0) := by
    intro i hi
    simp [h1, hi]
  unfold treeBits Zopfli.treeBits
  obtain ⟨r, e, e', hr⟩ := forRange_same (f := fun i r => do some (r + (← clcl[i]?) * (← clcounts[i]?)))
    (g := fun i r => do usize W (r + (← usize W ((← clcl[i]?) * (← clcounts[i]?)))))
    (fun i r => r = 14 + (hclen + 4) * 3 + ∑ s ∈ Finset.range i, clcl.getD s 0 * clcounts.getD s 0) (Nat.zero_le 19) (s := 14 + (hclen + 4) * 3) (by simp)
    (by
      rintro i r - hi rfl
      have hs : ∑ s ∈ Finset.range (i + 1), clcl.getD s 0 * clcounts.getD s 0 ≤ ∑ s ∈ Finset.range 19, clcl.getD s 0 * clcounts.getD s 0 :=
        Finset.sum_le_sum_of_subset (Finset.range_subset_range.mpr (by omega))
      rw [Finset.sum_range_succ] at hs
      rw [g i hi, g' i hi]
      simp only [some_bind]
      rw [usize_eq (by omega), some_bind, usize_eq (by omega)]
      refine Ret.some ⟨rfl, ?_⟩
      rw [Finset.sum_range_succ]
      omega)
  rw [e, e', g 16 (by omega), g 17 (by omega), g 18 (by omega)]
  simp only [some_bind]
  rw [usize_eq (by omega), some_bind, usize_eq (by omega), some_bind, usize_eq (by omega), some_bind, usize_eq (by omega), some_bind,
    usize_eq (by omega), some_bind, usize_eq (by omega)]
  rfl

theorem encodeTreeNoOutput_words {W : Nat} (hW : 20000 < 2 ^ W) {ll d : Array Nat} (h : LensOk ll d) (u16 u17 u18 : Bool) :
    encodeTreeNoOutput W ll d u16 u17 u18 = Zopfli.encodeTreeNoOutput ll d u16 u17 u18 := by
  obtain ⟨hlit, hdist, o, items, clcl, hclen, p⟩ := tree_pre h u16 u17 u18
  obtain ⟨n, hn, hle⟩ := treeSize_le h u16 u17 u18
  have hlen := rleApply_fold_length p.enc.dec
  have h1 := p.hl
  have h2 := p.hd
  have h3 := p.hc
  rw [List.length_append, List.length_take, List.length_take, List.length_nil] at hlen
  have hni : items.length ≤ 316 := by omega
  have hsum : o.clcounts.toList.sum ≤ items.length := by
    have : Hist o.clcounts 19 (items.map fun x => some x.1) := by
      refine ⟨p.enc.size, fun s hs => ?_⟩
      rw [p.enc.counts s hs]
      rw [List.count_eq_countP, List.countP_map, List.countP_eq_length_filter]
      congr 2
    have := Hist.sum_le this
    simpa using this
  have hcl : lengthLimitedCodeLengths W o.clcounts 7 = Katajainen.lengthLimitedCodeLengths o.clcounts 7 := by
    apply lengthLimited_words
    rw [p.enc.size]
    omega
  unfold encodeTreeNoOutput
  unfold Zopfli.encodeTreeNoOutput at hn ⊢
  dsimp only at hn ⊢
  rw [p.e1, some_bind, p.e2, some_bind, p.e4, some_bind, p.e5, some_bind, p.e6, some_bind] at hn
  simp only [p.e1, p.e2, p.e4, hcl, p.e5, p.e6, some_bind]
  exact treeBits_words p.cls p.enc.size hclen hn (by omega)

theorem calculateTreeSize_words {W : Nat} (hW : 20000 < 2 ^ W) {ll d : Array Nat} (h : LensOk ll d) :
    calculateTreeSize W ll d = Zopfli.calculateTreeSize ll d := by
  unfold calculateTreeSize Zopfli.calculateTreeSize
  simp only [encodeTreeNoOutput_words hW h]

/-! ## Symbol sizes -/

theorem u32_lt {x y : Nat} (h : u32 x = some y) : y < 2 ^ 32 := by
  unfold u32 at h
  split at h
  · cases h
  · cases h
    exact Nat.mod_lt _ (by norm_num)

theorem symbolSize_lt {c1 c2 ll d : Array Nat} {s : Lz77Store} {a b x : Nat} (h : Zopfli.blockSymbolSizeGivenCounts c1 c2 ll d s a b = some x) :
    x < 2 ^ 32 := by
  unfold Zopfli.blockSymbolSizeGivenCounts at h
  split at h
  · unfold blockSymbolSizeSmall at h
    simp only [Option.bind_eq_bind, Option.bind_eq_some_iff] at h
    obtain ⟨_, -, _, -, _, -, h⟩ := h
    exact u32_lt h
  · simp only [Option.bind_eq_bind, Option.bind_eq_some_iff] at h
    obtain ⟨_, -, _, -, _, -, _, -, h⟩ := h
    exact u32_lt h

theorem extra_le {i e : Nat} (h : getLengthSymbolExtraBits i = some e) : e ≤ 13 := by
  unfold getLengthSymbolExtraBits at h
  split at h
  · cases h
  · have : ∀ j : Fin 29, lengthSymbolExtraBitsTable.getD j.1 0 ≤ 13 := by decide
    have hi : i - 257 < 29 := by
      by_contra hge
      rw [Array.getElem?_eq_none (by simpa [lengthSymbolExtraBitsTable] using hge)] at h
      cases h
    have := this ⟨i - 257, hi⟩
    rw [Array.getD_eq_getD_getElem?, h] at this
    exact this

theorem dextra_le {i e : Nat} (h : getDistSymbolExtraBits i = some e) : e ≤ 13 := by
  unfold getDistSymbolExtraBits at h
  have : ∀ j : Fin 30, distSymbolExtraBitsTable.getD j.1 0 ≤ 13 := by decide
  have hi : i < 30 := by
    by_contra hge
    rw [Array.getElem?_eq_none (by simpa [distSymbolExtraBitsTable] using hge)] at h
    cases h
  have := this ⟨i, hi⟩
  rw [Array.getD_eq_getD_getElem?, h] at this
  exact this

theorem symbolSize_words {W N : Nat} {c1 c2 ll d : Array Nat} {s : Lz77Store} {a b : Nat} (h1 : c1.toList.sum ≤ N) (h2 : c2.toList.sum ≤ N)
    (hW : 13 * N < 2 ^ W) : blockSymbolSizeGivenCounts W c1 c2 ll d s a b = Zopfli.blockSymbolSizeGivenCounts c1 c2 ll d s a b := by
  have hb : ∀ (c : Array Nat) (e x i : Nat), c.toList.sum ≤ N → e ≤ 13 → c[i]? = some x → usize W (e * x) = some (e * x) := by
    intro c e x i hc he hx
    have := get_le_seg c hx
    rw [seg_total] at this
    have h3 : e * x ≤ 13 * N := Nat.mul_le_mul he (by omega)
    exact usize_eq (by omega)
  unfold blockSymbolSizeGivenCounts Zopfli.blockSymbolSizeGivenCounts
  split
  · rfl
  · have e1 : ∀ r, (forRange 257 286 r fun i r => do
        let r ← u32 (r + (← u32 ((← ll[i]?) * ((← c1[i]?) % 2 ^ 32))))
        u32 (r + (← usize W ((← getLengthSymbolExtraBits i) * (← c1[i]?))) % 2 ^ 32)) = (forRange 257 286 r fun i r => do
        let r ← u32 (r + (← u32 ((← ll[i]?) * ((← c1[i]?) % 2 ^ 32))))
        u32 (r + (← getLengthSymbolExtraBits i) * (← c1[i]?) % 2 ^ 32)) := by
      intro r
      refine forRange_congr (fun i r _ _ => ?_)
      cases he : getLengthSymbolExtraBits i with
      | none => rfl
      | some e =>
        cases hc : c1[i]? with
        | none => simp
        | some x => simp only [some_bind, hb c1 e x i h1 (extra_le he) hc]
    have e2 : ∀ r, (forRange 0 30 r fun i r => do
        let r ← u32 (r + (← u32 ((← d[i]?) * ((← c2[i]?) % 2 ^ 32))))
        u32 (r + (← usize W ((← getDistSymbolExtraBits i) * (← c2[i]?))) % 2 ^ 32)) = (forRange 0 30 r fun i r => do
        let r ← u32 (r + (← u32 ((← d[i]?) * ((← c2[i]?) % 2 ^ 32))))
        u32 (r + (← getDistSymbolExtraBits i) * (← c2[i]?) % 2 ^ 32)) := by
      intro r
      refine forRange_congr (fun i r _ _ => ?_)
      cases he : getDistSymbolExtraBits i with
      | none => rfl
      | some e =>
        cases hc : c2[i]? with
        | none => simp
        | some x => simp only [some_bind, hb c2 e x i h2 (dextra_le he) hc]
    simp only [e1, e2]

/-! ## Dynamic blocks -/

theorem none_bind {α β : Type} (f : α → Option β) : ((none : Option α) >>= f) = none := rfl

theorem lens_of {c bl : Array Nat} (hc : c.size ≤ 288) (h : Katajainen.lengthLimitedCodeLengths c 15 = some bl) :
    bl.size = c.size ∧ ∀ i (h : i < bl.size), bl[i] ≤ 15 := by
  have hcap := usedLeaves_len c
  have hg : ∀ m, m = 15 → Ret (Katajainen.lengthLimitedCodeLengths c m) fun bl => bl.size = c.size ∧
      ∀ i (h : i < c.size), ∃ l, bl[i]? = some l ∧ l ≤ m ∧ (l = 0 ↔ c[i] = 0) := fun m hm =>
    Ret.mono (lengthLimited_spec c m hc (by omega) (by omega) (by subst hm; omega)) fun _ h => ⟨h.1, h.2.1⟩
  obtain ⟨h1, h2⟩ := (hg 15 rfl).elim h
  refine ⟨h1, fun i hi => ?_⟩
  obtain ⟨l, g1, g2, -⟩ := h2 i (by omega)
  rw [Array.getElem?_eq_getElem hi] at g1
  cases g1
  exact g2

theorem aset_le {a a' : Array Nat} {i : Nat} (h : aset a i 1 = some a') (ha : ∀ i (h : i < a.size), a[i] ≤ 15) :
    a'.size = a.size ∧ ∀ i (h : i < a'.size), a'[i] ≤ 15 := by
  unfold aset at h
  split at h
  · cases h
    refine ⟨by simp, fun j hj => ?_⟩
    rw [Array.getElem_set]
    split
    · omega
    · exact ha j (by simpa using hj)
  · cases h

theorem patch_of {a a' : Array Nat} (h : patchDistanceCodes a = some a') (ha : ∀ i (h : i < a.size), a[i] ≤ 15) :
    a'.size = a.size ∧ ∀ i (h : i < a'.size), a'[i] ≤ 15 := by
  unfold patchDistanceCodes at h
  dsimp only at h
  split at h
  · simp only [Option.bind_eq_bind, Option.bind_eq_some_iff] at h
    obtain ⟨b, h1, h2⟩ := h
    obtain ⟨k1, k2⟩ := aset_le h1 ha
    obtain ⟨k3, k4⟩ := aset_le h2 k2
    exact ⟨by omega, k4⟩
  · split at h
    · simp only [Option.bind_eq_bind, Option.bind_eq_some_iff] at h
      obtain ⟨b, -, h2⟩ := h
      exact aset_le h2 ha
    · cases h
      exact ⟨rfl, ha⟩

/-- The number of bytes of a block for which words of `W` bits are large enough. -/
def Fits (W n : Nat) : Prop := 302 * (n + 289) < 2 ^ W

theorem tryOptimize_words {W n : Nat} (hW : Fits W n) {s : Lz77Store} {a b : Nat} {c1 c2 ll d : Array Nat} (hs1 : c1.size = 288) (hs2 : c2.size = 32)
    (ht1 : c1.toList.sum ≤ n + 1) (ht2 : c2.toList.sum ≤ n) (hl : LensOk ll d)
    (hx : ∀ ll d, LensOk ll d → ∀ x, Zopfli.blockSymbolSizeGivenCounts c1 c2 ll d s a b = some x → x + 5000 < 2 ^ W) :
    tryOptimizeHuffmanForRle W s a b c1 c2 ll d = Zopfli.tryOptimizeHuffmanForRle s a b c1 c2 ll d := by
  unfold Fits at hW
  have hW2 : 20000 < 2 ^ W := by omega
  have hsym : ∀ ll d, blockSymbolSizeGivenCounts W c1 c2 ll d s a b = Zopfli.blockSymbolSizeGivenCounts c1 c2 ll d s a b :=
    fun ll d => symbolSize_words (N := n + 1) ht1 (by omega) (by omega)
  obtain ⟨o1, p1⟩ := optimizeHuffmanForRle_words (W := W) c1 (by omega)
  obtain ⟨o2, p2⟩ := optimizeHuffmanForRle_words (W := W) c2 (by omega)
  unfold tryOptimizeHuffmanForRle Zopfli.tryOptimizeHuffmanForRle
  simp only [hsym, calculateTreeSize_words hW2 hl, o1, o2]
  cases e1 : Zopfli.calculateTreeSize ll d with
  | none => simp only [none_bind]
  | some t1 =>
  simp only [some_bind]
  cases e2 : Zopfli.blockSymbolSizeGivenCounts c1 c2 ll d s a b with
  | none => simp only [none_bind]
  | some d1 =>
  simp only [some_bind]
  cases e3 : Zopfli.optimizeHuffmanForRle c1 with
  | none => simp only [none_bind]
  | some c1' =>
  simp only [some_bind]
  cases e4 : Zopfli.optimizeHuffmanForRle c2 with
  | none => simp only [none_bind]
  | some c2' =>
  simp only [some_bind]
  obtain ⟨z1, y1⟩ := p1 c1' e3
  obtain ⟨z2, y2⟩ := p2 c2' e4
  rw [lengthLimited_words c1' 15 (by
      rw [z1, hs1]
      have : (288 + 14) * c1'.toList.sum ≤ 302 * (n + 289) := Nat.mul_le_mul (by omega) (by omega)
      omega),
    lengthLimited_words c2' 15 (by
      rw [z2, hs2]
      have : (32 + 14) * c2'.toList.sum ≤ 302 * (n + 289) := Nat.mul_le_mul (by omega) (by omega)
      omega)]
  cases e5 : Katajainen.lengthLimitedCodeLengths c1' 15 with
  | none => simp only [none_bind]
  | some ll' =>
  simp only [some_bind]
  cases e6 : Katajainen.lengthLimitedCodeLengths c2' 15 with
  | none => simp only [none_bind]
  | some d0 =>
  simp only [some_bind]
  cases e7 : patchDistanceCodes d0 with
  | none => simp only [none_bind]
  | some d' =>
  simp only [some_bind]
  obtain ⟨q1, q2⟩ := lens_of (by omega) e5
  obtain ⟨q3, q4⟩ := lens_of (by omega) e6
  obtain ⟨q5, q6⟩ := patch_of e7 q4
  have hl' : LensOk ll' d' := ⟨by omega, by omega, q2, q6⟩
  rw [calculateTreeSize_words hW2 hl']
  cases e8 : Zopfli.calculateTreeSize ll' d' with
  | none => simp only [none_bind]
  | some t2 =>
  simp only [some_bind]
  cases e9 : Zopfli.blockSymbolSizeGivenCounts c1 c2 ll' d' s a b with
  | none => simp only [none_bind]
  | some d2 =>
  simp only [some_bind]
  have := calculateTreeSize_le hl e1
  have := calculateTreeSize_le hl' e8
  have := hx ll d hl d1 e2
  have := hx ll' d' hl' d2 e9
  rw [usize_eq (by omega), some_bind, usize_eq (by omega), some_bind]

theorem cost_le {data : Array UInt8} {a b : Nat} {s : Lz77Store} {lstart lend : Nat} (h : RangeOk data a b s lstart lend)
    {ll d : Array Nat} (hl : LensOk ll d) : dataCost ll d ((s.litlens.toList.take lend).drop lstart) ≤ 16 * (b - a) + 15 := by
  have h1 := dataCost_le hl ((s.litlens.toList.take lend).drop lstart) fun x hx =>
    h.inv.range x (List.mem_of_mem_take (List.mem_of_mem_drop hx))
  have h2 := h.parses.stop
  omega

theorem items_le {data : Array UInt8} {a b : Nat} {s : Lz77Store} {lstart lend : Nat} (h : RangeOk data a b s lstart lend) :
    ((s.litlens.toList.take lend).drop lstart).length ≤ b - a := by
  have h2 := h.parses.stop
  have h3 : ∀ xs : List LitLen, (∀ x ∈ xs, x.InRange) → xs.length ≤ (xs.map LitLen.size).sum := by
    intro xs
    induction xs with
    | nil => intro _; simp
    | cons x xs ih =>
      intro hx
      have g1 := ih fun y hy => hx y (List.mem_cons_of_mem _ hy)
      have g2 : 1 ≤ x.size := by
        have := hx x List.mem_cons_self
        cases x with
        | literal b => exact Nat.le_refl _
        | lengthDist len dist => exact Nat.le_trans (by omega) this.1
      rw [List.map_cons, List.sum_cons, List.length_cons]
      omega
  have := h3 ((s.litlens.toList.take lend).drop lstart) fun x hx => h.inv.range x (List.mem_of_mem_take (List.mem_of_mem_drop hx))
  omega

/-- The data size of the block leaves room for the tree. -/
theorem datasize_lt {W : Nat} {data : Array UInt8} {a b : Nat} {s : Lz77Store} {lstart lend : Nat} (h : RangeOk data a b s lstart lend)
    (hW : Fits W (b - a)) {c1 c2 ll d : Array Nat} (hl : LensOk ll d)
    (hcl : ∀ t, t < 288 → t ≠ 256 → c1[t]? = some ((((s.litlens.toList.map fun x => some (llSym x)).take lend).drop lstart).count (some t)))
    (hcd : Hist c2 32 (((s.litlens.toList.map dSym).take lend).drop lstart)) {x : Nat}
    (hx : Zopfli.blockSymbolSizeGivenCounts c1 c2 ll d s lstart lend = some x) : x + 5000 < 2 ^ W := by
  unfold Fits at hW
  have hc := cost_le h hl
  by_cases hlt : dataCost ll d ((s.litlens.toList.take lend).drop lstart) < 2 ^ 32
  · rw [blockSymbolSizeGivenCounts_gen hl.lls hl.ds h.inv (fun _ => ⟨h.le, h.le'⟩) hcl hcd fun _ => hlt, Option.some.injEq, Nat.mod_eq_of_lt hlt] at hx
    omega
  · have := symbolSize_lt hx
    omega

theorem getDynamicLengths_words {W : Nat} {data : Array UInt8} {a b : Nat} {s : Lz77Store} {lstart lend : Nat} (h : RangeOk data a b s lstart lend)
    (hW : Fits W (b - a)) : getDynamicLengths W s lstart lend = Zopfli.getDynamicLengths s lstart lend := by
  unfold getDynamicLengths Zopfli.getDynamicLengths
  obtain ⟨⟨c1, c2⟩, e, h1, h2⟩ := getHistogram_spec h.inv h.le h.le'
  have hit := items_le h
  rw [e, some_bind, some_bind]
  dsimp only at h1 h2 ⊢
  rw [aset_eq (by rw [h1.1]; omega), some_bind, some_bind]
  generalize hc1 : c1.set 256 1 (by rw [h1.1]; omega) = c1'
  have hs1 : c1'.size = 288 := by rw [← hc1, Array.size_set, h1.1]
  have hc1v : ∀ t, t < 288 → t ≠ 256 → c1'[t]? = some ((((s.litlens.toList.map fun x => some (llSym x)).take lend).drop lstart).count (some t)) := by
    intro t ht hne
    rw [← hc1, Array.getElem?_set, if_neg (by omega)]
    exact h1.2 t ht
  have h256 : c1'[256]? = some 1 := by simp [← hc1]
  have hr : ∀ x ∈ (s.litlens.toList.take lend).drop lstart, x.InRange := fun x hx =>
    h.inv.range x (List.mem_of_mem_take (List.mem_of_mem_drop hx))
  have ht1 : c1'.toList.sum ≤ b - a + 1 := by
    have : Hist c1' 288 ((((s.litlens.toList.map fun x => some (llSym x)).take lend).drop lstart) ++ [some 256]) := by
      refine ⟨hs1, fun t ht => ?_⟩
      rw [List.count_append]
      by_cases h6 : t = 256
      · subst h6
        rw [h256]
        congr 1
        have : List.count (some 256) (((s.litlens.toList.map fun x => some (llSym x)).take lend).drop lstart) = 0 := by
          rw [List.count_eq_zero, ← List.map_take, ← List.map_drop]
          intro hm
          obtain ⟨x, hx, e⟩ := List.mem_map.mp hm
          exact (llSym_lt (hr x hx)).2 (Option.some.inj e)
        rw [this]
        simp
      · rw [hc1v t ht h6]
        simp [Ne.symm h6]
    have := Hist.sum_le this
    rw [List.length_append, ← List.map_take, ← List.map_drop, List.length_map, List.length_singleton] at this
    omega
  have ht2 : c2.toList.sum ≤ b - a := by
    have := Hist.sum_le h2
    rw [← List.map_take, ← List.map_drop, List.length_map] at this
    omega
  have hs2 := h2.1
  have hF := hW
  unfold Fits at hF
  rw [lengthLimited_words c1' 15 (by
      rw [hs1]
      have : (288 + 14) * c1'.toList.sum ≤ 302 * (b - a + 289) := Nat.mul_le_mul (by omega) (by omega)
      omega),
    lengthLimited_words c2 15 (by
      rw [hs2]
      have : (32 + 14) * c2.toList.sum ≤ 302 * (b - a + 289) := Nat.mul_le_mul (by omega) (by omega)
      omega)]
  cases e5 : Katajainen.lengthLimitedCodeLengths c1' 15 with
  | none => simp only [none_bind]
  | some ll' =>
  simp only [some_bind]
  cases e6 : Katajainen.lengthLimitedCodeLengths c2 15 with
  | none => simp only [none_bind]
  | some d0 =>
  simp only [some_bind]
  cases e7 : patchDistanceCodes d0 with
  | none => simp only [none_bind]
  | some d' =>
  simp only [some_bind]
  obtain ⟨q1, q2⟩ := lens_of (by omega) e5
  obtain ⟨q3, q4⟩ := lens_of (by omega) e6
  obtain ⟨q5, q6⟩ := patch_of e7 q4
  exact tryOptimize_words hW hs1 hs2 ht1 ht2 ⟨by omega, by omega, q2, q6⟩ fun ll d hl x hx => datasize_lt h hW hl hc1v h2 hx

/-! ## Block sizes -/

theorem blockSymbolSize_words {W : Nat} {data : Array UInt8} {a b : Nat} {s : Lz77Store} {lstart lend : Nat} (h : RangeOk data a b s lstart lend)
    (hW : Fits W (b - a)) (ll d : Array Nat) : blockSymbolSize W ll d s lstart lend = Zopfli.blockSymbolSize ll d s lstart lend := by
  unfold blockSymbolSize Zopfli.blockSymbolSize
  split
  · rfl
  · obtain ⟨⟨c1, c2⟩, e, h1, h2⟩ := getHistogram_spec h.inv h.le h.le'
    have hit := items_le h
    rw [e, some_bind, some_bind]
    dsimp only at h1 h2 ⊢
    have g1 := Hist.sum_le h1
    have g2 := Hist.sum_le h2
    rw [← List.map_take, ← List.map_drop, List.length_map] at g1 g2
    unfold Fits at hW
    exact symbolSize_words (N := b - a) (by omega) (by omega) (by omega)

theorem getByteRange_words {W : Nat} {data : Array UInt8} {a b : Nat} {s : Lz77Store} {lstart lend : Nat} (h : RangeOk data a b s lstart lend)
    (hb : b < 2 ^ W) : getByteRange W s lstart lend = some (b - a) := by
  have hr := h.range
  have hp := h.pos
  have hle := h.le
  have hle' := h.le'
  have hps := h.inv.poss
  have hstop := h.parses.stop
  have hsz : s.size = s.litlens.size := rfl
  unfold getByteRange
  unfold Lz77Store.getByteRange at hr
  split
  · rename_i he
    rw [if_pos he] at hr
    exact hr
  · rename_i he
    rw [if_neg he, if_neg (by omega)] at hr
    dsimp only at hr
    rw [Array.getElem?_eq_getElem (show lend - 1 < s.pos.size by omega),
      Array.getElem?_eq_getElem (show lend - 1 < s.litlens.size by omega), hp (by omega)] at hr
    rw [usub_eq (by omega), some_bind, Array.getElem?_eq_getElem (show lend - 1 < s.pos.size by omega),
      Array.getElem?_eq_getElem (show lend - 1 < s.litlens.size by omega), hp (by omega)]
    have hr' : s.pos[lend - 1] + s.litlens[lend - 1].size - a = b - a := Option.some.inj hr
    have hit : ((s.litlens.toList.take lend).drop lstart).length = lend - lstart := by
      rw [List.length_drop, List.length_take]
      simp
      omega
    have := items_le h
    simp only [some_bind]
    rw [usize_eq (by omega), some_bind, usub_eq (by omega), hr']

theorem calculateBlockSize_words {W : Nat} (F : FloatOps) {data : Array UInt8} {a b : Nat} {s : Lz77Store} {lstart lend : Nat}
    (h : RangeOk data a b s lstart lend) (hb : b < 2 ^ W) (hW : Fits W (b - a)) (bt : BlockType) :
    calculateBlockSize W F s lstart lend bt = Zopfli.calculateBlockSize F s lstart lend bt := by
  cases bt with
  | uncompressed =>
    have hF := hW
    unfold Fits at hF
    unfold calculateBlockSize Zopfli.calculateBlockSize uncompressedSize Zopfli.uncompressedSize
    dsimp only
    rw [h.range, getByteRange_words h hb]
    simp only [some_bind]
    have hblk : (b - a) / 65535 + (if (b - a) % 65535 > 0 then 1 else 0) ≤ b - a + 1 := by
      have := Nat.div_le_self (b - a) 65535
      split <;> omega
    generalize (b - a) / 65535 + (if (b - a) % 65535 > 0 then 1 else 0) = blocks at hblk
    rw [usize_eq (by omega), some_bind, usize_eq (by omega), some_bind, usize_eq (by omega), some_bind, usize_eq (by omega)]
    rfl
  | fixed =>
    unfold calculateBlockSize Zopfli.calculateBlockSize
    dsimp only
    rw [blockSymbolSize_words h hW]
  | dynamic =>
    unfold calculateBlockSize Zopfli.calculateBlockSize
    dsimp only
    rw [getDynamicLengths_words h hW]

theorem calculateBlockSizeAutoType_words {W : Nat} (F : FloatOps) {data : Array UInt8} {a b : Nat} {s : Lz77Store} {lstart lend : Nat}
    (h : RangeOk data a b s lstart lend) (hb : b < 2 ^ W) (hW : Fits W (b - a)) :
    calculateBlockSizeAutoType W F s lstart lend = Zopfli.calculateBlockSizeAutoType F s lstart lend := by
  unfold calculateBlockSizeAutoType Zopfli.calculateBlockSizeAutoType
  simp only [calculateBlockSize_words F h hb hW]

end Zopfli.Words
