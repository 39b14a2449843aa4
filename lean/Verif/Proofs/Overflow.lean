import Verif.Proofs.Parse
import Verif.Proofs.BlockSize
/-! # 32-bit arithmetic does not overflow for parts below 256 MiB: overflow checks make no difference -/

namespace Zopfli
open Rfc Katajainen

theorem itemCost_le_bytes {ll d : Array Nat} (hl : ∀ i, ll.getD i 0 ≤ 15) (hd : ∀ i, d.getD i 0 ≤ 15) {data : Array UInt8} {pos : Nat} {x : LitLen}
    (hx : ItemOk data pos x) : itemCost ll d x ≤ 16 * x.size := by
  have hr := hx.inRange
  cases x with
  | literal b =>
    have hb : b < 256 := hr
    show ll.getD b 0 + (if b < 257 then 0 else (getLengthSymbolExtraBits b).getD 0) + 0 ≤ 16 * 1
    rw [if_pos (by omega)]
    have := hl b
    omega
  | lengthDist len dist =>
    obtain ⟨r1, r2, r3, r4⟩ := hr
    obtain ⟨s, eb, v, l1, l2, l3, l4, l5, l6, l7, l8, l9, l10, l11⟩ := length_spec r1 r2
    obtain ⟨d1, d2, d3, d4, d5, d6, d7⟩ := dist_spec r3 r4
    show llCost ll ((getLengthSymbol len).getD 0) + dCost d (getDistSymbol dist) ≤ 16 * len
    unfold llCost dCost
    rw [l1, Option.getD_some, if_neg (by omega), l6, d2, Option.getD_some, Option.getD_some]
    have := hl s
    have := hd (getDistSymbol dist)
    omega

/-- The sizes the encoder adds up in 32 bits to choose between block types do not overflow for items that describe
less than `2^28 - 1` bytes (256 MiB), whatever the code lengths (at most 15).  (Beyond that a release build wraps around
and may choose a worse block type, and a build with overflow checks panics.) -/
theorem dataCost_lt {data : Array UInt8} {ll d : Array Nat} (hl : ∀ i, ll.getD i 0 ≤ 15) (hd : ∀ i, d.getD i 0 ≤ 15) :
    ∀ (xs : List LitLen) (start stop : Nat), Parses data start xs stop → stop - start < 2 ^ 28 - 1 → dataCost ll d xs < 2 ^ 32 := by
  have key : ∀ (xs : List LitLen) (start stop : Nat), Parses data start xs stop → start ≤ stop ∧ (xs.map (itemCost ll d)).sum ≤ 16 * (stop - start) := by
    intro xs
    induction xs with
    | nil =>
      intro start stop h
      have h : start = stop := h
      subst h
      simp
    | cons x xs ih =>
      intro start stop h
      obtain ⟨g1, g2⟩ := ih _ _ h.2
      have := itemCost_le_bytes hl hd h.1
      rw [List.map_cons, List.sum_cons]
      omega
  intro xs start stop h hlt
  have := key xs start stop h
  have := hl 256
  unfold dataCost
  omega


/-- The sizes of blocks of this store cannot overflow. -/
structure SmallStore (s : Lz77Store) : Prop where
  inv : StoreInv s
  cost : ∀ ll d : Array Nat, (∀ i, ll.getD i 0 ≤ 15) → (∀ i, d.getD i 0 ≤ 15) → dataCost ll d s.litlens.toList < 2 ^ 32

theorem StoreOk.small {data : Array UInt8} {a b : Nat} {s : Lz77Store} (h : StoreOk data a b s) (hs : b - a < 2 ^ 28 - 1) : SmallStore s :=
  ⟨h.inv, fun _ _ hl hd => dataCost_lt hl hd _ _ _ h.parses hs⟩

theorem dataCost_part (ll d : Array Nat) (xs : List LitLen) (a b : Nat) : dataCost ll d ((xs.take b).drop a) ≤ dataCost ll d xs := by
  unfold dataCost
  have h1 : xs.map (itemCost ll d) = ((xs.take b).take a).map (itemCost ll d) ++ ((xs.take b).drop a).map (itemCost ll d) ++ (xs.drop b).map (itemCost ll d) := by
    rw [← List.map_append, ← List.map_append, List.take_append_drop, List.take_append_drop]
  have h2 := congrArg List.sum h1
  rw [List.sum_append, List.sum_append] at h2
  omega

theorem SmallStore.part {s : Lz77Store} (h : SmallStore s) {ll d : Array Nat} (hl : ∀ i, ll.getD i 0 ≤ 15) (hd : ∀ i, d.getD i 0 ≤ 15) (a b : Nat) :
    dataCost ll d ((s.litlens.toList.take b).drop a) < 2 ^ 32 :=
  Nat.lt_of_le_of_lt (dataCost_part _ _ _ _ _) (h.cost ll d hl hd)

theorem SmallStore.size_lt {s : Lz77Store} (h : SmallStore s) : s.litlens.toList.length < 2 ^ 31 := by
  have hg : ∀ n i : Nat, (Array.replicate n 15).getD i 0 ≤ 15 := by
    intro n i
    rw [Array.getD_eq_getD_getElem?, Array.getElem?_replicate]
    split <;> simp
  have h1 := h.cost (Array.replicate 288 15) (Array.replicate 32 15) (hg 288) (hg 32)
  unfold dataCost at h1
  have h2 : ∀ xs : List LitLen, (∀ x ∈ xs, x.InRange) → 15 * xs.length ≤ (xs.map (itemCost (Array.replicate 288 15) (Array.replicate 32 15))).sum := by
    intro xs
    induction xs with
    | nil => intro _; simp
    | cons x xs ih =>
      intro hx
      have g1 := ih fun y hy => hx y (List.mem_cons_of_mem _ hy)
      have g2 := (llSym_lt (hx x List.mem_cons_self)).1
      have g3 : 15 ≤ itemCost (Array.replicate 288 15) (Array.replicate 32 15) x := by
        unfold itemCost llCost
        have : (Array.replicate 288 15).getD (llSym x) 0 = 15 := by
          rw [Array.getD_eq_getD_getElem?, Array.getElem?_replicate, if_pos (by omega)]; rfl
        omega
      rw [List.map_cons, List.sum_cons, List.length_cons]
      omega
  have h3 := h2 _ h.inv.range
  omega

/-! ## Histograms of any range -/

theorem loadRow_none {counts : Array Nat} {num base : Nat} (hn : 0 < num) (h : counts.size ≤ base) :
    (forRange 0 num #[] fun i (r : Array Nat) => do some (r.push (← counts[base + i]?))) = none := by
  rw [forRange_step hn, Array.getElem?_eq_none (by omega)]
  rfl

theorem row_bound {n num q : Nat} (hn : 0 < num) (h : num * q < num * ((n + num - 1) / num)) : num * q < n := by
  have h1 : q < (n + num - 1) / num := Nat.lt_of_mul_lt_mul_left h
  have h2 : q + 1 ≤ (n + num - 1) / num := h1
  rw [Nat.le_div_iff_mul_le hn] at h2
  have h3 : num * q = q * num := Nat.mul_comm _ _
  rw [Nat.add_mul] at h2
  omega

theorem getHistogramAt_weak {s : Lz77Store} (h : StoreInv s) (lpos : Nat) : s.getHistogramAt lpos = none ∨ (lpos < s.size + 288 ∧
    Ret (s.getHistogramAt lpos) fun r => Hist r.1 288 ((s.litlens.toList.map fun x => some (llSym x)).take (lpos + 1)) ∧
      Hist r.2 32 ((s.litlens.toList.map dSym).take (lpos + 1))) := by
  by_cases hl : lpos < s.size
  · exact .inr ⟨by omega, getHistogramAt_spec h hl⟩
  have hL : (s.litlens.toList.map fun x => some (llSym x)).length = s.size := by simp [Lz77Store.size]
  have hD : (s.litlens.toList.map dSym).length = s.size := by simp [Lz77Store.size]
  have hdm := Nat.div_add_mod lpos 288
  have hml := Nat.mod_lt lpos (show 0 < 288 by omega)
  have hdm2 := Nat.div_add_mod lpos 32
  have hml2 := Nat.mod_lt lpos (show 0 < 32 by omega)
  unfold Lz77Store.getHistogramAt
  dsimp only [NUM_LL, NUM_D]
  have s1 := h.llc.size
  have s2 := h.dc.size
  rw [hL] at s1
  rw [hD] at s2
  by_cases c1 : s.llCounts.size ≤ 288 * (lpos / 288)
  · rw [loadRow_none (by omega) c1]
    exact .inl rfl
  have b1 := row_bound (n := s.size) (num := 288) (q := lpos / 288) (by omega) (by omega)
  have take_all : ∀ {α : Type} (l : List α) (k m : Nat), l.length = s.size → s.size ≤ k → s.size ≤ m → l.take k = l.take m := by
    intro α l k m e h1 h2
    rw [List.take_of_length_le (by omega), List.take_of_length_le (by omega)]
  obtain ⟨ll, ell, hll⟩ := loadRow_spec (l := (s.litlens.toList.map fun x => some (llSym x)).take (288 * (lpos / 288 + 1)))
    fun t ht => h.llc.val (lpos / 288) t (by rw [hL]; omega) ht
  rw [ell, some_bind, forRange_empty (by omega), some_bind]
  by_cases c2 : s.dCounts.size ≤ 32 * (lpos / 32)
  · rw [loadRow_none (by omega) c2]
    exact .inl rfl
  have b2 := row_bound (n := s.size) (num := 32) (q := lpos / 32) (by omega) (by omega)
  obtain ⟨d, ed, hd⟩ := loadRow_spec (l := (s.litlens.toList.map dSym).take (32 * (lpos / 32 + 1)))
    fun t ht => h.dc.val (lpos / 32) t (by rw [hD]; omega) ht
  rw [ed, some_bind, forRange_empty (by omega), some_bind]
  refine .inr ⟨by omega, Ret.pure ⟨?_, ?_⟩⟩
  · rwa [take_all _ (288 * (lpos / 288 + 1)) (lpos + 1) hL (by omega) (by omega)] at hll
  · rwa [take_all _ (32 * (lpos / 32 + 1)) (lpos + 1) hD (by omega) (by omega)] at hd

/-- The histogram of any range, even one that is not a range of the store. -/
theorem getHistogram_weak {s : Lz77Store} (h : StoreInv s) (a b : Nat) : (a + 864 > b ∧ ¬ (a ≤ b ∧ b ≤ s.size)) ∨ s.getHistogram a b = none ∨
    Ret (s.getHistogram a b) fun r =>
      Hist r.1 288 (((s.litlens.toList.map fun x => some (llSym x)).take b).drop a) ∧
      Hist r.2 32 (((s.litlens.toList.map dSym).take b).drop a) := by
  by_cases hv : a ≤ b ∧ b ≤ s.size
  · exact .inr (.inr (getHistogram_spec h hv.1 hv.2))
  by_cases hc : a + 864 > b
  · exact .inl ⟨hc, hv⟩
  refine .inr ?_
  unfold Lz77Store.getHistogram
  dsimp only [NUM_LL]
  rw [if_neg hc]
  rcases getHistogramAt_weak h (b - 1) with e | ⟨hb, ⟨ll, d⟩, e, g1, g2⟩
  · rw [e]; exact .inl rfl
  rw [e, some_bind]
  rw [show b - 1 + 1 = b by omega] at g1 g2
  dsimp only at g1 g2 ⊢
  refine .inr ?_
  split
  · refine Ret.bind' (getHistogramAt_spec h (lpos := a - 1) (by omega)) ?_
    rintro ⟨ll2, d2⟩ ⟨g3, g4⟩
    rw [show a - 1 + 1 = a by omega] at g3 g4
    dsimp only at g3 g4 ⊢
    have key : ∀ {α : Type} (L : List α), L.take b = L.take a ++ (L.take b).drop a := fun L => by
      conv_lhs => rw [← List.take_append_drop a (L.take b), List.take_take, Nat.min_eq_left (show a ≤ b by omega)]
    rw [key] at g1 g2
    refine Ret.bind' (subCounts_spec g1 g3) fun c1 hc1 => ?_
    refine Ret.bind' (subCounts_spec g2 g4) fun c2 hc2 => ?_
    exact Ret.pure ⟨hc1, hc2⟩
  · have : a = 0 := by omega
    subst this
    exact Ret.pure ⟨g1, g2⟩

/-! ## Smoothing -/

theorem farFrom_eq (c : Checks) {count limit : Nat} (h1 : count < 2 ^ 31) (h2 : limit < 2 ^ 31) :
    @farFrom c count limit = @farFrom releaseBuild count limit := by
  have w : ∀ n : Nat, n < 2 ^ 31 → wrapI32 n = n := by
    intro n hn
    unfold wrapI32
    omega
  unfold farFrom
  simp only [w _ h1, w _ h2]
  rw [if_neg (by omega), if_neg (by omega)]

theorem forRange_congr_inv {σ : Type} {f g : Nat → σ → Option σ} (I : σ → Prop) {a b : Nat} {s : σ} (h0 : I s)
    (h : ∀ i s, I s → f i s = g i s ∧ ∀ s', g i s = some s' → I s') : forRange a b s f = forRange a b s g := by
  unfold forRange
  generalize b - a = n
  induction n generalizing a s with
  | zero => rfl
  | succ n ih =>
    rw [forN, forN, (h a s h0).1]
    cases hg : g a s with
    | none => rfl
    | some s' => exact ih ((h a s h0).2 s' hg)

structure RleSmall (B : Nat) (st : RleState) : Prop where
  counts : ∀ (i c : Nat), st.counts[i]? = some c → c ≤ B
  limit : st.limit ≤ B
  sum : st.sum ≤ st.stride * B

theorem rleStep_small (c : Checks) {B : Nat} (hB1 : 1 ≤ B) (hB : B < 2 ^ 31) (length : Nat) (good : Array Bool) (i : Nat) (st : RleState) (h : RleSmall B st) :
    @rleStep c length good i st = @rleStep releaseBuild length good i st ∧ ∀ st', @rleStep releaseBuild length good i st = some st' → RleSmall B st' := by
  obtain ⟨counts, stride, limit, sum⟩ := st
  obtain ⟨h1, h2, h3⟩ := h
  dsimp only at h1 h2 h3
  constructor
  · unfold rleStep
    dsimp only
    have : (do if ← good[i]? then some true else @farFrom c (← counts[i]?) limit) = (do if ← good[i]? then some true else @farFrom releaseBuild (← counts[i]?) limit) := by
      cases good[i]? with
      | none => rfl
      | some g =>
        rw [some_bind, some_bind]
        split
        · rfl
        · cases hc : counts[i]? with
          | none => rfl
          | some x =>
            rw [some_bind, some_bind]
            exact farFrom_eq c (by have := h1 i x hc; omega) (by omega)
    rw [this]
  · intro st' hst
    unfold rleStep at hst
    simp only [Option.bind_eq_bind, Option.bind_eq_some_iff, Prod.exists] at hst
    obtain ⟨collapse, -, c', stride', limit', sum', hmid, s2, hs2, hst⟩ := hst
    cases hst
    have key : (∀ (i x : Nat), c'[i]? = some x → x ≤ B) ∧ limit' ≤ B ∧ sum' ≤ stride' * B := by
      split at hmid
      · simp only [Option.bind_eq_some_iff] at hmid
        obtain ⟨c2, hc2, lim, hlim, e⟩ := hmid
        obtain ⟨rfl, rfl, rfl, rfl⟩ : c2 = c' ∧ 0 = stride' ∧ lim = limit' ∧ 0 = sum' := by simpa using e
        have hc2' : ∀ (i x : Nat), c2[i]? = some x → x ≤ B := by
          split at hc2
          · rename_i hstr
            unfold setCountsToCount at hc2
            split at hc2
            · cases hc2
              intro j x hx
              rw [Array.getElem?_mapIdx] at hx
              cases hj : counts[j]? with
              | none => rw [hj] at hx; cases hx
              | some y =>
                rw [hj] at hx
                have hx : (if i - stride ≤ j ∧ j < i then (if sum = 0 then 0 else max ((sum + stride / 2) / stride) 1) else y) = x := Option.some.inj hx
                have hv : (if sum = 0 then 0 else max ((sum + stride / 2) / stride) 1) ≤ B := by
                  by_cases h0 : sum = 0
                  · rw [if_pos h0]; omega
                  · rw [if_neg h0]
                    refine max_le ?_ hB1
                    have hp : 0 < stride := by omega
                    rw [Nat.div_le_iff_le_mul_add_pred hp]
                    omega
                rw [← hx]
                by_cases hj' : i - stride ≤ j ∧ j < i
                · rw [if_pos hj']; exact hv
                · rw [if_neg hj']; exact h1 j y hj
            · cases hc2
          · cases hc2; exact h1
        refine ⟨hc2', ?_, by omega⟩
        split at hlim
        · simp only [Option.bind_eq_some_iff] at hlim
          obtain ⟨x1, e1, x2, e2, x3, e3, x4, e4, e⟩ := hlim
          cases e
          have := hc2' _ _ e1
          have := hc2' _ _ e2
          have := hc2' _ _ e3
          have := hc2' _ _ e4
          omega
        · split at hlim
          · exact hc2' _ _ hlim
          · cases hlim; omega
      · cases hmid; exact ⟨h1, h2, h3⟩
    refine ⟨key.1, key.2.1, ?_⟩
    dsimp only
    rw [Nat.add_mul]
    split at hs2
    · simp only [Option.bind_eq_some_iff] at hs2
      obtain ⟨x, hx, e⟩ := hs2
      cases e
      have := key.1 _ _ hx
      omega
    · cases hs2
      omega

theorem optimizeHuffmanForRle_small (c : Checks) {counts : Array Nat} (h : ∀ (i x : Nat), counts[i]? = some x → x < 2 ^ 31) :
    @optimizeHuffmanForRle c counts = @optimizeHuffmanForRle releaseBuild counts := by
  unfold optimizeHuffmanForRle
  cases trimTrailing counts counts.size with
  | none => rfl
  | some length =>
    rw [some_bind, some_bind]
    split
    · rfl
    · cases markGoodForRle counts length with
      | none => rfl
      | some good =>
        rw [some_bind, some_bind]
        cases hc : counts[0]? with
        | none => rfl
        | some l =>
          rw [some_bind, some_bind]
          have hB : 2 ^ 31 - 1 < 2 ^ 31 := by norm_num
          have hB1 : 1 ≤ 2 ^ 31 - 1 := by norm_num
          generalize hBB : 2 ^ 31 - 1 = B at hB hB1
          have hle : ∀ x, x < 2 ^ 31 → x ≤ B := by intro x hx; omega
          rw [forRange_congr_inv (RleSmall B) ⟨fun i x hx => hle _ (h i x hx), hle _ (h 0 l hc), by simp⟩
            fun i st hst => rleStep_small c hB1 hB length good i st hst]

/-! ## Block sizes -/

theorem LensOk.le_ll {ll d : Array Nat} (h : LensOk ll d) (i : Nat) : ll.getD i 0 ≤ 15 := by
  rw [Array.getD_eq_getD_getElem?]
  by_cases hi : i < ll.size
  · rw [Array.getElem?_eq_getElem hi]; exact h.lle i hi
  · rw [Array.getElem?_eq_none (by omega)]; simp

theorem LensOk.le_d {ll d : Array Nat} (h : LensOk ll d) (i : Nat) : d.getD i 0 ≤ 15 := by
  rw [Array.getD_eq_getD_getElem?]
  by_cases hi : i < d.size
  · rw [Array.getElem?_eq_getElem hi]; exact h.de i hi
  · rw [Array.getElem?_eq_none (by omega)]; simp

theorem slice_none {α : Type} {a : Array α} {x y : Nat} (h : ¬ (x ≤ y ∧ y ≤ a.size)) : slice a x y = none := by
  unfold slice
  rw [if_neg h]

theorem symbolSizeSmall_none (c : Checks) {ll d : Array Nat} {s : Lz77Store} {a b : Nat} (h : ¬ (a ≤ b ∧ b ≤ s.size)) :
    @blockSymbolSizeSmall c ll d s a b = none := by
  unfold blockSymbolSizeSmall
  rw [slice_none h]
  rfl

theorem symbolSizeSmall_eq (c : Checks) {s : Lz77Store} (hs : SmallStore s) {ll d : Array Nat} (hl : LensOk ll d) (a b : Nat) :
    @blockSymbolSizeSmall c ll d s a b = @blockSymbolSizeSmall releaseBuild ll d s a b := by
  by_cases hv : a ≤ b ∧ b ≤ s.size
  · rw [@blockSymbolSizeSmall_gen c _ _ hl.lls hl.ds _ hs.inv _ _ hv.1 hv.2 fun _ => hs.part hl.le_ll hl.le_d a b,
      blockSymbolSizeSmall_spec hl.lls hl.ds hs.inv hv.1 hv.2]
  · rw [symbolSizeSmall_none c hv, symbolSizeSmall_none releaseBuild hv]

theorem givenCounts_none (c : Checks) {c1 c2 ll d : Array Nat} {s : Lz77Store} {a b : Nat} (h : a + 864 > b ∧ ¬ (a ≤ b ∧ b ≤ s.size)) :
    @blockSymbolSizeGivenCounts c c1 c2 ll d s a b = none := by
  unfold blockSymbolSizeGivenCounts
  dsimp only [NUM_LL]
  rw [if_pos h.1]
  exact symbolSizeSmall_none c h.2

theorem givenCounts_eq (c : Checks) {s : Lz77Store} (hs : SmallStore s) {c1 c2 ll d : Array Nat} (hl : LensOk ll d) {a b : Nat}
    (hcl : ∀ t, t < 288 → t ≠ 256 → c1[t]? = some ((((s.litlens.toList.map fun x => some (llSym x)).take b).drop a).count (some t)))
    (hcd : Hist c2 32 (((s.litlens.toList.map dSym).take b).drop a)) :
    @blockSymbolSizeGivenCounts c c1 c2 ll d s a b = @blockSymbolSizeGivenCounts releaseBuild c1 c2 ll d s a b := by
  by_cases hv : a + 864 > b ∧ ¬ (a ≤ b ∧ b ≤ s.size)
  · rw [givenCounts_none c hv, givenCounts_none releaseBuild hv]
  · have hv' : a + 864 > b → a ≤ b ∧ b ≤ s.size := fun h => by
      by_contra hh
      exact hv ⟨h, hh⟩
    rw [@blockSymbolSizeGivenCounts_gen c _ _ _ _ hl.lls hl.ds _ hs.inv _ _ hv' hcl hcd fun _ => hs.part hl.le_ll hl.le_d a b,
      @blockSymbolSizeGivenCounts_gen releaseBuild _ _ _ _ hl.lls hl.ds _ hs.inv _ _ hv' hcl hcd fun _ => hs.part hl.le_ll hl.le_d a b]

theorem fixed_lens : LensOk fixedTree.1 fixedTree.2 := by
  refine ⟨by simp [fixedTree], by simp [fixedTree], ?_, ?_⟩
  · intro i h
    have : ∀ i : Fin 288, fixedTree.1.getD i.1 0 ≤ 15 := by decide +kernel
    have hi : i < 288 := by simpa [fixedTree] using h
    have h2 := this ⟨i, hi⟩
    rw [Array.getD_eq_getD_getElem?, Array.getElem?_eq_getElem h] at h2
    exact h2
  · intro i h
    have : ∀ i : Fin 32, fixedTree.2.getD i.1 0 ≤ 15 := by decide +kernel
    have hi : i < 32 := by simpa [fixedTree] using h
    have h2 := this ⟨i, hi⟩
    rw [Array.getD_eq_getD_getElem?, Array.getElem?_eq_getElem h] at h2
    exact h2

theorem symbolSize_eq (c : Checks) {s : Lz77Store} (hs : SmallStore s) {ll d : Array Nat} (hl : LensOk ll d) (a b : Nat) :
    @blockSymbolSize c ll d s a b = @blockSymbolSize releaseBuild ll d s a b := by
  unfold blockSymbolSize
  split
  · exact symbolSizeSmall_eq c hs hl a b
  · rename_i hc
    rcases getHistogram_weak hs.inv a b with h | h | ⟨⟨c1, c2⟩, e, h1, h2⟩
    · exact absurd h.1 hc
    · rw [h]; rfl
    · rw [e, some_bind, some_bind]
      exact givenCounts_eq c hs hl (fun t ht _ => h1.2 t ht) h2

theorem countsOk_of_hist {s : Lz77Store} (h : StoreInv s) {a b : Nat} {c1 c2 : Array Nat} (hs1 : c1.size = 288)
    (hc1 : ∀ t, t < 288 → t ≠ 256 → c1[t]? = some ((((s.litlens.toList.map fun x => some (llSym x)).take b).drop a).count (some t)))
    (h256 : c1[256]? = some 1) (h2 : Hist c2 32 (((s.litlens.toList.map dSym).take b).drop a)) : CountsOk c1 c2 := by
  have hr : ∀ x ∈ (s.litlens.toList.take b).drop a, x.InRange := fun x hx =>
    h.range x (List.mem_of_mem_take (List.mem_of_mem_drop hx))
  refine ⟨hs1, h2.1, ?_, ?_, by omega, ?_⟩
  · intro i hi h286
    have := hc1 i (by omega) (by omega)
    rw [Array.getElem?_eq_getElem hi] at this
    rw [Option.some.inj this, List.count_eq_zero]
    rw [← List.map_take, ← List.map_drop]
    intro hm
    obtain ⟨x, hx, e⟩ := List.mem_map.mp hm
    have := (llSym_lt (hr x hx)).1
    have := Option.some.inj e
    omega
  · intro i hi h30
    have hi' : i < 32 := by rw [← h2.1]; exact hi
    have := h2.2 i hi'
    rw [Array.getElem?_eq_getElem hi] at this
    rw [Option.some.inj this, List.count_eq_zero]
    rw [← List.map_take, ← List.map_drop]
    intro hm
    obtain ⟨x, hx, e⟩ := List.mem_map.mp hm
    have := dSym_lt (hr x hx) e
    omega
  · rw [Array.getElem?_eq_getElem (by omega)] at h256
    rw [Option.some.inj h256]
    omega

theorem tryOptimize_eq (c : Checks) {s : Lz77Store} (hs : SmallStore s) {c1 c2 ll d : Array Nat} {a b : Nat} (hok : CountsOk c1 c2) (hl : LensOk ll d)
    (hb1 : ∀ (i x : Nat), c1[i]? = some x → x < 2 ^ 31) (hb2 : ∀ (i x : Nat), c2[i]? = some x → x < 2 ^ 31)
    (hg : ∀ ll d : Array Nat, LensOk ll d → @blockSymbolSizeGivenCounts c c1 c2 ll d s a b = @blockSymbolSizeGivenCounts releaseBuild c1 c2 ll d s a b) :
    @tryOptimizeHuffmanForRle c s a b c1 c2 ll d = @tryOptimizeHuffmanForRle releaseBuild s a b c1 c2 ll d := by
  unfold tryOptimizeHuffmanForRle
  rw [hg ll d hl, optimizeHuffmanForRle_small c hb1, optimizeHuffmanForRle_small c hb2]
  obtain ⟨llC, el, hlS, hlk, hlz⟩ := optimizeHuffmanForRle_spec c1
  obtain ⟨dC, ed, hdS, hdk, hdz⟩ := optimizeHuffmanForRle_spec c2
  rw [el, ed]
  simp only [some_bind]
  have hS := hok.lls
  have hDS := hok.ds
  have hok2 : CountsOk llC dC := by
    refine ⟨by omega, by omega, fun i hi h286 => hlz 286 (fun j hj hj' => hok.llz j hj hj') i hi h286,
      fun i hi h30 => hdz 30 (fun j hj hj' => hok.dz j hj hj') i hi h30, by omega, ?_⟩
    obtain ⟨h1, h2⟩ := hok.ll256
    exact hlk 256 h1 (by omega) h2
  obtain ⟨ll2, e1, d2, e2, hc2⟩ := lengths_spec hok2 hlS hdS hlk hdk
  rw [e1]
  simp only [some_bind]
  have e2' : ∀ (f : Array Nat → Option (Nat × Array Nat × Array Nat)),
      (do let x ← lengthLimitedCodeLengths dC 15; let y ← patchDistanceCodes x; f y) = f d2 := by
    intro f
    rw [← bind_assoc, e2, some_bind]
  simp only [e2', hg ll2 d2 hc2.toLensOk]

theorem getDynamicLengths_eq (c : Checks) {s : Lz77Store} (hs : SmallStore s) (a b : Nat) :
    @getDynamicLengths c s a b = @getDynamicLengths releaseBuild s a b := by
  unfold getDynamicLengths
  rcases getHistogram_weak hs.inv a b with h | h | ⟨⟨c1, c2⟩, e, h1, h2⟩
  · have : ∀ c1 c2 ll d, @tryOptimizeHuffmanForRle c s a b c1 c2 ll d = @tryOptimizeHuffmanForRle releaseBuild s a b c1 c2 ll d := by
      intro c1 c2 ll d
      unfold tryOptimizeHuffmanForRle
      rw [givenCounts_none c h, givenCounts_none releaseBuild h]
      rfl
    simp only [this]
  · rw [h]; rfl
  · rw [e, some_bind, some_bind]
    dsimp only at h1 h2 ⊢
    rw [aset_eq (by rw [h1.1]; omega), some_bind, some_bind]
    generalize hc1 : c1.set 256 1 (by rw [h1.1]; omega) = c1'
    have hs1 : c1'.size = 288 := by rw [← hc1, Array.size_set, h1.1]
    have hc1v : ∀ t, t < 288 → t ≠ 256 → c1'[t]? = some ((((s.litlens.toList.map fun x => some (llSym x)).take b).drop a).count (some t)) := by
      intro t ht hne
      rw [← hc1, Array.getElem?_set, if_neg (by omega)]
      exact h1.2 t ht
    have h256 : c1'[256]? = some 1 := by simp [← hc1]
    have hok := countsOk_of_hist hs.inv hs1 hc1v h256 h2
    obtain ⟨ll, e1, d, e2, hc⟩ := lengths_spec (llCounts := c1') (dCounts := c2) hok rfl rfl (fun _ _ _ h => h) (fun _ _ _ h => h)
    rw [e1, some_bind, some_bind]
    have e2' : ∀ (f : Array Nat → Option (Nat × Array Nat × Array Nat)),
        (do let x ← lengthLimitedCodeLengths c2 15; let y ← patchDistanceCodes x; f y) = f d := by
      intro f
      rw [← bind_assoc, e2, some_bind]
    rw [e2', e2']
    have hcount : ∀ (L : List (Option Nat)) (t : Option Nat), L.length = s.litlens.toList.length → ((L.take b).drop a).count t < 2 ^ 31 := by
      intro L t hL
      have h1 := List.count_le_length (a := t) (l := (L.take b).drop a)
      have h2 : ((L.take b).drop a).length ≤ L.length := by simp only [List.length_drop, List.length_take]; omega
      have h3 := hs.size_lt
      omega
    refine tryOptimize_eq c hs hok hc.toLensOk ?_ ?_ fun ll d hl => givenCounts_eq c hs hl hc1v h2
    · intro i x hx
      have hi : i < 288 := by
        by_contra hh
        rw [Array.getElem?_eq_none (by omega)] at hx
        cases hx
      by_cases h6 : i = 256
      · subst h6
        rw [h256] at hx
        cases hx
        norm_num
      · rw [hc1v i hi h6] at hx
        cases hx
        exact hcount _ _ (by simp)
    · intro i x hx
      have hi : i < 32 := by
        by_contra hh
        rw [Array.getElem?_eq_none (by rw [h2.1]; omega)] at hx
        cases hx
      rw [h2.2 i hi] at hx
      cases hx
      exact hcount _ _ (by simp)

variable {F : FloatOps}

theorem calculateBlockSize_eq (c : Checks) {s : Lz77Store} (hs : SmallStore s) (a b : Nat) (bt : BlockType) :
    @calculateBlockSize c F s a b bt = @calculateBlockSize releaseBuild F s a b bt := by
  unfold calculateBlockSize
  cases bt with
  | uncompressed => rfl
  | fixed =>
    have := symbolSize_eq c hs fixed_lens a b
    dsimp only at this ⊢
    rw [this]
  | dynamic => dsimp only; rw [getDynamicLengths_eq c hs]

theorem autoType_eq (c : Checks) {s : Lz77Store} (hs : SmallStore s) (a b : Nat) :
    @calculateBlockSizeAutoType c F s a b = @calculateBlockSizeAutoType releaseBuild F s a b := by
  unfold calculateBlockSizeAutoType
  simp only [calculateBlockSize_eq c hs]

theorem blocksplitLz77_eq (c : Checks) {s : Lz77Store} (hs : SmallStore s) (maxblocks : Nat) :
    @blocksplitLz77 c F s maxblocks = @blocksplitLz77 releaseBuild F s maxblocks := by
  have h : @splitStep c F s maxblocks = @splitStep releaseBuild F s maxblocks := by
    funext st
    obtain ⟨numblocks, done, lstart, lend, splitpoints⟩ := st
    unfold splitStep estimateCost
    simp only [autoType_eq c hs]
  unfold blocksplitLz77
  rw [h]

theorem totalCostOf_checks (c : Checks) {s : Lz77Store} (hs : SmallStore s) : ∀ (sp : List Nat) (last : Nat) (acc : F.F64),
    @totalCostOf c F s sp last acc = @totalCostOf releaseBuild F s sp last acc
  | [], last, acc => by unfold totalCostOf; rw [autoType_eq c hs]
  | item :: rest, last, acc => by
    unfold totalCostOf
    rw [autoType_eq c hs]
    simp only [totalCostOf_checks c hs rest]

theorem addLz77Block_eq (c : Checks) {s : Lz77Store} (hs : SmallStore s) (bt : BlockType) (fin : Bool) (data : Array UInt8) (a b : Nat) :
    @addLz77Block c bt fin data s a b = @addLz77Block releaseBuild bt fin data s a b := by
  unfold addLz77Block
  cases bt with
  | uncompressed => rfl
  | fixed => rfl
  | dynamic => dsimp only; rw [getDynamicLengths_eq c hs]

end Zopfli
