import Verif.Proofs.Optimal
import Verif.Model.BlockSplitter
/-! # Block splitting -/

namespace Zopfli

variable {F : FloatOps}

theorem findMinimumLinear_spec {f : Nat → Option F.F64} {start end_ : Nat} (h : start < end_) (hf : ∀ i, start ≤ i → i < end_ → ∃ v, f i = some v) :
    Ret (findMinimumLinear F f start end_) fun r => start ≤ r.1 ∧ r.1 < end_ := by
  unfold findMinimumLinear
  refine forRange_spec (fun _ (r : Nat × F.F64) => start ≤ r.1 ∧ r.1 < end_) (Nat.le_of_lt h) ⟨Nat.le_refl _, h⟩ ?_
  rintro i ⟨res, best⟩ h1 h2 hr
  obtain ⟨v, e⟩ := hf i h1 h2
  dsimp only
  rw [e, some_bind]
  split
  · exact ⟨_, rfl, h1, h2⟩
  · exact ⟨_, rfl, hr⟩

theorem findMinimumStep_spec {f : Nat → Option F.F64} {lo hi : Nat} (hf : ∀ i, lo ≤ i → i < hi → ∃ v, f i = some v)
    {start end_ pos : Nat} {lastbest : F.F64} (h1 : lo ≤ start) (h2 : start ≤ end_) (h3 : end_ ≤ hi) (h4 : lo ≤ pos) (h5 : pos < hi) :
    Ret (findMinimumStep F f (start, end_, pos, lastbest)) fun r => match r with
      | .inl st => (lo ≤ st.1 ∧ st.1 ≤ st.2.1 ∧ st.2.1 ≤ hi ∧ lo ≤ st.2.2.1 ∧ st.2.2.1 < hi) ∧ st.2.1 - st.1 < end_ - start
      | .inr r => lo ≤ r.1 ∧ r.1 < hi := by
  rw [findMinimumStep, usub_eq h2, some_bind]
  dsimp only [NUM]
  split
  · rename_i hgt
    have hm : 1 ≤ (end_ - start) / (9 + 1) := by omega
    have hm2 : (9 + 1) * ((end_ - start) / (9 + 1)) ≤ end_ - start := Nat.mul_div_le _ _
    generalize (end_ - start) / (9 + 1) = m at *
    refine Ret.bind' (forRange_spec (fun _ (r : Nat × F.F64) => r.1 < 9) (by omega) (by simp) ?_) ?_
    · rintro i ⟨bi, b⟩ _ hi hr
      have : (i + 1) * m ≤ 9 * m := Nat.mul_le_mul_right m (by omega)
      obtain ⟨v, e⟩ := hf (start + (i + 1) * m) (by omega) (by omega)
      dsimp only
      rw [e, some_bind]
      split
      · exact ⟨_, rfl, hi⟩
      · exact ⟨_, rfl, hr⟩
    · rintro ⟨bi, b⟩ hb
      dsimp only at hb ⊢
      split
      · exact ⟨_, rfl, h4, h5⟩
      · refine ⟨_, rfl, ?_⟩
        dsimp only
        have q1 : (bi + 1) * m = bi * m + m := Nat.succ_mul _ _
        have q2 : (bi + 1 + 1) * m = bi * m + m + m := by rw [Nat.succ_mul, q1]
        have q3 : bi * m ≤ 8 * m := Nat.mul_le_mul_right m (by omega)
        rw [q1, q2]
        by_cases hb0 : bi = 0
        · subst hb0
          rw [if_pos rfl, if_neg (by omega)]
          omega
        · rw [if_neg hb0, show bi - 1 + 1 = bi by omega]
          by_cases hb8 : bi = 9 - 1
          · rw [if_pos hb8, hb8]
            omega
          · rw [if_neg hb8]
            have q4 : bi * m ≤ 7 * m := Nat.mul_le_mul_right m (by omega)
            omega
  · exact ⟨_, rfl, h4, h5⟩

/-- `find_minimum` ends and its result is in the range. -/
theorem findMinimum_spec {f : Nat → Option F.F64} {start end_ : Nat} (h : start < end_) (hf : ∀ i, start ≤ i → i < end_ → ∃ v, f i = some v) :
    Ret (findMinimum F f start end_) fun r => start ≤ r.1 ∧ r.1 < end_ := by
  unfold findMinimum
  rw [usub_eq (by omega), some_bind]
  split
  · exact findMinimumLinear_spec h hf
  · refine loopM_spec (fun st => start ≤ st.1 ∧ st.1 ≤ st.2.1 ∧ st.2.1 ≤ end_ ∧ start ≤ st.2.2.1 ∧ st.2.2.1 < end_) (fun st => st.2.1 - st.1) _ ?_ _ ?_
    · rintro ⟨a, b, c, d⟩ ⟨i1, i2, i3, i4, i5⟩
      exact Ret.mono (findMinimumStep_spec hf (lastbest := d) i1 i2 i3 i4 i5) (by rintro (st | r) h <;> exact h)
    · dsimp only; omega

/-- Split points of `n` items: strictly increasing, and strictly inside. -/
def SplitOk (n : Nat) (sp : List Nat) : Prop := sp.Pairwise (· < ·) ∧ ∀ x ∈ sp, 0 < x ∧ x < n

/-- `a` and `b` are neighbouring boundaries, and the part starting at `a` has not been given up. -/
structure Gap (n : Nat) (done : Array Nat) (sp : List Nat) (p : Nat × Nat) : Prop where
  lt : p.1 < p.2
  le : p.2 ≤ n
  done : done[p.1]? = some 0
  none : ∀ x ∈ sp, ¬ (p.1 < x ∧ x < p.2)

theorem findLargestLoop_spec {n : Nat} {done : Array Nat} (hd : done.size = n) {sp : List Nat} (hs : SplitOk n sp) :
    ∀ (rest pre : List Nat) (longest : Nat) (found : Option (Nat × Nat)) (last : Nat), sp = pre ++ rest → (∀ x ∈ pre, x ≤ last) →
      last < n → (∀ x ∈ rest, last < x) → (∀ p, found = some p → Gap n done sp p) →
      Ret (findLargestLoop done rest (longest, found, last)) fun r => r.2.2 < n ∧ (∀ x ∈ sp, x ≤ r.2.2) ∧ ∀ p, r.2.1 = some p → Gap n done sp p
  | [], pre, longest, found, last, e, h1, h2, h3, h4 => by
    rw [List.append_nil] at e
    subst e
    exact ⟨_, rfl, h2, h1, h4⟩
  | item :: rest, pre, longest, found, last, e, h1, h2, h3, h4 => by
    have hlast : last < item := h3 item (by simp)
    have hitem : item < n := (hs.2 item (by rw [e]; simp)).2
    have hp := hs.1
    rw [e, List.pairwise_append, List.pairwise_cons] at hp
    have hnext : ∀ found', (∀ p, found' = some p → Gap n done sp p) → ∀ longest',
        Ret (findLargestLoop done rest (longest', found', item)) fun r => r.2.2 < n ∧ (∀ x ∈ sp, x ≤ r.2.2) ∧ ∀ p, r.2.1 = some p → Gap n done sp p := by
      intro found' hf longest'
      refine findLargestLoop_spec hd hs rest (pre ++ [item]) longest' found' item (by simp [e]) ?_ hitem hp.2.1.1 hf
      intro x hx
      rw [List.mem_append] at hx
      rcases hx with hx | hx
      · have := h1 x hx; omega
      · simp at hx; omega
    rw [findLargestLoop, Array.getElem?_eq_getElem (by omega), some_bind, usub_eq (by omega), some_bind]
    split
    · rename_i hc
      refine hnext _ ?_ _
      rintro p ⟨⟩
      refine ⟨hlast, by omega, ?_, ?_⟩
      · rw [Array.getElem?_eq_getElem (by omega), hc.1]
      · intro x hx
        rw [e, List.mem_append, List.mem_cons] at hx
        dsimp only
        rcases hx with hx | rfl | hx
        · have := h1 x hx; omega
        · omega
        · have := hp.2.1.1 x hx; omega
    · exact hnext _ h4 _

theorem findLargest_spec {n : Nat} {done : Array Nat} (hd : done.size = n) {sp : List Nat} (hs : SplitOk n sp) (hn : 0 < n) :
    Ret (findLargestSplittableBlock n done sp) fun r => ∀ p, r = some p → Gap n done sp p := by
  unfold findLargestSplittableBlock
  refine Ret.bind' (findLargestLoop_spec hd hs sp [] 0 none 0 rfl (by simp) hn (fun x hx => (hs.2 x hx).1) (by intro p h; cases h)) ?_
  rintro ⟨longest, found, last⟩ ⟨h1, h2, h3⟩
  dsimp only at h1 h2 h3 ⊢
  rw [usub_eq (by omega), some_bind, Array.getElem?_eq_getElem (by omega), some_bind, usub_eq (by omega), some_bind]
  split
  · rename_i hc
    refine ⟨_, rfl, ?_⟩
    rintro p ⟨⟩
    refine ⟨by simp only; omega, by simp only; omega, ?_, ?_⟩
    · rw [Array.getElem?_eq_getElem (by omega), hc.1]
    · intro x hx
      have := h2 x hx
      simp only; omega
  · exact ⟨_, rfl, h3⟩

theorem splitOk_insert {n : Nat} {sp : List Nat} (h : SplitOk n sp) {x : Nat} (h1 : 0 < x) (h2 : x < n) (hx : x ∉ sp) :
    SplitOk n ((sp ++ [x]).mergeSort fun a b => decide (a ≤ b)) := by
  have hperm := List.mergeSort_perm (sp ++ [x]) fun a b => decide (a ≤ b)
  have hsort : List.Pairwise (fun a b => decide (a ≤ b) = true) ((sp ++ [x]).mergeSort fun a b => decide (a ≤ b)) :=
    List.pairwise_mergeSort (fun a b c => by simp; omega) (fun a b => by simp; omega) _
  have hnd : ((sp ++ [x]).mergeSort fun a b => decide (a ≤ b)).Nodup := by
    rw [hperm.nodup_iff, List.nodup_append]
    refine ⟨h.1.imp (fun h => Nat.ne_of_lt h), by simp, ?_⟩
    intro a ha b hb
    simp at hb
    rw [hb]
    rintro rfl
    exact hx ha
  refine ⟨?_, fun y hy => ?_⟩
  · refine (hsort.and hnd).imp ?_
    rintro a b ⟨h1, h2⟩
    have := of_decide_eq_true h1
    omega
  · rw [hperm.mem_iff, List.mem_append] at hy
    rcases hy with hy | hy
    · exact h.2 y hy
    · simp at hy; omega

theorem splitOk_length {n : Nat} : ∀ {sp : List Nat} {lo : Nat}, sp.Pairwise (· < ·) → (∀ x ∈ sp, lo < x ∧ x < n) → sp.length ≤ n - lo
  | [], _, _, _ => by simp
  | x :: sp, lo, h, hx => by
    rw [List.pairwise_cons] at h
    have h1 := hx x (by simp)
    have := splitOk_length (lo := x) h.2 fun y hy => ⟨h.1 y hy, (hx y (by simp [hy])).2⟩
    rw [List.length_cons]
    omega

/-- The invariant of the loop of `blocksplit_lz77`. -/
structure SplInv (n maxblocks : Nat) (s : SplitState) : Prop where
  nb : s.numblocks = s.splitpoints.length + 1
  max : s.numblocks ≤ Max.max 1 maxblocks
  dsz : s.done.size = n
  sp : SplitOk n s.splitpoints
  gap : Gap n s.done s.splitpoints (s.lstart, s.lend)
  big : s.lstart + 10 ≤ s.lend

theorem splitStep_spec {lz77 : Lz77Store} (h : StoreInv lz77) {maxblocks : Nat} {st : SplitState} (hi : SplInv lz77.size maxblocks st) :
    Ret (splitStep F lz77 maxblocks st) fun r => match r with
      | .inl st' => SplInv lz77.size maxblocks st' ∧
          st'.done.toList.count 0 + (lz77.size - st'.splitpoints.length) < st.done.toList.count 0 + (lz77.size - st.splitpoints.length)
      | .inr sp => SplitOk lz77.size sp ∧ sp.length + 1 ≤ Max.max 1 maxblocks := by
  obtain ⟨numblocks, done, lstart, lend, sp⟩ := st
  obtain ⟨h1, h2, h3, h4, h5, h6⟩ := hi
  dsimp only at h1 h2 h3 h4 h5 h6
  have hle := h5.le
  have hdone := h5.done
  have hnone := h5.none
  dsimp only at hle hdone hnone
  rw [splitStep]
  split
  · rename_i hmax
    rw [guardR_eq (by simp only [decide_eq_true_eq]; omega), some_bind]
    refine Ret.bind' (findMinimum_spec (by omega) ?_) ?_
    · intro i hi1 hi2
      obtain ⟨c1, e1⟩ := autoType_ret (F := F) h (lstart := lstart) (lend := i) (by omega) (by omega)
      obtain ⟨c2, e2⟩ := autoType_ret (F := F) h (lstart := i) (lend := lend) (by omega) (by omega)
      unfold estimateCost
      rw [e1, some_bind, e2, some_bind]
      exact ⟨_, rfl⟩
    · rintro ⟨llpos, splitcost⟩ ⟨hp1, hp2⟩
      dsimp only at hp1 hp2 ⊢
      obtain ⟨oc, e⟩ := autoType_ret (F := F) h (lstart := lstart) (lend := lend) (by omega) (by omega)
      unfold estimateCost
      rw [guardR_eq (by simp only [decide_eq_true_eq]; omega), some_bind, e, some_bind]
      -- the tail
      have tail : ∀ (done' : Array Nat) (sp' : List Nat) (nb' : Nat), done'.size = lz77.size → SplitOk lz77.size sp' → nb' = sp'.length + 1 →
          nb' ≤ Max.max 1 maxblocks →
          done'.toList.count 0 + (lz77.size - sp'.length) < done.toList.count 0 + (lz77.size - sp.length) →
          Ret (do
            match ← findLargestSplittableBlock lz77.size done' sp' with
            | none => return .inr sp'
            | some (start, end_) =>
              if (← usub end_ start) < 10 then return .inr sp'
              else return .inl ⟨nb', done', start, end_, sp'⟩ : Option (SplitState ⊕ List Nat)) fun r => match r with
            | .inl st' => SplInv lz77.size maxblocks st' ∧
              st'.done.toList.count 0 + (lz77.size - st'.splitpoints.length) < done.toList.count 0 + (lz77.size - sp.length)
            | .inr sp => SplitOk lz77.size sp ∧ sp.length + 1 ≤ Max.max 1 maxblocks := by
        intro done' sp' nb' t1 t2 t3 t4 t5
        refine Ret.bind' (findLargest_spec t1 t2 (by omega)) ?_
        rintro (_ | ⟨a, b⟩) hr
        · exact ⟨_, rfl, t2, by omega⟩
        · have g := hr _ rfl
          have := g.lt
          dsimp only at this ⊢
          rw [usub_eq (by omega), some_bind]
          split
          · exact ⟨_, rfl, t2, by omega⟩
          · exact ⟨_, rfl, ⟨t3, t4, t1, t2, g, by simp only; omega⟩, t5⟩
      by_cases hc : F.lt oc splitcost = true ∨ llpos = lstart + 1 ∨ llpos = lend
      · rw [if_pos hc, aset_eq (by omega), some_bind, some_bind]
        refine tail _ sp numblocks (by simp [h3]) h4 h1 h2 ?_
        have hlt : lstart < done.toList.length := by simp; omega
        have hget : done.toList[lstart] = 0 := by
          rw [Array.getElem?_eq_getElem (by omega)] at hdone
          simpa using hdone
        have hpos : 0 < done.toList.count 0 := by
          rw [List.count_pos_iff]
          rw [← hget]
          exact List.getElem_mem _
        rw [Array.toList_set, List.count_set hlt, hget]
        simp
        simpa using hpos
      · rw [if_neg hc, some_bind]
        push Not at hc
        have hnotin : llpos ∉ sp := fun hx => hnone llpos hx ⟨by omega, by omega⟩
        have hlen : ((sp ++ [llpos]).mergeSort fun a b => decide (a ≤ b)).length = sp.length + 1 := by
          rw [List.length_mergeSort, List.length_append]; rfl
        have hok := splitOk_insert h4 (x := llpos) (by omega) (by omega) hnotin
        refine tail done _ (numblocks + 1) h3 hok (by rw [hlen, h1]) (by omega) ?_
        have := splitOk_length (lo := 0) hok.1 hok.2
        rw [hlen] at this ⊢
        omega
  · exact ⟨_, rfl, h4, by rw [← h1]; exact h2⟩

/-! ## From item indices to byte positions -/

theorem convertSplits_spec {sp : Array Nat} : ∀ (items : List LitLen) (i pos : Nat) (acc : Array Nat),
    sp.toList.Pairwise (· < ·) → acc.size < sp.size → (∀ k (h : k < sp.size), acc.size ≤ k → i ≤ sp[k] ∧ sp[k] < i + items.length) →
    ∃ r, convertSplits sp items i pos acc = some r ∧
      r.toList = acc.toList ++ (sp.toList.drop acc.size).map fun x => pos + ((items.take (x - i)).map LitLen.size).sum
  | [], i, pos, acc, h1, h2, h3 => by
    have := h3 acc.size h2 (Nat.le_refl _)
    simp at this
    omega
  | item :: rest, i, pos, acc, h1, h2, h3 => by
    rw [convertSplits, Array.getElem?_eq_getElem h2, some_bind]
    have hmono : ∀ k (h : k < sp.size), acc.size < k → sp[acc.size] < sp[k] := by
      intro k hk hlt
      have := List.pairwise_iff_getElem.mp h1 acc.size k (by simpa using h2) (by simpa using hk) hlt
      simpa using this
    have hcur := h3 acc.size h2 (Nat.le_refl _)
    have hshift : ∀ x, i + 1 ≤ x → pos + item.size + ((rest.take (x - (i + 1))).map LitLen.size).sum = pos + (((item :: rest).take (x - i)).map LitLen.size).sum := by
      intro x hx
      rw [show x - i = (x - (i + 1)) + 1 by omega, List.take_succ_cons, List.map_cons, List.sum_cons]
      omega
    have hdrop : sp.toList.drop acc.size = sp[acc.size] :: sp.toList.drop (acc.size + 1) := by
      rw [List.drop_eq_getElem_cons (by simpa using h2)]
      simp
    split
    · rename_i he
      dsimp only
      rw [hdrop, List.map_cons]
      have hx0 : pos + (((item :: rest).take (sp[acc.size] - i)).map LitLen.size).sum = pos := by rw [he]; simp
      rw [hx0]
      split
      · rename_i hfull
        refine ⟨_, rfl, ?_⟩
        rw [Array.size_push] at hfull
        rw [List.drop_eq_nil_of_le (by simp; omega)]
        simp
      · rename_i hfull
        rw [Array.size_push] at hfull
        obtain ⟨r, e, hr⟩ := convertSplits_spec (sp := sp) rest (i + 1) (pos + item.size) (acc.push pos) h1 (by rw [Array.size_push]; omega) (by
          intro k hk hge
          rw [Array.size_push] at hge
          have h4 := h3 k hk (by omega)
          have h5 := hmono k hk (by omega)
          rw [List.length_cons] at h4
          omega)
        refine ⟨r, e, ?_⟩
        rw [hr, Array.size_push, Array.toList_push, List.append_assoc]
        congr 1
        rw [List.singleton_append]
        congr 1
        refine List.map_congr_left fun x hx => ?_
        obtain ⟨k, hk, rfl⟩ := List.mem_iff_getElem.mp hx
        rw [List.length_drop] at hk
        have hk' : acc.size + 1 + k < sp.size := by simp at hk; omega
        have h5 := hmono (acc.size + 1 + k) hk' (by omega)
        refine hshift _ ?_
        simp only [List.getElem_drop, Array.getElem_toList]
        omega
    · rename_i hne
      obtain ⟨r, e, hr⟩ := convertSplits_spec (sp := sp) rest (i + 1) (pos + item.size) acc h1 h2 (by
          intro k hk hge
          have h4 := h3 k hk (by omega)
          rw [List.length_cons] at h4
          by_cases hk2 : k = acc.size
          · subst hk2; omega
          · have h5 := hmono k hk (by omega)
            omega)
      refine ⟨r, e, ?_⟩
      rw [hr]
      congr 1
      refine List.map_congr_left fun x hx => ?_
      obtain ⟨k, hk, rfl⟩ := List.mem_iff_getElem.mp hx
      rw [List.length_drop] at hk
      have hk' : acc.size + k < sp.size := by simp at hk; omega
      refine hshift _ ?_
      simp only [List.getElem_drop, Array.getElem_toList]
      have h4 := h3 (acc.size + k) hk' (by omega)
      by_cases hk2 : k = 0
      · subst hk2; simp only [Nat.add_zero] at *; omega
      · have h5 := hmono _ hk' (by omega)
        omega

/-- Split points inside the store are converted without a panic, and none is lost. -/
theorem convertSplits_ok {s : Lz77Store} {sp : List Nat} (h : SplitOk s.size sp) (hpos : 0 < sp.length) (pos : Nat) :
    ∃ r, convertSplits sp.toArray s.litlens.toList 0 pos #[] = some r ∧ r.size = sp.length ∧
      r.toList = sp.map fun x => pos + ((s.litlens.toList.take x).map LitLen.size).sum := by
  have hsize : s.size = s.litlens.toList.length := by simp [Lz77Store.size]
  obtain ⟨r, e, hr⟩ := convertSplits_spec (sp := sp.toArray) s.litlens.toList 0 pos #[] (by simpa using h.1) (by simpa using hpos) (by
    intro k hk _
    have := h.2 sp[k] (List.getElem_mem _)
    simp only [List.getElem_toArray, Nat.zero_add]
    omega)
  have hr : r.toList = sp.map fun x => pos + ((s.litlens.toList.take x).map LitLen.size).sum := by simpa using hr
  refine ⟨r, e, ?_, hr⟩
  rw [← Array.length_toList, hr, List.length_map]

theorem logSplitPoints_spec {s : Lz77Store} {sp : List Nat} (h : SplitOk s.size sp) : logSplitPoints s sp = some () := by
  unfold logSplitPoints
  by_cases hpos : sp.length > 0
  · obtain ⟨r, e, hr, -⟩ := convertSplits_ok h hpos 0
    rw [if_pos hpos, e, some_bind]
    show (guardR _) = _
    rw [hr]
    exact guardR_eq (by simp)
  · rw [if_neg hpos, some_bind]
    exact guardR_eq (by simp only [decide_eq_true_eq]; omega)

/-- `blocksplit_lz77` ends; the split points are strictly inside and increasing and respect the limit. -/
theorem blocksplitLz77_spec {lz77 : Lz77Store} (h : StoreInv lz77) (maxblocks : Nat) :
    Ret (blocksplitLz77 F lz77 maxblocks) fun sp => SplitOk lz77.size sp ∧ sp.length + 1 ≤ Max.max 1 maxblocks := by
  unfold blocksplitLz77
  split
  · exact ⟨_, rfl, ⟨by simp, by simp⟩, by simp⟩
  · refine Ret.bind' (loopM_spec (SplInv lz77.size maxblocks) (fun st => st.done.toList.count 0 + (lz77.size - st.splitpoints.length)) (fun sp => SplitOk lz77.size sp ∧ sp.length + 1 ≤ Max.max 1 maxblocks) (fun st hi => Ret.mono (splitStep_spec (F := F) h hi) (by rintro (st | r) h <;> exact h)) _
      ⟨rfl, by simp, by simp, ⟨by simp, by simp⟩, ⟨by simp only; omega, Nat.le_refl _, ?_, by simp⟩, by simp only; omega⟩) ?_
    · dsimp only
      rw [Array.getElem?_replicate, if_pos (by omega)]
    · rintro sp ⟨g1, g2⟩
      rw [logSplitPoints_spec g1, some_bind]
      exact ⟨_, rfl, g1, g2⟩

theorem sum_take_lt {data : Array UInt8} : ∀ {xs : List LitLen} {a b : Nat}, Parses data a xs b → ∀ {k l : Nat}, k < l → l ≤ xs.length →
    a + ((xs.take k).map LitLen.size).sum < a + ((xs.take l).map LitLen.size).sum
  | [], _, _, _, k, l, h1, h2 => by simp at h2; omega
  | x :: xs, a, b, h, k, l + 1, h1, h2 => by
    rw [List.length_cons] at h2
    have hx := LitLen.size_pos h.1
    rw [List.take_succ_cons, List.map_cons, List.sum_cons]
    cases k with
    | zero => simp; omega
    | succ k =>
      have := sum_take_lt h.2 (k := k) (l := l) (by omega) (by omega)
      rw [List.take_succ_cons, List.map_cons, List.sum_cons]
      omega

/-- The split points of the data: strictly increasing, strictly inside, within the limit. -/
theorem blocksplit_spec {data : Array UInt8} {instart inend : Nat} (h1 : instart ≤ inend) (h2 : inend ≤ data.size) (maxblocks : Nat) :
    Ret (blocksplit F data instart inend maxblocks) fun sp => sp.Pairwise (· < ·) ∧ (∀ x ∈ sp, instart < x ∧ x < inend) ∧
      sp.length + 1 ≤ Max.max 1 maxblocks := by
  obtain ⟨O, hO⟩ := oracle_exists (data.extract 0 inend) (instart - 32768)
  obtain ⟨s, hs, g⟩ := greedy_spec hO h1 h2
  obtain ⟨lmc', -, e⟩ := g .noCache trivial
  have e : greedy Lz77Store.new .noCache data instart inend = some (s, lmc') := e
  unfold blocksplit
  rw [e, some_bind]
  dsimp only
  refine Ret.bind' (blocksplitLz77_spec hs.inv maxblocks) ?_
  rintro sp ⟨h3, h4⟩
  split
  · rename_i hpos
    have hsize : s.size = s.litlens.toList.length := by simp [Lz77Store.size]
    obtain ⟨r, e, hsz, hr⟩ := convertSplits_ok h3 hpos instart
    rw [e, some_bind, guardR_eq (by simp only [decide_eq_true_eq]; exact hsz), some_bind]
    refine ⟨_, rfl, ?_⟩
    dsimp only
    rw [hr, List.length_map]
    refine ⟨?_, ?_, h4⟩
    · rw [List.pairwise_map]
      refine (List.Pairwise.and_mem.mp h3.1).imp ?_
      rintro a b ⟨ha, hb, hab⟩
      have := h3.2 b hb
      exact sum_take_lt hs.parses hab (by omega)
    · intro y hy
      obtain ⟨x, hx, rfl⟩ := List.mem_map.mp hy
      have := h3.2 x hx
      have a1 := sum_take_lt hs.parses (k := 0) (l := x) (by omega) (by omega)
      have a2 := sum_take_lt hs.parses (k := x) (l := s.litlens.toList.length) (by omega) (by omega)
      rw [List.take_length, ← hs.parses.stop] at a2
      rw [List.take_zero, List.map_nil, List.sum_nil] at a1
      omega
  · exact ⟨_, rfl, by simp, by simp, by simp⟩

end Zopfli
