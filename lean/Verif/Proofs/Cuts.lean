import Verif.Proofs.Sizes
import Verif.Proofs.Plan
import Verif.Spec.Cuts
/-! # Where blocks are cut -/

namespace Zopfli

variable {F : FloatOps}

/-! ## The search for the best cut -/

theorem findMinimumLinear_min (X : FloatExact F) {f : Nat → Option F.F64} {g : Nat → Nat} {start end_ : Nat} (h : start < end_)
    (hf : ∀ i, start ≤ i → i < end_ → f i = some (F.ofUsize (g i))) (hg : ∀ i, start ≤ i → i < end_ → g i < 2 ^ 53) :
    Ret (findMinimumLinear F f start end_) fun r => start ≤ r.1 ∧ r.1 < end_ ∧ r.2 = F.ofUsize (g r.1) ∧
      (∀ y, start ≤ y → y < end_ → g r.1 ≤ g y) ∧ ∀ y, start ≤ y → y < r.1 → g r.1 < g y := by
  unfold findMinimumLinear
  refine Ret.mono (forRange_spec (fun i (r : Nat × F.F64) => (i = start → r.2 = F.inf) ∧ (start < i →
      start ≤ r.1 ∧ r.1 < i ∧ r.2 = F.ofUsize (g r.1) ∧ (∀ y, start ≤ y → y < i → g r.1 ≤ g y) ∧ ∀ y, start ≤ y → y < r.1 → g r.1 < g y))
    (Nat.le_of_lt h) ⟨fun _ => rfl, fun hh => absurd hh (Nat.lt_irrefl _)⟩ ?_) fun r hr => hr.2 h
  rintro i ⟨res, best⟩ h1 h2 ⟨hr1, hr2⟩
  dsimp only at hr1 hr2 ⊢
  rw [hf i h1 h2, some_bind]
  by_cases hi : i = start
  · subst hi
    rw [hr1 rfl, X.lt_inf _ (hg _ h1 h2), if_pos rfl]
    refine ⟨_, rfl, fun hh => by omega, fun _ => ⟨Nat.le_refl _, by simp, rfl, ?_, ?_⟩⟩
    · intro y y1 y2
      rw [show y = i by omega]
    · intro y y1 y2
      dsimp only at y2
      omega
  · obtain ⟨a1, a2, a3, a4, a5⟩ := hr2 (by omega)
    rw [a3, X.lt _ _ (hg _ h1 h2) (hg _ a1 (by omega))]
    split
    · rename_i hc
      have hc := of_decide_eq_true hc
      refine ⟨_, rfl, fun hh => by omega, fun _ => ⟨h1, by simp, rfl, ?_, ?_⟩⟩
      · intro y y1 y2
        dsimp only
        by_cases e : y = i
        · rw [e]
        · have := a4 y y1 (by omega); omega
      · intro y y1 y2
        dsimp only at y2 ⊢
        have := a4 y y1 (by omega); omega
    · rename_i hc
      have hc : ¬ g i < g res := fun hh => hc (decide_eq_true hh)
      refine ⟨_, rfl, fun hh => by omega, fun _ => ⟨a1, by dsimp only; omega, rfl, ?_, a5⟩⟩
      intro y y1 y2
      dsimp only
      by_cases e : y = i
      · rw [e]; omega
      · exact a4 y y1 (by omega)

/-- One round of the search in a long range. -/
theorem findMinimumStep_min (X : FloatExact F) {f : Nat → Option F.F64} {g : Nat → Nat} {lo hi : Nat}
    (hf : ∀ i, lo ≤ i → i < hi → f i = some (F.ofUsize (g i))) (hg : ∀ i, lo ≤ i → i < hi → g i < 2 ^ 53)
    {start end_ pos : Nat} {lastbest : F.F64} (h1 : lo ≤ start) (h2 : start ≤ end_) (h3 : end_ ≤ hi) (h4 : lo ≤ pos) (h5 : pos < hi)
    (h6 : (end_ - start > 9 ∧ lastbest = F.inf) ∨ lastbest = F.ofUsize (g pos)) :
    Ret (findMinimumStep F f (start, end_, pos, lastbest)) fun r => match r with
      | .inl st => (lo ≤ st.1 ∧ st.1 ≤ st.2.1 ∧ st.2.1 ≤ hi ∧ lo ≤ st.2.2.1 ∧ st.2.2.1 < hi ∧ st.2.2.2 = F.ofUsize (g st.2.2.1)) ∧ st.2.1 - st.1 < end_ - start ∧
          (lastbest = F.ofUsize (g pos) → g st.2.2.1 ≤ g pos) ∧ ∀ i, i < 9 → g st.2.2.1 ≤ g (start + (i + 1) * ((end_ - start) / 10))
      | .inr r => lo ≤ r.1 ∧ r.1 < hi ∧ r.2 = F.ofUsize (g r.1) ∧ r.1 = pos ∧ lastbest = F.ofUsize (g pos) := by
  rw [findMinimumStep, usub_eq h2, some_bind]
  dsimp only [NUM]
  split
  · rename_i hgt
    have hm : 1 ≤ (end_ - start) / (9 + 1) := by omega
    have hm2 : (9 + 1) * ((end_ - start) / (9 + 1)) ≤ end_ - start := Nat.mul_div_le _ _
    rw [show (9 + 1 : Nat) = 10 from rfl] at hm hm2 ⊢
    generalize (end_ - start) / 10 = m at *
    have hp : ∀ i, i < 9 → lo ≤ start + (i + 1) * m ∧ start + (i + 1) * m < hi := by
      intro i hi
      have : (i + 1) * m ≤ 9 * m := Nat.mul_le_mul_right m (by omega)
      omega
    refine Ret.bind' (forRange_spec (fun j (r : Nat × F.F64) => (j = 0 → r.2 = F.inf) ∧ (0 < j → r.1 < 9 ∧
      r.2 = F.ofUsize (g (start + (r.1 + 1) * m)) ∧ ∀ i, i < j → g (start + (r.1 + 1) * m) ≤ g (start + (i + 1) * m))) (by omega)
      ⟨fun _ => rfl, fun hh => absurd hh (Nat.lt_irrefl _)⟩ ?_) ?_
    · rintro i ⟨bi, b⟩ _ hi ⟨r1, r2⟩
      obtain ⟨q1, q2⟩ := hp i hi
      dsimp only at r1 r2 ⊢
      rw [hf _ q1 q2, some_bind]
      by_cases h0 : i = 0
      · subst h0
        rw [r1 rfl, X.lt_inf _ (hg _ q1 q2), if_pos rfl]
        refine ⟨_, rfl, fun hh => by omega, fun _ => ⟨hi, rfl, ?_⟩⟩
        intro j hj
        rw [show j = 0 by omega]
      · obtain ⟨k1, k2, k3⟩ := r2 (by omega)
        obtain ⟨w1, w2⟩ := hp bi k1
        rw [k2, X.lt _ _ (hg _ q1 q2) (hg _ w1 w2)]
        split
        · rename_i hc
          have hc := of_decide_eq_true hc
          refine ⟨_, rfl, fun hh => by omega, fun _ => ⟨hi, rfl, ?_⟩⟩
          intro j hj
          dsimp only
          by_cases e : j = i
          · rw [e]
          · have := k3 j (by omega); omega
        · rename_i hc
          have hc : ¬ g (start + (i + 1) * m) < g (start + (bi + 1) * m) := fun hh => hc (decide_eq_true hh)
          refine ⟨_, rfl, fun hh => by omega, fun _ => ⟨k1, rfl, ?_⟩⟩
          intro j hj
          dsimp only
          by_cases e : j = i
          · rw [e]; omega
          · exact k3 j (by omega)
    · rintro ⟨bi, b⟩ ⟨-, hb⟩
      obtain ⟨hb, hbv, hbm⟩ := hb (by omega)
      dsimp only at hb hbv hbm ⊢
      obtain ⟨w1, w2⟩ := hp bi hb
      split
      · rename_i hc
        rcases h6 with ⟨-, h6⟩ | h6
        · rw [h6, hbv, X.inf_lt _ (hg _ w1 w2)] at hc
          cases hc
        · exact ⟨_, rfl, h4, h5, h6, rfl, h6⟩
      · rename_i hc
        have q1 : (bi + 1) * m = bi * m + m := Nat.succ_mul _ _
        have q2 : (bi + 1 + 1) * m = bi * m + m + m := by rw [Nat.succ_mul, q1]
        have q3 : bi * m ≤ 8 * m := Nat.mul_le_mul_right m (by omega)
        have hge : lastbest = F.ofUsize (g pos) → g (start + (bi + 1) * m) ≤ g pos := by
          intro hl
          rw [hl, hbv, X.lt _ _ (hg _ h4 h5) (hg _ w1 w2)] at hc
          exact Nat.le_of_not_lt fun hh => hc (decide_eq_true hh)
        refine ⟨_, rfl, ?_⟩
        dsimp only
        refine ⟨?_, ?_, hge, hbm⟩
        · refine ⟨?_, ?_, ?_, w1, w2, hbv⟩
          · split <;> omega
          all_goals rw [q2]
          all_goals
            by_cases hb0 : bi = 0
            · subst hb0
              simp only [if_pos, show ¬ (0 = 9 - 1) by omega, if_false]
              omega
            · try rw [show bi - 1 + 1 = bi by omega]
              by_cases hb8 : bi = 9 - 1
              · simp only [hb8, if_true, show ¬ (9 - 1 = 0) by omega, if_false]
                omega
              · have q4 : bi * m ≤ 7 * m := Nat.mul_le_mul_right m (by omega)
                simp only [hb8, hb0, if_false]
                omega
        · rw [q2]
          by_cases hb0 : bi = 0
          · subst hb0
            rw [if_pos rfl, if_neg (by omega)]
            omega
          · rw [if_neg hb0, show bi - 1 + 1 = bi by omega]
            by_cases hb8 : bi = 9 - 1
            · rw [if_pos hb8, hb8]
              omega
            · rw [if_neg hb8]
              have q4 : bi * m ≤ 7 * m := Nat.mul_le_mul_right m (by omega)
              omega
  · rename_i hgt
    rcases h6 with ⟨h6, -⟩ | h6
    · exact absurd h6 hgt
    · exact ⟨_, rfl, h4, h5, h6, rfl, h6⟩

/-- The result of `find_minimum` is a minimum of short ranges and of the nine first samples of long ones. -/
theorem findMinimum_min (X : FloatExact F) {f : Nat → Option F.F64} {g : Nat → Nat} {start end_ : Nat} (h : start < end_)
    (hf : ∀ i, start ≤ i → i < end_ → f i = some (F.ofUsize (g i))) (hg : ∀ i, start ≤ i → i < end_ → g i < 2 ^ 53) :
    Ret (findMinimum F f start end_) fun r => start ≤ r.1 ∧ r.1 < end_ ∧ r.2 = F.ofUsize (g r.1) ∧
      (end_ - start < 1024 → (∀ y, start ≤ y → y < end_ → g r.1 ≤ g y) ∧ ∀ y, start ≤ y → y < r.1 → g r.1 < g y) ∧
      (1024 ≤ end_ - start → ∀ i, i < 9 → g r.1 ≤ g (start + (i + 1) * ((end_ - start) / 10))) := by
  unfold findMinimum
  rw [usub_eq (by omega), some_bind]
  split
  · rename_i hlt
    refine Ret.mono (findMinimumLinear_min X h hf hg) ?_
    rintro r ⟨a1, a2, a3, a4, a5⟩
    exact ⟨a1, a2, a3, fun _ => ⟨a4, a5⟩, fun hh => by omega⟩
  · rename_i hge
    refine loopM_spec (fun st => start ≤ st.1 ∧ st.1 ≤ st.2.1 ∧ st.2.1 ≤ end_ ∧ start ≤ st.2.2.1 ∧ st.2.2.1 < end_ ∧
        ((st.1 = start ∧ st.2.1 = end_ ∧ st.2.2.2 = F.inf) ∨ (st.2.2.2 = F.ofUsize (g st.2.2.1) ∧
          ∀ i, i < 9 → g st.2.2.1 ≤ g (start + (i + 1) * ((end_ - start) / 10)))))
      (fun st => st.2.1 - st.1) _ ?_ _ ?_
    · rintro ⟨a, b, c, d⟩ ⟨i1, i2, i3, i4, i5, i6⟩
      dsimp only at i1 i2 i3 i4 i5 i6
      refine Ret.mono (findMinimumStep_min X hf hg (lastbest := d) i1 i2 i3 i4 i5 ?_) ?_
      · rcases i6 with ⟨rfl, rfl, rfl⟩ | ⟨i6, -⟩
        · exact .inl ⟨by omega, rfl⟩
        · exact .inr i6
      · rintro (⟨a', b', c', d'⟩ | ⟨p, v⟩) hr
        · dsimp only at hr ⊢
          obtain ⟨⟨k1, k2, k3, k4, k5, k6⟩, k7, k8, k9⟩ := hr
          refine ⟨⟨k1, k2, k3, k4, k5, .inr ⟨k6, ?_⟩⟩, k7⟩
          rcases i6 with ⟨rfl, rfl, rfl⟩ | ⟨i6, i7⟩
          · exact k9
          · intro i hi
            exact Nat.le_trans (k8 i6) (i7 i hi)
        · dsimp only at hr ⊢
          obtain ⟨k1, k2, k3, rfl, k5⟩ := hr
          refine ⟨k1, k2, k3, fun hh => by omega, fun _ => ?_⟩
          rcases i6 with ⟨rfl, rfl, rfl⟩ | ⟨i6, i7⟩
          · have h1 := X.inf_lt _ (hg _ k1 k2)
            have h2 := X.lt_inf _ (hg _ k1 k2)
            rw [← k5] at h1 h2
            rw [h1] at h2
            cases h2
          · exact i7
    · dsimp only
      exact ⟨Nat.le_refl _, by omega, Nat.le_refl _, Nat.le_refl _, by omega, .inl ⟨rfl, rfl, rfl⟩⟩

/-! ## The largest block that has not been given up -/

/-- The largest block, the last one being looked at without its last item. -/
def Short (n : Nat) (sp : List Nat) (a e : Nat) : Prop := ∃ b, IsBlock n sp a b ∧ e = if b = n then b - 1 else b

theorem findLargestLoop_max {n : Nat} {done : Array Nat} (hd : done.size = n) {sp : List Nat} (hs : SplitOk n sp) :
    ∀ (rest pre : List Nat) (longest : Nat) (found : Option (Nat × Nat)) (last : Nat), sp = pre ++ rest → (∀ x ∈ pre, x ≤ last) →
      (last = 0 ∨ last ∈ sp) → last < n → (∀ x ∈ rest, last < x) →
      (∀ a b, IsBlock n sp a b → b ≤ last → done[a]? = some 0 → b - a ≤ longest) →
      (found = none → longest = 0) → (∀ p, found = some p → IsBlock n sp p.1 p.2 ∧ p.2 < n ∧ done[p.1]? = some 0 ∧ longest = p.2 - p.1) →
      Ret (findLargestLoop done rest (longest, found, last)) fun r => r.2.2 < n ∧ (∀ x ∈ sp, x ≤ r.2.2) ∧ (r.2.2 = 0 ∨ r.2.2 ∈ sp) ∧
        (∀ a b, IsBlock n sp a b → b < n → done[a]? = some 0 → b - a ≤ r.1) ∧ (r.2.1 = none → r.1 = 0) ∧
        ∀ p, r.2.1 = some p → IsBlock n sp p.1 p.2 ∧ p.2 < n ∧ done[p.1]? = some 0 ∧ r.1 = p.2 - p.1
  | [], pre, longest, found, last, e, h1, h1', h2, h3, h4, h5, h6 => by
    rw [List.append_nil] at e
    subst e
    refine ⟨_, rfl, h2, h1, h1', ?_, h5, h6⟩
    intro a b hb hbn
    rcases hb.right with rfl | hm
    · exact absurd hbn (Nat.lt_irrefl _)
    · exact h4 a b hb (h1 b hm)
  | item :: rest, pre, longest, found, last, e, h1, h1', h2, h3, h4, h5, h6 => by
    have hlast : last < item := h3 item (by simp)
    have hmem : item ∈ sp := by rw [e]; simp
    have hitem : item < n := (hs.2 item hmem).2
    have hp := hs.1
    rw [e, List.pairwise_append, List.pairwise_cons] at hp
    have hblk : IsBlock n sp last item := by
      refine ⟨hlast, h1', .inr hmem, ?_⟩
      intro x hx
      rw [e, List.mem_append, List.mem_cons] at hx
      rcases hx with hx | rfl | hx
      · have := h1 x hx; omega
      · omega
      · have := hp.2.1.1 x hx; omega
    have hnew : ∀ longest', longest ≤ longest' → (done[last]? = some 0 → item - last ≤ longest') →
        ∀ a b, IsBlock n sp a b → b ≤ item → done[a]? = some 0 → b - a ≤ longest' := by
      intro longest' k1 k2 a b hb hbi hda
      by_cases hle : b ≤ last
      · have := h4 a b hb hle hda; omega
      · have hbe : b = item := by
          rcases hb.right with rfl | hm
          · omega
          · rw [e, List.mem_append, List.mem_cons] at hm
            rcases hm with hm | rfl | hm
            · have := h1 b hm; omega
            · rfl
            · have := hp.2.1.1 b hm; omega
        have hae : a = last := by
          have w1 := hb.whole
          have w2 := hblk.whole
          have hlt := hb.lt
          rcases Nat.lt_trichotomy a last with hh | hh | hh
          · rcases h1' with rfl | hm
            · omega
            · exact absurd ⟨hh, by omega⟩ (w1 last hm)
          · exact hh
          · rcases hb.left with rfl | hm
            · omega
            · exact absurd ⟨hh, by omega⟩ (w2 a hm)
        subst hae hbe
        exact k2 hda
    have hpre : ∀ x ∈ pre ++ [item], x ≤ item := by
      intro x hx
      rw [List.mem_append] at hx
      rcases hx with hx | hx
      · have := h1 x hx; omega
      · simp at hx; omega
    rw [findLargestLoop, Array.getElem?_eq_getElem (by omega), some_bind, usub_eq (by omega), some_bind]
    split
    · rename_i hc
      refine findLargestLoop_max hd hs rest (pre ++ [item]) _ _ item (by simp [e]) hpre (.inr hmem) hitem hp.2.1.1
        (hnew _ (by omega) fun _ => Nat.le_refl _) (by simp) ?_
      rintro p ⟨⟩
      exact ⟨hblk, hitem, by rw [Array.getElem?_eq_getElem (by omega), hc.1], rfl⟩
    · rename_i hc
      refine findLargestLoop_max hd hs rest (pre ++ [item]) _ _ item (by simp [e]) hpre (.inr hmem) hitem hp.2.1.1
        (hnew _ (Nat.le_refl _) fun hh => ?_) h5 h6
      rw [Array.getElem?_eq_getElem (by omega)] at hh
      have := Option.some.inj hh
      omega

theorem findLargest_max {n : Nat} {done : Array Nat} (hd : done.size = n) {sp : List Nat} (hs : SplitOk n sp) (hn : 0 < n) :
    Ret (findLargestSplittableBlock n done sp) fun r => (∀ p, r = some p → Short n sp p.1 p.2 ∧ done[p.1]? = some 0) ∧
      ∀ a e, Short n sp a e → done[a]? = some 0 → e - a ≤ (r.map fun p => p.2 - p.1).getD 0 := by
  unfold findLargestSplittableBlock
  refine Ret.bind' (findLargestLoop_max hd hs sp [] 0 none 0 rfl (by simp) (.inl rfl) hn (fun x hx => (hs.2 x hx).1)
    (fun a b hb h0 => by have := hb.lt; omega) (fun _ => rfl) (by intro p h; cases h)) ?_
  rintro ⟨longest, found, last⟩ ⟨h1, h2, h3, h4, h5, h6⟩
  dsimp only at h1 h2 h3 h4 h5 h6 ⊢
  rw [usub_eq (by omega), some_bind, Array.getElem?_eq_getElem (by omega), some_bind, usub_eq (by omega), some_bind]
  have hblk : IsBlock n sp last n := ⟨h1, h3, .inl rfl, fun x hx => by have := h2 x hx; omega⟩
  have hall : ∀ longest', longest ≤ longest' → (done[last]? = some 0 → n - 1 - last ≤ longest') →
      ∀ a e, Short n sp a e → done[a]? = some 0 → e - a ≤ longest' := by
    rintro longest' k1 k2 a e ⟨b, hb, rfl⟩ hda
    by_cases hbn : b = n
    · subst hbn
      rw [if_pos rfl]
      have hae : a = last := by
        have hlt := hb.lt
        rcases Nat.lt_trichotomy a last with hh | hh | hh
        · rcases h3 with rfl | hm
          · omega
          · exact absurd ⟨hh, by omega⟩ (hb.whole last hm)
        · exact hh
        · rcases hb.left with rfl | hm
          · omega
          · have := h2 a hm; omega
      subst hae
      exact k2 hda
    · rw [if_neg hbn]
      have : b < n := by
        rcases hb.right with hh | hm
        · exact absurd hh hbn
        · exact (hs.2 b hm).2
      have := h4 a b hb this hda
      omega
  split
  · rename_i hc
    refine ⟨_, rfl, ?_, ?_⟩
    · rintro p ⟨⟩
      exact ⟨⟨n, hblk, by simp⟩, by rw [Array.getElem?_eq_getElem (by omega), hc.1]⟩
    · exact hall (n - 1 - last) (by omega) fun _ => Nat.le_refl _
  · rename_i hc
    refine ⟨_, rfl, ?_, ?_⟩
    · intro p hp
      obtain ⟨g1, g2, g3, g4⟩ := h6 p hp
      exact ⟨⟨p.2, g1, by rw [if_neg (by omega)]⟩, g3⟩
    · have hw : (found.map fun p => p.2 - p.1).getD 0 = longest := by
        cases found with
        | none => exact (h5 rfl).symm
        | some p => exact (h6 p rfl).2.2.2.symm
      rw [hw]
      refine hall _ (Nat.le_refl _) fun hh => ?_
      rw [Array.getElem?_eq_getElem (by omega)] at hh
      have := Option.some.inj hh
      omega

/-! ## Cutting -/

/-- The block was given up: its best cut is not worth it. -/
def GivenUp (cost : Nat → Nat → Nat) (a e : Nat) : Prop := ∃ x, BestCut cost a e x ∧ (x = a + 1 ∨ cost a e < cutCost cost a e x)

theorem IsBlock.unique {n : Nat} {sp : List Nat} {a b a' b' x : Nat} (h : IsBlock n sp a b) (h' : IsBlock n sp a' b') (h1 : a < x) (h2 : x < b)
    (h3 : a' < x) (h4 : x < b') : a = a' := by
  rcases Nat.lt_trichotomy a a' with hh | hh | hh
  · rcases h'.left with rfl | hm
    · omega
    · exact absurd ⟨hh, by omega⟩ (h.whole a' hm)
  · exact hh
  · rcases h.left with rfl | hm
    · omega
    · exact absurd ⟨hh, by omega⟩ (h'.whole a hm)

theorem Examined.block {n : Nat} {sp : List Nat} {a e : Nat} (h : Examined n sp a e) : ∃ b, IsBlock n sp a b ∧ e ≤ b := by
  obtain ⟨b, hb, rfl⟩ := h
  exact ⟨b, hb, by split <;> omega⟩

/-- A cut elsewhere does not change what is examined. -/
theorem Examined.keep {n : Nat} {sp sp' : List Nat} {a e a' e' x : Nat} (h : Examined n sp a e) (h' : Examined n sp a' e') (hne : a ≠ a')
    (h1 : a' < x) (h2 : x < e') (hp : sp'.Perm (x :: sp)) : Examined n sp' a e := by
  obtain ⟨b, hb, rfl⟩ := h
  obtain ⟨b', hb', hle⟩ := h'.block
  have hmem : ∀ y, y ∈ sp' ↔ y = x ∨ y ∈ sp := fun y => by rw [hp.mem_iff, List.mem_cons]
  have hsp' : sp' ≠ [] := by
    intro e
    have := (hmem x).mpr (.inl rfl)
    rw [e] at this
    cases this
  have hsp : sp ≠ [] := by
    rintro rfl
    have k1 := hb.left
    have k2 := hb'.left
    simp only [List.not_mem_nil, or_false] at k1 k2
    omega
  refine ⟨b, ⟨hb.lt, ?_, ?_, ?_⟩, ?_⟩
  · rcases hb.left with h | h
    · exact .inl h
    · exact .inr ((hmem _).mpr (.inr h))
  · rcases hb.right with h | h
    · exact .inl h
    · exact .inr ((hmem _).mpr (.inr h))
  · intro y hy
    rcases (hmem y).mp hy with rfl | hy
    · rintro ⟨k1, k2⟩
      exact hne (hb.unique hb' k1 k2 h1 (by omega))
    · exact hb.whole y hy
  · simp only [hsp, hsp', ne_eq, not_false_eq_true]

/-- What holds in the loop of `blocksplit_lz77`. -/
structure CutInv (cost : Nat → Nat → Nat) (n maxblocks : Nat) (s : SplitState) : Prop where
  base : SplInv n maxblocks s
  examined : Examined n s.splitpoints s.lstart s.lend
  cuts : CutOneByOne cost n s.splitpoints
  given : ∀ a, a < n → s.done[a]? ≠ some 0 → ∃ e, Examined n s.splitpoints a e ∧ GivenUp cost a e

/-- The costs are known. -/
def CostsOk (F : FloatOps) (cost : Nat → Nat → Nat) (s : Lz77Store) : Prop :=
  ∀ a b, a < b → b ≤ s.size → estimateCost F s a b = some (F.ofUsize (cost a b)) ∧ cost a b < 2 ^ 52

/-- What holds after a step. -/
def CutPost (cost : Nat → Nat → Nat) (n maxblocks : Nat) : SplitState ⊕ List Nat → Prop
  | .inl st => CutInv cost n maxblocks st
  | .inr sp => CutOneByOne cost n sp ∧ (sp.length + 1 < maxblocks → NothingLeftToCut cost n sp)

theorem splitStep_cuts (X : FloatExact F) {lz77 : Lz77Store} {cost : Nat → Nat → Nat} (h : StoreInv lz77) (hc : CostsOk F cost lz77) {maxblocks : Nat} {st : SplitState}
    (hi : CutInv cost lz77.size maxblocks st) :
    Ret (splitStep F lz77 maxblocks st) (CutPost cost lz77.size maxblocks) := by
  obtain ⟨r, er, hr⟩ := splitStep_spec (F := F) h hi.base
  refine ⟨r, er, ?_⟩
  obtain ⟨⟨h1, h2, h3, h4, h5, h6⟩, hex, hcut, hgiv⟩ := hi
  obtain ⟨numblocks, done, lstart, lend, sp⟩ := st
  dsimp only at h1 h2 h3 h4 h5 h6 hex hcut hgiv
  have hle := h5.le
  dsimp only at hle
  rw [splitStep] at er
  split at er
  · rename_i hmax
    rw [guardR_eq (by simp only [decide_eq_true_eq]; omega), some_bind] at er
    have hcost : ∀ i, lstart + 1 ≤ i → i < lend → (do return F.add (← estimateCost F lz77 lstart i) (← estimateCost F lz77 i lend)) =
        some (F.ofUsize (cutCost cost lstart lend i)) := by
      intro i i1 i2
      obtain ⟨e1, l1⟩ := hc lstart i (by omega) (by omega)
      obtain ⟨e2, l2⟩ := hc i lend (by omega) (by omega)
      rw [e1, some_bind, e2, some_bind, X.add _ _ (by omega)]
      rfl
    have hcl : ∀ i, lstart + 1 ≤ i → i < lend → cutCost cost lstart lend i < 2 ^ 53 := by
      intro i i1 i2
      obtain ⟨-, l1⟩ := hc lstart i (by omega) (by omega)
      obtain ⟨-, l2⟩ := hc i lend (by omega) (by omega)
      unfold cutCost
      omega
    obtain ⟨⟨llpos, splitcost⟩, em, m1, m2, m3, m4, m5⟩ := findMinimum_min X (by omega : lstart + 1 < lend) hcost hcl
    rw [em, some_bind] at er
    dsimp only at m1 m2 m3 m4 m5 er
    obtain ⟨eo, lo⟩ := hc lstart lend (by omega) (by omega)
    rw [guardR_eq (by simp only [decide_eq_true_eq]; omega), some_bind, eo, some_bind, m3, X.lt _ _ (by omega) (hcl _ m1 m2)] at er
    have hbest : BestCut cost lstart lend llpos := by
      refine ⟨by omega, m2, fun hh y y1 y2 => (m4 (by omega)).1 y y1 y2, fun hh y y1 y2 => (m4 (by omega)).2 y y1 y2, fun hh i hi => ?_⟩
      have := m5 (by omega) i hi
      rw [show lend - (lstart + 1) = lend - lstart - 1 by omega] at this
      exact this
    -- the end of the step
    have tail : ∀ (done' : Array Nat) (sp' : List Nat) (nb' : Nat), done'.size = lz77.size → SplitOk lz77.size sp' → CutOneByOne cost lz77.size sp' →
        (∀ a, a < lz77.size → done'[a]? ≠ some 0 → ∃ e, Examined lz77.size sp' a e ∧ GivenUp cost a e) →
        (sp' = [] → done'[0]? ≠ some 0) →
        (do
          match ← findLargestSplittableBlock lz77.size done' sp' with
          | none => return .inr sp'
          | some (start, end_) =>
            if (← usub end_ start) < 10 then return .inr sp'
            else return .inl ⟨nb', done', start, end_, sp'⟩ : Option (SplitState ⊕ List Nat)) = some r →
        CutPost cost lz77.size maxblocks r := by
      intro done' sp' nb' t1 t2 t3 t4 t5 hrun
      obtain ⟨fl, efl, f1, f2⟩ := findLargest_max t1 t2 (by omega)
      rw [efl, some_bind] at hrun
      have hshort : ∀ a e, Examined lz77.size sp' a e → done'[a]? = some 0 → Short lz77.size sp' a e := by
        rintro a e ⟨b, hb, rfl⟩ h0
        refine ⟨b, hb, ?_⟩
        by_cases hn : sp' = []
        · have := t5 hn
          have k := hb.left
          rw [hn] at k
          simp only [List.not_mem_nil, or_false] at k
          rw [k] at h0
          exact absurd h0 this
        · simp only [hn, ne_eq, not_false_eq_true, and_true]
      have hend : (fl.map fun p => p.2 - p.1).getD 0 < 10 → NothingLeftToCut cost lz77.size sp' := by
        intro hlt a e hae
        by_cases h0 : done'[a]? = some 0
        · left
          have := f2 a e (hshort a e hae h0) h0
          omega
        · obtain ⟨b, hb, hbe⟩ := hae
          have ha : a < lz77.size := by
            have := hb.lt
            rcases hb.right with rfl | hm
            · exact this
            · have := (t2.2 b hm).2; omega
          obtain ⟨e', ⟨b', hb', hbe'⟩, hg⟩ := t4 a ha h0
          have : b = b' := by
            have w1 := hb.lt
            have w2 := hb'.lt
            rcases Nat.lt_trichotomy b b' with hh | hh | hh
            · rcases hb.right with rfl | hm
              · rcases hb'.right with rfl | hm'
                · omega
                · have := (t2.2 b' hm').2; omega
              · exact absurd ⟨w1, hh⟩ (hb'.whole b hm)
            · exact hh
            · rcases hb'.right with rfl | hm
              · rcases hb.right with rfl | hm'
                · omega
                · have := (t2.2 b hm').2; omega
              · exact absurd ⟨w2, hh⟩ (hb.whole b' hm)
          subst this
          rw [← hbe'] at hbe
          subst hbe
          exact .inr hg
      rcases fl with _ | ⟨a, b⟩
      · cases hrun
        exact ⟨t3, fun _ => hend (by simp)⟩
      · obtain ⟨⟨b', hb', hbe⟩, g2⟩ := f1 _ rfl
        dsimp only at hb' hbe g2 hrun
        have hab : a ≤ b := by
          have := hb'.lt
          rw [hbe]
          split <;> omega
        rw [usub_eq hab, some_bind] at hrun
        split at hrun
        · rename_i hlt
          cases hrun
          exact ⟨t3, fun _ => hend (by simpa using hlt)⟩
        · cases hrun
          refine ⟨hr.1, ⟨b', hb', ?_⟩, t3, t4⟩
          have hn : sp' ≠ [] := by
            intro hn
            have k := hb'.left
            rw [hn] at k
            simp only [List.not_mem_nil, or_false] at k
            rw [k] at g2
            exact t5 hn g2
          rw [hbe]
          simp only [hn, ne_eq, not_false_eq_true, and_true]
    split at er
    · rename_i hcnd
      rw [aset_eq (by omega), some_bind, some_bind] at er
      refine tail _ sp numblocks (by simp [h3]) h4 hcut ?_ ?_ er
      · intro a ha hne
        by_cases hal : a = lstart
        · subst hal
          refine ⟨lend, hex, llpos, hbest, ?_⟩
          rcases hcnd with hlt | hl | hl
          · exact .inr (of_decide_eq_true hlt)
          · exact .inl hl
          · omega
        · refine hgiv a ha ?_
          rw [Array.getElem?_set_ne (by omega) (by omega)] at hne
          exact hne
      · intro hn
        obtain ⟨b, hb, -⟩ := hex
        have k := hb.left
        rw [hn] at k
        simp only [List.not_mem_nil, or_false] at k
        subst k
        simp
    · rename_i hcnd
      rw [some_bind] at er
      push Not at hcnd
      have hnotin : llpos ∉ sp := fun hx => h5.none llpos hx ⟨by dsimp only; omega, by dsimp only; omega⟩
      have hok := splitOk_insert h4 (x := llpos) (by omega) (by omega) hnotin
      have hperm : ((sp ++ [llpos]).mergeSort fun a b => decide (a ≤ b)).Perm (llpos :: sp) :=
        (List.mergeSort_perm _ _).trans (List.perm_append_singleton llpos sp)
      refine tail done _ (numblocks + 1) h3 hok (.cut hcut hex (by omega) hbest hcnd.2.1 ?_ hperm hok.1) ?_ ?_ er
      · exact Nat.le_of_not_lt fun hh => hcnd.1 (decide_eq_true hh)
      · intro a ha hne
        obtain ⟨e, he, hg⟩ := hgiv a ha hne
        refine ⟨e, he.keep hex ?_ (by omega) m2 hperm, hg⟩
        rintro rfl
        exact hne h5.done
      · intro hn
        have := hperm.length_eq
        rw [hn] at this
        simp at this
  · rename_i hmax
    cases er
    exact ⟨hcut, fun hlt => by omega⟩

/-- The cuts made by `blocksplit_lz77`. -/
theorem blocksplitLz77_cuts (X : FloatExact F) {lz77 : Lz77Store} {cost : Nat → Nat → Nat} (h : StoreInv lz77) (hc : CostsOk F cost lz77) (maxblocks : Nat) :
    Ret (blocksplitLz77 F lz77 maxblocks) fun sp => CutOneByOne cost lz77.size sp ∧
      (sp.length + 1 < maxblocks → 10 ≤ lz77.size → NothingLeftToCut cost lz77.size sp) := by
  obtain ⟨sp, e, hsp⟩ := blocksplitLz77_spec (F := F) h maxblocks
  refine ⟨sp, e, ?_⟩
  unfold blocksplitLz77 at e
  split at e
  · cases e
    exact ⟨.nil, fun _ hh => by omega⟩
  · rename_i hlt
    have hinit : CutInv cost lz77.size maxblocks ⟨1, Array.replicate lz77.size 0, 0, lz77.size, []⟩ := by
      refine ⟨⟨rfl, by simp, by simp, ⟨by simp, by simp⟩, ⟨by simp only; omega, Nat.le_refl _, ?_, by simp⟩, by simp only; omega⟩,
        ⟨lz77.size, ⟨by simp only; omega, .inl rfl, .inl rfl, by simp⟩, by simp⟩, .nil, ?_⟩
      · dsimp only
        rw [Array.getElem?_replicate, if_pos (by omega)]
      · intro a ha hne
        dsimp only at hne
        rw [Array.getElem?_replicate, if_pos (by omega)] at hne
        exact absurd rfl hne
    obtain ⟨sp', e', g1, g2⟩ := loopM_spec (CutInv cost lz77.size maxblocks)
      (fun st => st.done.toList.count 0 + (lz77.size - st.splitpoints.length))
      (fun sp => CutOneByOne cost lz77.size sp ∧ (sp.length + 1 < maxblocks → NothingLeftToCut cost lz77.size sp))
      (fun st hi => by
        obtain ⟨r, e1, k1⟩ := splitStep_spec (F := F) h hi.base
        obtain ⟨r', e2, k2⟩ := splitStep_cuts X h hc hi
        rw [e1] at e2
        cases e2
        refine ⟨r, e1, ?_⟩
        rcases r with st | r
        · exact ⟨k2, k1.2⟩
        · exact k2) _ hinit
    rw [e', some_bind] at e
    simp only [Option.bind_eq_bind, Option.bind_eq_some_iff] at e
    obtain ⟨_, -, e⟩ := e
    cases e
    exact ⟨g1, fun hh _ => g2 hh⟩

end Zopfli
