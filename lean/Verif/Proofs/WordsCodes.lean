import Verif.Model.Words
import Verif.Proofs.Katajainen2
/-! # The weights in the package merge fit in a machine word

The elements of list `j` ever produced are the leaves and the packages of list `j - 1`; so the sum of the elements of list `j` is at most the
sum of the leaf weights plus the sum of the elements of list `j - 1`.  A list that has run out (list 0 only can, and then the lookahead values
are used again) adds at most the sum of all leaf weights for every package made of it. -/

namespace Zopfli.Words
open Katajainen

set_option linter.unusedSectionVars false
variable [Checks]

theorem usize_eq {W x : Nat} (h : x < 2 ^ W) : usize W x = some x := by
  unfold usize; rw [if_pos h]

/-- Sum of all leaf weights. -/
def total (leaves : Array Leaf) : Nat := (leaves.toList.map (·.weight)).sum

/-- Sum of the first leaf weights. -/
def pre (leaves : Array Leaf) (c : Nat) : Nat := ((leaves.toList.take c).map (·.weight)).sum

theorem pre_succ {leaves : Array Leaf} {c : Nat} (h : c < leaves.size) : pre leaves (c + 1) = pre leaves c + leaves[c].weight := by
  unfold pre
  rw [List.take_succ_eq_append_getElem (by simpa using h)]
  simp

theorem pre_le (leaves : Array Leaf) (c : Nat) : pre leaves c ≤ total leaves := by
  unfold pre total
  conv_rhs => rw [← List.take_append_drop c leaves.toList]
  rw [List.map_append, List.sum_append]
  exact Nat.le_add_right _ _

theorem size_le_total {leaves : Array Leaf} (hl : LeavesOk leaves) : leaves.size ≤ total leaves := by
  have : ∀ c, c ≤ leaves.size → c ≤ pre leaves c := by
    intro c
    induction c with
    | zero => intro _; exact Nat.zero_le _
    | succ c ih =>
      intro h
      have h1 := ih (by omega)
      have h2 := hl.pos c (by omega)
      rw [pre_succ (by omega)]
      omega
  exact Nat.le_trans (this _ (Nat.le_refl _)) (pre_le _ _)

def e0 (lists : Array PmList) (j : Nat) : Nat := match lists[j]? with | some l => l.lookahead0.weight | none => 0
def e1 (lists : Array PmList) (j : Nat) : Nat := match lists[j]? with | some l => l.lookahead1.weight | none => 0
def cc (lists : Array PmList) (j : Nat) : Nat := match lists[j]? with | some l => l.lookahead1.count | none => 0

theorem e0_get {lists : Array PmList} {j : Nat} (h : j < lists.size) : e0 lists j = lists[j].lookahead0.weight := by
  unfold e0; rw [Array.getElem?_eq_getElem h]
theorem e1_get {lists : Array PmList} {j : Nat} (h : j < lists.size) : e1 lists j = lists[j].lookahead1.weight := by
  unfold e1; rw [Array.getElem?_eq_getElem h]
theorem cc_get {lists : Array PmList} {j : Nat} (h : j < lists.size) : cc lists j = lists[j].lookahead1.count := by
  unfold cc; rw [Array.getElem?_eq_getElem h]
theorem e_congr {a b : Array PmList} {j : Nat} (h : a[j]? = b[j]?) : e0 a j = e0 b j ∧ e1 a j = e1 b j ∧ cc a j = cc b j := by
  unfold e0 e1 cc; rw [h]; exact ⟨rfl, rfl, rfl⟩
theorem e_set_ne {a : Array PmList} {i j : Nat} {l : PmList} (h : i < a.size) (hne : i ≠ j) :
    e0 (a.set i l h) j = e0 a j ∧ e1 (a.set i l h) j = e1 a j ∧ cc (a.set i l h) j = cc a j :=
  e_congr (by rw [Array.getElem?_set_ne h hne])
theorem e_set {a : Array PmList} {i : Nat} {l : PmList} (h : i < a.size) :
    e0 (a.set i l h) i = l.lookahead0.weight ∧ e1 (a.set i l h) i = l.lookahead1.weight ∧ cc (a.set i l h) i = l.lookahead1.count := by
  unfold e0 e1 cc; rw [Array.getElem?_set_self h]; exact ⟨rfl, rfl, rfl⟩

/-- `C j` bounds the sum of the elements of list `j` so far. -/
structure GInv (leaves : Array Leaf) (index : Nat) (lists : Array PmList) (t C : Nat → Nat) : Prop where
  g0 : e0 lists 0 + e1 lists 0 ≤ pre leaves (cc lists 0)
  l : ∀ j, 1 ≤ j → j ≤ index → e0 lists j + e1 lists j ≤ C j
  g1 : 1 ≤ index → C 1 ≤ pre leaves (cc lists 1) + (t 1 - cc lists 1) * total leaves
  gj : ∀ j, 1 ≤ j → j + 1 ≤ index → C (j + 1) + (e0 lists j + e1 lists j) ≤ pre leaves (cc lists (j + 1)) + C j

/-- The numbers of elements needed below. -/
theorem packs_le {leaves : Array Leaf} (hn : 3 ≤ leaves.size) {j : Nat} {l : PmList} {t : Nat} (h : ListOk leaves j l t)
    (ht : t ≤ 2 * leaves.size - 2) : t - l.lookahead1.count ≤ leaves.size - 2 := by
  rcases Nat.lt_or_ge (TT leaves.size j) t with hx | hx
  · have := (h.x hx).count
    omega
  · have hN := h.n hx
    have h1 := mOf_lt hN.valid
    have h2 := (count_le_n hN.valid).1
    rw [hN.m] at h1
    omega

theorem t_le {leaves : Array Leaf} (hn : 3 ≤ leaves.size) {index : Nat} (hi : index < 15) {lists : Array PmList} {t : Nat → Nat}
    (inv : Inv leaves index lists t) (ht : t index ≤ 2 * leaves.size - 2) : ∀ d, d ≤ index → t (index - d) ≤ 2 * leaves.size - 2
  | 0, _ => ht
  | d + 1, hd => by
    have ih := t_le hn hi inv ht d (by omega)
    have hk := (inv.link (index - (d + 1)) (by omega) (by omega)).t
    have hp := packs_le hn (inv.ok (index - d) (by omega) (by omega)) ih
    have e : index - (d + 1) + 1 = index - d := by omega
    simp only [e] at hk
    omega

/-- The numbers of elements are determined by the lists and the top number. -/
theorem t_unique {leaves : Array Leaf} {index : Nat} (hi : index < 15) {lists : Array PmList} {t t' : Nat → Nat}
    (inv : Inv leaves index lists t) (inv' : Inv leaves index lists t') (h : t index = t' index) : ∀ d, d ≤ index → t (index - d) = t' (index - d)
  | 0, _ => h
  | d + 1, hd => by
    have ih := t_unique hi inv inv' h d (by omega)
    have h1 := (inv.link (index - (d + 1)) (by omega) (by omega)).t
    have h2 := (inv'.link (index - (d + 1)) (by omega) (by omega)).t
    have e : index - (d + 1) + 1 = index - d := by omega
    simp only [e] at h1 h2
    rw [h1, h2, ih]

theorem GInv.bound {leaves : Array Leaf} (hn : 3 ≤ leaves.size) {index : Nat} (hi : index < 15) {lists : Array PmList} {t C : Nat → Nat}
    (inv : Inv leaves index lists t) (g : GInv leaves index lists t C) (ht : t index ≤ 2 * leaves.size - 2) :
    ∀ j, 1 ≤ j → j ≤ index → C j ≤ (leaves.size + j) * total leaves
  | 0, h, _ => by omega
  | 1, _, h1 => by
    have := g.g1 h1
    have h2 := t_le hn hi inv ht (index - 1) (by omega)
    rw [show index - (index - 1) = 1 by omega] at h2
    have h3 := packs_le hn (inv.ok 1 h1 (by omega)) h2
    have hs := inv.size
    rw [cc_get (by omega)] at this
    have h4 := pre_le leaves lists[1].lookahead1.count
    have h5 : (t 1 - lists[1].lookahead1.count) * total leaves ≤ leaves.size * total leaves := Nat.mul_le_mul_right _ (by omega)
    have h6 : (leaves.size + 1) * total leaves = leaves.size * total leaves + total leaves := by ring
    omega
  | j + 2, _, h1 => by
    have ih := GInv.bound hn hi inv g ht (j + 1) (by omega) (by omega)
    have := g.gj (j + 1) (by omega) h1
    have h4 := pre_le leaves (cc lists (j + 1 + 1))
    have h6 : (leaves.size + (j + 2)) * total leaves = (leaves.size + (j + 1)) * total leaves + total leaves := by ring
    have h7 : j + 1 + 1 = j + 2 := rfl
    rw [h7] at this h4
    omega

/-- The sum of the lookahead weights of any list. -/
theorem GInv.sum_le {leaves : Array Leaf} (hn : 3 ≤ leaves.size) {index : Nat} (hi : index < 15) {lists : Array PmList} {t C : Nat → Nat}
    (inv : Inv leaves index lists t) (g : GInv leaves index lists t C) (ht : t index ≤ 2 * leaves.size - 2) (j : Nat) (hj : j ≤ index) :
    e0 lists j + e1 lists j ≤ (leaves.size + 14) * total leaves := by
  rcases Nat.eq_zero_or_pos j with rfl | hp
  · have := g.g0
    have h1 := pre_le leaves (cc lists 0)
    have h2 : 1 * total leaves ≤ (leaves.size + 14) * total leaves := Nat.mul_le_mul_right _ (by omega)
    omega
  · have h1 := g.l j hp hj
    have h2 := g.bound hn hi inv ht j hp hj
    have h3 : (leaves.size + j) * total leaves ≤ (leaves.size + 14) * total leaves := Nat.mul_le_mul_right _ (by omega)
    omega

/-- What a call does, besides `Step`. -/
structure WStep (leaves : Array Leaf) (index : Nat) (lists lists' : Array PmList) (t C C' : Nat → Nat) : Prop where
  g : ∀ t', Inv leaves index lists' t' → t' index = t index + 1 → GInv leaves index lists' t' C'
  above : ∀ j, index < j → C' j = C j
  shift : 1 ≤ index → e0 lists' index = e1 lists index ∧ C' index = C index + e1 lists' index

theorem boundaryPm_words {W : Nat} {leaves : Array Leaf} (hl : LeavesOk leaves) (hn : 3 ≤ leaves.size)
    (hW : (leaves.size + 14) * total leaves < 2 ^ W) :
    ∀ (index : Nat) (_ : index < 15) (lists : Array PmList) (t C : Nat → Nat), Inv leaves index lists t → GInv leaves index lists t C →
      t index + 1 ≤ 2 * leaves.size - 2 →
      Ret (Katajainen.boundaryPm leaves index lists) fun lists' => boundaryPm W leaves index lists = some lists' ∧
        ∃ C', WStep leaves index lists lists' t C C'
  | 0, _, lists, t, C, inv, g, ht => by
    have hsz := size_le_total hl
    have hW' : leaves.size < 2 ^ W := by
      have : 1 * total leaves ≤ (leaves.size + 14) * total leaves := Nat.mul_le_mul_right _ (by omega)
      omega
    unfold Katajainen.boundaryPm boundaryPm
    have hs := inv.size
    have hg : lists[0]? = some (lists[0]'(by omega)) := Array.getElem?_eq_getElem (by omega)
    rw [hg]
    simp only [Option.bind_eq_bind, Option.bind_some]
    split
    · rename_i hc
      exact Ret.pure ⟨rfl, C, fun t' _ _ => ⟨g.g0, fun j h1 h2 => by omega, fun h => by omega, fun j _ h => by omega⟩, fun _ _ => rfl, fun h => by omega⟩
    · rename_i hc
      have hc' : lists[0].lookahead1.count < leaves.size := by omega
      rw [Array.getElem?_eq_getElem hc']
      simp only [Option.bind_some]
      rw [usize_eq (show lists[0].lookahead1.count + 1 < 2 ^ W by omega)]
      simp only [Option.bind_some]
      rw [aset_eq (by omega)]
      refine Ret.some ⟨rfl, C, fun t' _ _ => ⟨?_, fun j h1 h2 => by omega, fun h => by omega, fun j _ h => by omega⟩, fun _ _ => rfl, fun h => by omega⟩
      obtain ⟨q0, q1, q2⟩ := e_set (a := lists) (i := 0) (l := ⟨lists[0].lookahead1, .mk leaves[lists[0].lookahead1.count].weight (lists[0].lookahead1.count + 1) lists[0].lookahead1.tail⟩) (by omega)
      rw [q0, q1, q2]
      simp only [mk_weight, mk_count]
      rw [pre_succ hc']
      have := g.g0
      rw [e0_get (by omega), e1_get (by omega), cc_get (by omega)] at this
      omega
  | index + 1, hi, lists, t, C, inv, g, ht => by
    have hsz := size_le_total hl
    have hW' : leaves.size < 2 ^ W := by
      have : 1 * total leaves ≤ (leaves.size + 14) * total leaves := Nat.mul_le_mul_right _ (by omega)
      omega
    have hs := inv.size
    obtain ⟨listsF, hF, tF, stF⟩ := boundaryPm_spec hl hn (index + 1) hi lists t inv
    have hsum := g.sum_le hn hi inv (by omega) index (by omega)
    have hk := inv.link index (by omega) (by omega)
    have hok := inv.ok (index + 1) (Nat.le_refl _) hi
    have hokp := inv.ok index (by omega) (by omega)
    revert hF
    unfold Katajainen.boundaryPm boundaryPm
    rw [Array.getElem?_eq_getElem (show index + 1 < lists.size by omega), Array.getElem?_eq_getElem (show index < lists.size by omega)]
    rw [e0_get (by omega), e1_get (by omega)] at hsum
    simp only [Option.bind_eq_bind, Option.bind_some]
    rw [usize_eq (show lists[index].lookahead0.weight + lists[index].lookahead1.weight < 2 ^ W by omega)]
    simp only [Option.bind_some]
    have key : ((aset lists (index + 1) ⟨lists[index + 1].lookahead1,
            .chain (lists[index].lookahead0.weight + lists[index].lookahead1.weight) lists[index + 1].lookahead1.count lists[index].lookahead1⟩).bind fun lists =>
          (Katajainen.boundaryPm leaves index lists).bind fun lists =>
          Katajainen.boundaryPm leaves index lists) = some listsF →
        Ret ((aset lists (index + 1) ⟨lists[index + 1].lookahead1,
            .chain (lists[index].lookahead0.weight + lists[index].lookahead1.weight) lists[index + 1].lookahead1.count lists[index].lookahead1⟩).bind fun lists =>
          (Katajainen.boundaryPm leaves index lists).bind fun lists =>
          Katajainen.boundaryPm leaves index lists) fun lists' =>
        ((aset lists (index + 1) ⟨lists[index + 1].lookahead1,
            .chain (lists[index].lookahead0.weight + lists[index].lookahead1.weight) lists[index + 1].lookahead1.count lists[index].lookahead1⟩).bind fun lists =>
          (boundaryPm W leaves index lists).bind fun lists =>
          boundaryPm W leaves index lists) = some lists' ∧ ∃ C', WStep leaves (index + 1) lists lists' t C C' := by
      rw [aset_eq (show index + 1 < lists.size by omega)]
      simp only [Option.bind_some]
      set lists0 := lists.set (index + 1) ⟨lists[index + 1].lookahead1,
            .chain (lists[index].lookahead0.weight + lists[index].lookahead1.weight) lists[index + 1].lookahead1.count lists[index].lookahead1⟩ (by omega) with hl0
      obtain ⟨a0, a1, a2⟩ := e_set (a := lists) (i := index + 1) (l := ⟨lists[index + 1].lookahead1,
            .chain (lists[index].lookahead0.weight + lists[index].lookahead1.weight) lists[index + 1].lookahead1.count lists[index].lookahead1⟩) (by omega)
      rw [← hl0] at a0 a1 a2
      have ane : ∀ j, index + 1 ≠ j → e0 lists0 j = e0 lists j ∧ e1 lists0 j = e1 lists j ∧ cc lists0 j = cc lists j := by
        intro j hj
        rw [hl0]
        exact e_set_ne _ hj
      have inv0 : Inv leaves index lists0 t := by
        refine ⟨by simpa [hl0] using hs, fun j hj hj' => ?_, fun j hj hj' => ?_⟩
        · simp only [hl0]
          rw [Array.getElem_set_ne (by omega) (by omega) (by omega)]
          exact inv.ok j (by omega) hj'
        · simp only [hl0]
          rw [Array.getElem_set_ne (by omega) (by omega) (by omega), Array.getElem_set_ne (by omega) (by omega) (by omega)]
          exact inv.link j (by omega) hj'
      have g0 : GInv leaves index lists0 t C := by
        refine ⟨?_, fun j h1 h2 => ?_, fun h1 => ?_, fun j h1 h2 => ?_⟩
        · obtain ⟨b0, b1, b2⟩ := ane 0 (by omega)
          rw [b0, b1, b2]; exact g.g0
        · obtain ⟨b0, b1, b2⟩ := ane j (by omega)
          rw [b0, b1]; exact g.l j h1 (by omega)
        · obtain ⟨b0, b1, b2⟩ := ane 1 (by omega)
          rw [b2]; exact g.g1 (by omega)
        · obtain ⟨b0, b1, b2⟩ := ane j (by omega)
          obtain ⟨c0, c1, c2⟩ := ane (j + 1) (by omega)
          rw [b0, b1, c2]; exact g.gj j h1 (by omega)
      intro hF
      -- the numbers of elements after the call
      have hFl := t_le hn hi stF.inv (by rw [stF.tt]; exact ht) 1 (by omega)
      rw [show index + 1 - 1 = index by omega] at hFl
      obtain ⟨lists1, hl1, t1, st1⟩ := boundaryPm_spec hl hn index (by omega) lists0 t inv0
      obtain ⟨lists2, hl2, t2, st2⟩ := boundaryPm_spec hl hn index (by omega) lists1 t1 st1.inv
      rw [hl1, Option.bind_some, hl2, Option.some.injEq] at hF
      subst hF
      have hs2 := stF.inv.size
      have hlast : lists2[index + 1]'(by omega) = ⟨lists[index + 1].lookahead1,
            .chain (lists[index].lookahead0.weight + lists[index].lookahead1.weight) lists[index + 1].lookahead1.count lists[index].lookahead1⟩ := by
        have x1 := (st1.above (index + 1) (by omega)).2
        have x2 := (st2.above (index + 1) (by omega)).2
        rw [x1, hl0, Array.getElem?_set_self (by omega)] at x2
        rw [Array.getElem?_eq_getElem (by omega)] at x2
        exact Option.some.inj x2
      have hlinkF : tF index = 2 * (tF (index + 1) - lists[index + 1].lookahead1.count) + 2 := by
        have := (stF.inv.link index (by omega) (by omega)).t
        rw [hlast] at this
        exact this
      have hkt := hk.t
      have hkc := hk.c
      have htt := stF.tt
      have htF : tF index = t index + 2 := by omega
      obtain ⟨w1, C1, ws1⟩ := (boundaryPm_words hl hn hW index (by omega) lists0 t C inv0 g0 (by omega)).elim hl1
      have ht1 := st1.tt
      have g1 := ws1.g t1 st1.inv ht1
      obtain ⟨w2, C2, ws2⟩ := (boundaryPm_words hl hn hW index (by omega) lists1 t1 C1 st1.inv g1 (by omega)).elim hl2
      rw [hl1, Option.bind_some, hl2]
      refine Ret.some ⟨?_, Function.update C2 (index + 1) (C (index + 1) + (e0 lists index + e1 lists index)), ?_, ?_, ?_⟩
      · rw [w1, Option.bind_some, w2]
      · intro t' inv' ht'
        have hlink' : t' index = 2 * (t' (index + 1) - lists[index + 1].lookahead1.count) + 2 := by
          have := (inv'.link index (by omega) (by omega)).t
          rw [hlast] at this
          exact this
        have invl : Inv leaves index lists2 t' := ⟨inv'.size, fun j hj => inv'.ok j (by omega), fun j hj => inv'.link j (by omega)⟩
        have g2 := ws2.g t' invl (by omega)
        have b0 : e0 lists2 (index + 1) = e1 lists (index + 1) := by
          rw [e0_get (by omega), e1_get (by omega), hlast]
        have b1 : e1 lists2 (index + 1) = e0 lists index + e1 lists index := by
          rw [e1_get (by omega), e0_get (by omega), e1_get (by omega), hlast]
          rfl
        have b2 : cc lists2 (index + 1) = cc lists (index + 1) := by
          rw [cc_get (by omega), cc_get (by omega), hlast]
          rfl
        refine ⟨g2.g0, fun j h1 h2 => ?_, fun _ => ?_, fun j h1 h2 => ?_⟩
        · rcases Nat.lt_or_ge index j with hj | hj
          · obtain rfl : j = index + 1 := by omega
            rw [Function.update_self, b0, b1]
            have := g.l (index + 1) (by omega) (by omega)
            omega
          · rw [Function.update_of_ne (by omega)]
            exact g2.l j h1 hj
        · rcases Nat.eq_zero_or_pos index with h0 | h0
          · subst h0
            rw [Function.update_self, b2]
            have q1 := g.g1 (by omega)
            have q2 := g.g0
            have q3 := pre_le leaves (cc lists 0)
            have q4 : t' 1 - cc lists 1 = (t 1 - cc lists 1) + 1 := by
              rw [cc_get (by omega)]
              have hkc' : lists[1].lookahead1.count ≤ t 1 := hkc
              have ht2 : t' 1 = t 1 + 1 := ht'
              omega
            have q5 : (t' 1 - cc lists 1) * total leaves = (t 1 - cc lists 1) * total leaves + total leaves := by rw [q4]; ring
            simp only [Nat.zero_add] at *
            omega
          · rw [Function.update_of_ne (by omega)]
            exact g2.g1 h0
        · rcases Nat.lt_or_ge j index with hj | hj
          · rw [Function.update_of_ne (by omega), Function.update_of_ne (by omega)]
            exact g2.gj j h1 (by omega)
          · obtain rfl : j = index := by omega
            rw [Function.update_self, Function.update_of_ne (by omega), b2]
            obtain ⟨s1, s2⟩ := ws1.shift h1
            obtain ⟨s3, s4⟩ := ws2.shift h1
            have := g.gj j h1 (by omega)
            omega
      · intro j hj
        rw [Function.update_of_ne (by omega), ws2.above j (by omega), ws1.above j (by omega)]
      · intro _
        have b0 : e0 lists2 (index + 1) = e1 lists (index + 1) := by
          rw [e0_get (by omega), e1_get (by omega), hlast]
        have b1 : e1 lists2 (index + 1) = e0 lists index + e1 lists index := by
          rw [e1_get (by omega), e0_get (by omega), e1_get (by omega), hlast]
          rfl
        refine ⟨b0, ?_⟩
        rw [Function.update_self, b1]
    rcases hleaf : leaves[lists[index + 1].lookahead1.count]? with _ | leaf
    · dsimp only
      exact key
    · dsimp only
      have hc : lists[index + 1].lookahead1.count < leaves.size := by
        by_contra hge
        rw [Array.getElem?_eq_none (by omega)] at hleaf
        cases hleaf
      rw [Array.getElem?_eq_getElem hc] at hleaf
      cases hleaf
      split
      · rename_i hgt
        intro _
        rw [usize_eq (show lists[index + 1].lookahead1.count + 1 < 2 ^ W by omega), Option.bind_some, aset_eq (show index + 1 < lists.size by omega)]
        obtain ⟨a0, a1, a2⟩ := e_set (a := lists) (i := index + 1) (l := ⟨lists[index + 1].lookahead1,
            .mk leaves[lists[index + 1].lookahead1.count].weight (lists[index + 1].lookahead1.count + 1) lists[index + 1].lookahead1.tail⟩) (by omega)
        simp only [mk_weight, mk_count] at a0 a1 a2
        have hne : ∀ j, index + 1 ≠ j → e0 (lists.set (index + 1) ⟨lists[index + 1].lookahead1,
            .mk leaves[lists[index + 1].lookahead1.count].weight (lists[index + 1].lookahead1.count + 1) lists[index + 1].lookahead1.tail⟩ (by omega)) j = e0 lists j ∧
            e1 (lists.set (index + 1) ⟨lists[index + 1].lookahead1,
            .mk leaves[lists[index + 1].lookahead1.count].weight (lists[index + 1].lookahead1.count + 1) lists[index + 1].lookahead1.tail⟩ (by omega)) j = e1 lists j ∧
            cc (lists.set (index + 1) ⟨lists[index + 1].lookahead1,
            .mk leaves[lists[index + 1].lookahead1.count].weight (lists[index + 1].lookahead1.count + 1) lists[index + 1].lookahead1.tail⟩ (by omega)) j = cc lists j :=
          fun j hj => e_set_ne _ hj
        refine Ret.some ⟨rfl, Function.update C (index + 1) (C (index + 1) + leaves[lists[index + 1].lookahead1.count].weight), ?_, ?_, ?_⟩
        · intro t' inv' ht'
          have hkc := hk.c
          have hkt := hk.t
          have hlink' : t' index = 2 * (t' (index + 1) - (lists[index + 1].lookahead1.count + 1)) + 2 := by
            have := (inv'.link index (by omega) (by omega)).t
            rw [Array.getElem_set_self, mk_count] at this
            exact this
          have tl := t_unique (t' := t') (show index < 15 by omega) (lists := lists)
            ⟨hs, fun j hj => inv.ok j (by omega), fun j hj => inv.link j (by omega)⟩
            ⟨hs, fun j hj hj' => by
                have := inv'.ok j (by omega) hj'
                rw [Array.getElem_set_ne (by omega) (by omega) (by omega)] at this
                exact this,
              fun j hj hj' => by
                have := inv'.link j (by omega) hj'
                rw [Array.getElem_set_ne (by omega) (by omega) (by omega), Array.getElem_set_ne (by omega) (by omega) (by omega)] at this
                exact this⟩ (by omega)
          refine ⟨?_, fun j h1 h2 => ?_, fun _ => ?_, fun j h1 h2 => ?_⟩
          · obtain ⟨b0, b1, b2⟩ := hne 0 (by omega)
            rw [b0, b1, b2]; exact g.g0
          · rcases Nat.lt_or_ge index j with hj | hj
            · obtain rfl : j = index + 1 := by omega
              rw [Function.update_self, a0, a1]
              have := g.l (index + 1) (by omega) (by omega)
              rw [e1_get (by omega)] at this
              omega
            · obtain ⟨b0, b1, b2⟩ := hne j (by omega)
              rw [b0, b1, Function.update_of_ne (by omega)]
              exact g.l j h1 (by omega)
          · have hcg : cc lists (index + 1) = lists[index + 1].lookahead1.count := cc_get (by omega)
            rcases Nat.eq_zero_or_pos index with h0 | h0
            · subst h0
              rw [Function.update_self, a2, pre_succ hc]
              have q1 := g.g1 (by omega)
              rw [show t' 1 - (lists[0 + 1].lookahead1.count + 1) = t 1 - lists[0 + 1].lookahead1.count by
                have : t' 1 = t 1 + 1 := ht'
                omega]
              simp only [Nat.zero_add] at *
              rw [hcg] at q1
              omega
            · obtain ⟨b0, b1, b2⟩ := hne 1 (by omega)
              have q := tl (index - 1) (by omega)
              rw [show index - (index - 1) = 1 by omega] at q
              rw [b2, Function.update_of_ne (by omega), ← q]
              exact g.g1 (by omega)
          · rcases Nat.lt_or_ge j index with hj | hj
            · obtain ⟨b0, b1, b2⟩ := hne j (by omega)
              obtain ⟨c0, c1, c2⟩ := hne (j + 1) (by omega)
              rw [b0, b1, c2, Function.update_of_ne (by omega), Function.update_of_ne (by omega)]
              exact g.gj j h1 (by omega)
            · obtain rfl : j = index := by omega
              obtain ⟨b0, b1, b2⟩ := hne j (by omega)
              have hcg : cc lists (j + 1) = lists[j + 1].lookahead1.count := cc_get (by omega)
              rw [b0, b1, a2, Function.update_self, Function.update_of_ne (by omega), pre_succ hc]
              have := g.gj j h1 (by omega)
              rw [hcg] at this
              omega
        · intro j hj
          rw [Function.update_of_ne (by omega)]
        · intro _
          rw [Function.update_self, a0, a1, e1_get (by omega)]
          exact ⟨rfl, rfl⟩
      · exact key

/-- Two loops whose bodies agree on the states that occur. -/
theorem forRange_same {σ : Type} {f g : Nat → σ → Option σ} (I : Nat → σ → Prop) {a b : Nat} {s : σ} (hab : a ≤ b) (h0 : I a s)
    (hs : ∀ i s, a ≤ i → i < b → I i s → Ret (f i s) fun s' => g i s = some s' ∧ I (i + 1) s') :
    Ret (forRange a b s f) fun s' => forRange a b s g = some s' ∧ I b s' := by
  induction b, hab using Nat.le_induction with
  | base => rw [forRange_empty (Nat.le_refl _), forRange_empty (Nat.le_refl _)]; exact Ret.some ⟨rfl, h0⟩
  | succ b hab ih =>
    obtain ⟨s1, e1, e2, h1⟩ := ih fun i s hi hi' => hs i s hi (by omega)
    rw [forRange_snoc hab, forRange_snoc hab, e1, e2]
    exact hs b s1 hab (by omega) h1

theorem runs_words {W : Nat} {leaves : Array Leaf} (hl : LeavesOk leaves) (hn : 3 ≤ leaves.size)
    (hW : (leaves.size + 14) * total leaves < 2 ^ W) (index : Nat) (hi : index < 15) (k : Nat) (hk : k + 2 ≤ 2 * leaves.size - 2) :
    Ret (forRange 0 k (Array.replicate 15 ⟨.root leaves[0].weight 1, .root leaves[1].weight 2⟩)
      fun _ lists => Katajainen.boundaryPm leaves index lists) fun lists =>
      forRange 0 k (Array.replicate 15 ⟨.root leaves[0].weight 1, .root leaves[1].weight 2⟩)
      (fun _ lists => boundaryPm W leaves index lists) = some lists ∧
      ∃ t C, Inv leaves index lists t ∧ GInv leaves index lists t C ∧ t index = k + 2 := by
  refine forRange_same (fun i lists => ∃ t C, Inv leaves index lists t ∧ GInv leaves index lists t C ∧ t index = i + 2) (Nat.zero_le _)
    ⟨_, fun _ => leaves[0].weight + leaves[1].weight, init_inv hl hn index, ?_, rfl⟩ ?_
  · have p2 : pre leaves 2 = leaves[0].weight + leaves[1].weight := by
      rw [pre_succ (by omega), pre_succ (by omega)]
      simp [pre]
    have q : ∀ j, j < 15 → e0 (Array.replicate 15 ⟨.root leaves[0].weight 1, .root leaves[1].weight 2⟩) j = leaves[0].weight ∧
        e1 (Array.replicate 15 ⟨.root leaves[0].weight 1, .root leaves[1].weight 2⟩) j = leaves[1].weight ∧
        cc (Array.replicate 15 ⟨.root leaves[0].weight 1, .root leaves[1].weight 2⟩) j = 2 := by
      intro j hj
      rw [e0_get (by simpa using hj), e1_get (by simpa using hj), cc_get (by simpa using hj), Array.getElem_replicate]
      exact ⟨rfl, rfl, rfl⟩
    refine ⟨?_, fun j h1 h2 => ?_, fun h1 => ?_, fun j h1 h2 => ?_⟩
    · obtain ⟨a, b, c⟩ := q 0 (by omega)
      rw [a, b, c, p2]
    · obtain ⟨a, b, c⟩ := q j (by omega)
      rw [a, b]
    · obtain ⟨a, b, c⟩ := q 1 (by omega)
      rw [c, p2]
      exact Nat.le_add_right _ _
    · obtain ⟨a, b, c⟩ := q j (by omega)
      obtain ⟨a', b', c'⟩ := q (j + 1) (by omega)
      rw [a, b, c', p2]
  · rintro i lists - hi' ⟨t, C, inv, g, ht⟩
    obtain ⟨lists1, h1, t1, st⟩ := boundaryPm_spec hl hn index hi lists t inv
    obtain ⟨w, C1, ws⟩ := (boundaryPm_words hl hn hW index hi lists t C inv g (by omega)).elim h1
    rw [h1]
    exact Ret.some ⟨w, t1, C1, st.inv, ws.g t1 st.inv st.tt, by rw [st.tt, ht]⟩

theorem usedLeaves_total (f : Array Nat) : ((usedLeaves f).map (·.weight)).sum = f.toList.sum := by
  unfold usedLeaves
  have h := sum_map_range f.toList id
  rw [List.map_id] at h
  rw [sum_filterMap, h]
  congr 1
  rw [Array.length_toList]
  apply List.map_congr_left
  intro i hi
  have : i < f.size := by simpa using hi
  simp only [Array.getD_eq_getD_getElem?, List.getD_eq_getElem?_getD, Array.getElem?_toList, id]
  generalize f[i]?.getD 0 = x
  by_cases hx : x = 0 <;> simp [hx]

theorem usedLeaves_len (f : Array Nat) : (usedLeaves f).length ≤ f.size := by
  unfold usedLeaves
  exact Nat.le_trans (List.length_filterMap_le _ _) (by simp)

/-- The code lengths computed in machine words are those computed with exact numbers. -/
theorem lengthLimited_words {W : Nat} (f : Array Nat) (maxBits : Nat) (hW : (f.size + 14) * f.toList.sum < 2 ^ W) :
    lengthLimitedCodeLengths W f maxBits = Katajainen.lengthLimitedCodeLengths f maxBits := by
  unfold lengthLimitedCodeLengths Katajainen.lengthLimitedCodeLengths
  dsimp only
  cases guardR (decide (f.size ≤ 288)) with
  | none => rfl
  | some u =>
    simp only [Option.bind_eq_bind, Option.bind_some]
    split
    · rfl
    · rename_i h3
      have h3' : 3 ≤ (usedLeaves f).length := by
        have : ¬ (usedLeaves f).length ≤ 2 := by simpa using h3
        omega
      generalize hL : (usedLeaves f).mergeSort (fun a b => decide (a.weight ≤ b.weight)) = L
      have hperm : L.Perm (usedLeaves f) := hL ▸ List.mergeSort_perm _ _
      have hlen : L.length = (usedLeaves f).length := hperm.length_eq
      have hsorted : L.Pairwise (fun a b => a.weight ≤ b.weight) := by
        have := List.pairwise_mergeSort (le := fun (a b : Leaf) => decide (a.weight ≤ b.weight))
          (fun a b c h1 h2 => by simp at *; omega) (fun a b => by simp; omega) (usedLeaves f)
        rw [hL] at this
        simpa using this
      have hlv : LeavesOk L.toArray := by
        constructor
        · intro i hi
          have hi' : i < L.length := by simpa using hi
          have := usedLeaves_mem.mp (hperm.mem_iff.mp (List.getElem_mem hi'))
          simp only [List.getElem_toArray]
          obtain ⟨_, _, h⟩ := this
          omega
        · intro i j hij hj
          simp only [List.getElem_toArray]
          rcases Nat.lt_or_eq_of_le hij with h | rfl
          · have hj' : j < L.length := by simpa using hj
            exact List.pairwise_iff_getElem.mp hsorted i j (by omega) hj' h
          · exact Nat.le_refl _
      have hsz : L.toArray.size = L.length := by simp
      have htot : total L.toArray = f.toList.sum := by
        unfold total
        rw [← usedLeaves_total f]
        exact (hperm.map _).sum_eq
      have hlf := usedLeaves_len f
      have hW' : (L.toArray.size + 14) * total L.toArray < 2 ^ W := by
        rw [htot, hsz]
        exact Nat.lt_of_le_of_lt (Nat.mul_le_mul_right _ (by omega)) hW
      have hst := size_le_total hlv
      have h2n : 2 * L.length < 2 ^ W := by
        have : 2 * total L.toArray ≤ (L.toArray.size + 14) * total L.toArray := Nat.mul_le_mul_right _ (by omega)
        omega
      simp only [List.size_toArray] at h3 ⊢
      generalize hB : min ((usedLeaves f).length - 1) maxBits = B
      by_cases hB15 : B ≤ 15
      swap
      · simp [guardR, hB15]
      rw [guardR_eq (by simpa using hB15)]
      simp only [Option.bind_some]
      rw [Array.getElem?_eq_getElem (show 0 < L.toArray.size by omega), Array.getElem?_eq_getElem (show 1 < L.toArray.size by omega)]
      simp only [Option.bind_some]
      rw [usize_eq (show 2 * (usedLeaves f).length < 2 ^ W by omega), Option.bind_some, usub_eq (by omega), Option.bind_some]
      split
      · rfl
      · rename_i hB0
        obtain ⟨lists, r1, r2, t, C, inv, g, ht⟩ := runs_words hlv (by omega) hW' (B - 1) (by omega) (2 * (usedLeaves f).length - 4 - 1) (by omega)
        rw [r1, r2]
        simp only [Option.bind_some]
        congr 1
        have hs := inv.size
        unfold boundaryPmFinal Katajainen.boundaryPmFinal
        rw [Array.getElem?_eq_getElem (show B - 1 < lists.size by omega)]
        simp only [Option.bind_eq_bind, Option.bind_some]
        split
        · rfl
        · have hsum := g.sum_le (by omega) (by omega) inv (by omega) (B - 1 - 1) (by omega)
          rw [e0_get (by omega), e1_get (by omega)] at hsum
          rw [Array.getElem?_eq_getElem (show B - 1 - 1 < lists.size by omega)]
          simp only [Option.bind_some]
          rw [usize_eq (by omega), Option.bind_some]
          rcases hleaf : L.toArray[lists[B - 1].lookahead1.count]? with _ | leaf
          · rfl
          · dsimp only
            split
            · have hc : lists[B - 1].lookahead1.count < L.toArray.size := by
                by_contra hge
                rw [Array.getElem?_eq_none (by omega)] at hleaf
                cases hleaf
              rw [usize_eq (by omega), Option.bind_some]
            · rfl

end Zopfli.Words
