import Verif.Model.Katajainen
import Verif.Spec.Inflate
import Verif.Proofs.Basic
import Verif.Proofs.Merge
import Mathlib.Data.List.Induction
import Mathlib.Tactic.Ring
import Mathlib.Tactic.Linarith
/-! # Boundary package merge: the code lengths form a complete prefix code -/

namespace Zopfli.Katajainen

/-- Position of an element in its list, recomputed from the leaf counts of its chain. -/
def mOf : Node → Nat
  | .root _ c => c
  | .chain _ c t => c + mOf t / 2

/-- The leaf counts along a chain, last list first. -/
def countsOf : Node → List Nat
  | .root _ c => [c]
  | .chain _ c t => c :: countsOf t

/-- A chain of list `j` made of genuine elements. -/
def Valid (n : Nat) : Nat → Node → Prop
  | _, .root _ c => 1 ≤ c ∧ c ≤ n
  | 0, .chain _ _ _ => False
  | j + 1, .chain _ c t => Valid n j t ∧ 2 ∣ mOf t ∧ t.count ≤ c ∧ c ≤ n

/-- Sorted positive leaf weights. -/
structure LeavesOk (leaves : Array Leaf) : Prop where
  pos : ∀ i (h : i < leaves.size), 0 < leaves[i].weight
  sorted : ∀ i j (hi : i ≤ j) (hj : j < leaves.size), leaves[i].weight ≤ leaves[j].weight

/-- Weight of leaf number `c` (counting from 1). -/
def lw (leaves : Array Leaf) (c : Nat) : Nat := if h : c - 1 < leaves.size then leaves[c - 1].weight else 0

/-- The weights of the leaves (counting from 0). -/
def wOf (leaves : Array Leaf) (k : Nat) : Nat := lw leaves (k + 1)

/-- In list `j`, the element after the first `t` is a leaf. -/
def NextLeaf (leaves : Array Leaf) : (j t : Nat) → Prop
  | 0, _ => True
  | j + 1, t => LeafNext leaves.size (TT leaves.size j / 2) (wOf leaves) (packs leaves.size (wOf leaves) j)
      (posOf leaves.size (wOf leaves) j t).1 (posOf leaves.size (wOf leaves) j t).2

structure NOk (leaves : Array Leaf) (j : Nat) (l : PmList) (t : Nat) : Prop where
  valid : Valid leaves.size j l.lookahead1
  m : mOf l.lookahead1 = t
  pos : 0 < l.lookahead0.weight
  le : l.lookahead0.weight ≤ l.lookahead1.weight
  lwle : lw leaves l.lookahead1.count ≤ l.lookahead1.weight
  next : ∀ h : l.lookahead1.count < leaves.size, l.lookahead1.weight ≤ leaves[l.lookahead1.count].weight
  two : 2 ≤ t
  cn : countsOf l.lookahead1 = cnts leaves.size (wOf leaves) j t
  w1 : l.lookahead1.weight = elem leaves.size (wOf leaves) j (t - 1)
  w0 : l.lookahead0.weight = elem leaves.size (wOf leaves) j (t - 2)

structure XOk (leaves : Array Leaf) (l : PmList) : Prop where
  count : l.lookahead1.count = leaves.size
  big : lw leaves leaves.size < l.lookahead0.weight + l.lookahead1.weight

structure ListOk (leaves : Array Leaf) (j : Nat) (l : PmList) (t : Nat) : Prop where
  n : t ≤ TT leaves.size j → NOk leaves j l t
  x : TT leaves.size j < t → XOk leaves l

structure Link (leaves : Array Leaf) (j : Nat) (lj lj1 : PmList) (tj tj1 : Nat) : Prop where
  t : tj = 2 * (tj1 - lj1.lookahead1.count) + 2
  c : lj1.lookahead1.count ≤ tj1
  w : tj1 ≤ TT leaves.size (j + 1) → tj ≤ TT leaves.size j →
    lj1.lookahead1.weight ≤ lj.lookahead0.weight + lj.lookahead1.weight

theorem TT_ge (n j : Nat) : n ≤ TT n j := by cases j <;> simp [TT]

theorem mOf_le {n : Nat} : ∀ {j : Nat} {x : Node}, Valid n j x → mOf x ≤ TT n j
  | j, .root _ c, h => by
    have := TT_ge n j
    cases j <;> (simp only [Valid] at h; simp only [mOf]; omega)
  | j + 1, .chain _ c t, h => by
    simp only [Valid] at h
    have := mOf_le h.1
    simp only [mOf, TT]
    omega

theorem count_le_n {n j : Nat} {x : Node} (h : Valid n j x) : x.count ≤ n ∧ 1 ≤ x.count := by
  induction x generalizing j with
  | root w c => cases j <;> (simp only [Valid] at h; exact ⟨h.2, h.1⟩)
  | chain w c t ih =>
    cases j with
    | zero => exact h.elim
    | succ j =>
      simp only [Valid] at h
      exact ⟨h.2.2.2, Nat.le_trans (ih h.1).2 h.2.2.1⟩

theorem count_le_m (x : Node) : x.count ≤ mOf x := by cases x <;> simp [mOf, Node.count]

/-- One more leaf on the same chain. -/
theorem valid_mk {n j : Nat} {x : Node} (h : Valid n j x) (hc : x.count < n) (w : Nat) :
    Valid n j (.mk w (x.count + 1) x.tail) ∧ mOf (.mk w (x.count + 1) x.tail) = mOf x + 1 := by
  cases x with
  | root w' c => cases j <;> (simp only [Node.count, Node.tail, Node.mk, Valid, mOf] at *; exact ⟨⟨by omega, by omega⟩, trivial⟩)
  | chain w' c t =>
    cases j with
    | zero => exact h.elim
    | succ j =>
      simp only [Node.count, Node.tail, Node.mk, Valid, mOf] at *
      exact ⟨⟨h.1, h.2.1, by omega, by omega⟩, by omega⟩

@[simp] theorem mk_weight (w c : Nat) (t : Option Node) : (Node.mk w c t).weight = w := by cases t <;> rfl
@[simp] theorem mk_count (w c : Nat) (t : Option Node) : (Node.mk w c t).count = c := by cases t <;> rfl

theorem lw_mono {leaves : Array Leaf} (h : LeavesOk leaves) {a b : Nat} (hab : a ≤ b) (hb : b ≤ leaves.size) :
    lw leaves a ≤ lw leaves b := by
  unfold lw
  by_cases hb' : b - 1 < leaves.size
  · rw [dif_pos hb', dif_pos (by omega)]
    exact h.sorted _ _ (by omega) hb'
  · rw [dif_neg (by omega)]
    exact Nat.zero_le _

theorem lw_succ {leaves : Array Leaf} {c : Nat} (h : c < leaves.size) : lw leaves (c + 1) = leaves[c].weight := by
  unfold lw; simp [h]

theorem countsOf_mk (w c : Nat) (x : Node) : countsOf (.mk w c x.tail) = c :: (countsOf x).tail := by
  cases x <;> rfl

theorem countsOf_head (x : Node) : (countsOf x).head? = some x.count := by cases x <;> rfl

theorem NOk.head {leaves : Array Leaf} {j : Nat} {l : PmList} {t : Nat} (h : NOk leaves (j + 1) l t) :
    (posOf leaves.size (wOf leaves) j t).1 = l.lookahead1.count ∧ (posOf leaves.size (wOf leaves) j t).2 = t - l.lookahead1.count := by
  have h1 := countsOf_head l.lookahead1
  rw [h.cn] at h1
  have h2 := Option.some.inj h1
  have h3 : (posOf leaves.size (wOf leaves) j t).1 + (posOf leaves.size (wOf leaves) j t).2 = t := mergePos_sum t
  exact ⟨h2, by omega⟩

/-- The first elements after a leaf has been added. -/
theorem next_leaf {leaves : Array Leaf} {j t c : Nat} (hc : c < leaves.size) (hcn : (cnts leaves.size (wOf leaves) j t).head? = some c) (h : NextLeaf leaves j t) :
    cnts leaves.size (wOf leaves) j (t + 1) = (c + 1) :: (cnts leaves.size (wOf leaves) j t).tail ∧
      elem leaves.size (wOf leaves) j t = leaves[c].weight := by
  cases j with
  | zero =>
    simp only [cnts, List.head?_cons, Option.some.injEq] at hcn ⊢
    subst hcn
    refine ⟨rfl, ?_⟩
    show lw leaves (t + 1) = _
    rw [lw_succ hc]
  | succ j =>
    have e : posOf leaves.size (wOf leaves) j (t + 1) = _ := mergePos.eq_2 _ _ _ _ t
    have h' : LeafNext leaves.size (TT leaves.size j / 2) (wOf leaves) (packs leaves.size (wOf leaves) j)
      (mergePos leaves.size (TT leaves.size j / 2) (wOf leaves) (packs leaves.size (wOf leaves) j) t).1
      (mergePos leaves.size (TT leaves.size j / 2) (wOf leaves) (packs leaves.size (wOf leaves) j) t).2 := h
    rw [if_pos h'] at e
    have e2 : (posOf leaves.size (wOf leaves) j t).1 = c := Option.some.inj hcn
    refine ⟨?_, ?_⟩
    · rw [cnts, e, cnts]
      dsimp only
      rw [← e2]
      rfl
    · show mergeElem _ _ _ (packs leaves.size (wOf leaves) j) t = _
      unfold mergeElem
      dsimp only
      rw [if_pos h']
      show wOf leaves (posOf leaves.size (wOf leaves) j t).1 = _
      rw [e2]
      exact lw_succ hc

/-- The first elements after a package has been added. -/
theorem next_package {leaves : Array Leaf} {j t : Nat} (h : ¬ NextLeaf leaves (j + 1) t) :
    cnts leaves.size (wOf leaves) (j + 1) (t + 1) =
      (posOf leaves.size (wOf leaves) j t).1 :: cnts leaves.size (wOf leaves) j (2 * ((posOf leaves.size (wOf leaves) j t).2 + 1)) ∧
      elem leaves.size (wOf leaves) (j + 1) t = packs leaves.size (wOf leaves) j (posOf leaves.size (wOf leaves) j t).2 := by
  have e : posOf leaves.size (wOf leaves) j (t + 1) = _ := mergePos.eq_2 _ _ _ _ t
  have h' : ¬ LeafNext leaves.size (TT leaves.size j / 2) (wOf leaves) (packs leaves.size (wOf leaves) j)
    (mergePos leaves.size (TT leaves.size j / 2) (wOf leaves) (packs leaves.size (wOf leaves) j) t).1
    (mergePos leaves.size (TT leaves.size j / 2) (wOf leaves) (packs leaves.size (wOf leaves) j) t).2 := h
  rw [if_neg h'] at e
  refine ⟨?_, ?_⟩
  · rw [cnts, e]
    dsimp only
    rw [if_neg (Nat.succ_ne_zero _)]
    rfl
  · show mergeElem _ _ _ (packs leaves.size (wOf leaves) j) t = _
    unfold mergeElem
    dsimp only
    rw [if_neg h']
    rfl

/-- The new leaf. -/
theorem leaf_ok {leaves : Array Leaf} (hl : LeavesOk leaves) {j t : Nat} {l : PmList} (h : ListOk leaves j l t)
    (hc : l.lookahead1.count < leaves.size) (hsel : t ≤ TT leaves.size j → NextLeaf leaves j t) :
    t ≤ TT leaves.size j ∧
    ListOk leaves j ⟨l.lookahead1, .mk leaves[l.lookahead1.count].weight (l.lookahead1.count + 1) l.lookahead1.tail⟩
      (t + 1) := by
  have ht : t ≤ TT leaves.size j := by
    by_contra hx
    have := (h.x (by omega)).count
    omega
  have hn := h.n ht
  have hv := valid_mk hn.valid hc leaves[l.lookahead1.count].weight
  have hm := mOf_le hv.1
  obtain ⟨hx1, hx2⟩ := next_leaf hc (by rw [← hn.cn]; exact countsOf_head _) (hsel ht)
  have hw1 := hn.w1
  have htwo := hn.two
  refine ⟨ht, ⟨fun _ => ⟨hv.1, ?_, ?_, ?_, ?_, ?_, by omega, ?_, ?_, ?_⟩, fun hx => ?_⟩⟩
  · show mOf (Node.mk _ _ _) = _
    rw [hv.2, hn.m]
  · exact Nat.lt_of_lt_of_le hn.pos hn.le
  · simpa using hn.next hc
  · simp [lw_succ hc]
  · intro h'
    simp only [mk_count, mk_weight] at h' ⊢
    exact hl.sorted _ _ (by omega) h'
  · show countsOf (Node.mk _ _ _) = _
    rw [countsOf_mk, hx1, hn.cn]
  · show (Node.mk _ _ _).weight = _
    rw [mk_weight, Nat.add_sub_cancel, hx2]
  · show l.lookahead1.weight = _
    rw [hw1, show t + 1 - 2 = t - 1 by omega]
  · rw [hv.2, hn.m] at hm
    omega

/-- The new package. -/
theorem package_ok {leaves : Array Leaf} (hl : LeavesOk leaves) {j t tp : Nat} {l prev : PmList}
    (h : ListOk leaves (j + 1) l t) (hp : ListOk leaves j prev tp) (hk : Link leaves j prev l tp t)
    (hc : ∀ h : l.lookahead1.count < leaves.size,
      prev.lookahead0.weight + prev.lookahead1.weight ≤ leaves[l.lookahead1.count].weight) :
    ListOk leaves (j + 1)
      ⟨l.lookahead1, .chain (prev.lookahead0.weight + prev.lookahead1.weight) l.lookahead1.count prev.lookahead1⟩
      (t + 1) := by
  have hT : TT leaves.size (j + 1) = leaves.size + TT leaves.size j / 2 := rfl
  have hkt := hk.t
  have hkc := hk.c
  have hkw := hk.w
  have bigleaf : XOk leaves prev → l.lookahead1.count ≥ leaves.size := by
    intro hx
    by_contra hlt
    have h1 := hc (by omega)
    have h2 := hx.big
    have h3 := lw_mono hl (a := l.lookahead1.count + 1) (b := leaves.size) (by omega) (Nat.le_refl _)
    rw [lw_succ (by omega)] at h3
    omega
  rcases Nat.lt_or_ge (TT leaves.size j) tp with hpx | hpn
  · -- the previous list has run out
    have hX := hp.x hpx
    have hcnt := bigleaf hX
    have hceq : l.lookahead1.count = leaves.size := by
      rcases Nat.lt_or_ge (TT leaves.size (j + 1)) t with hx | hx
      · exact (h.x hx).count
      · exact Nat.le_antisymm (count_le_n (h.n hx).valid).1 hcnt
    refine ⟨fun hle => ?_, fun _ => ⟨hceq, ?_⟩⟩
    · omega
    · show lw _ _ < _ + (_ + _)
      have := hX.big
      omega
  · have hN := hp.n hpn
    have ht : t ≤ TT leaves.size (j + 1) := by
      by_contra hx
      have := (h.x (by omega)).count
      omega
    have hN' := h.n ht
    have hcn := count_le_n hN'.valid
    have hv : Valid leaves.size (j + 1) (.chain (prev.lookahead0.weight + prev.lookahead1.weight) l.lookahead1.count prev.lookahead1) := by
      refine ⟨hN.valid, ?_, ?_, hcn.1⟩
      · rw [hN.m]; omega
      · by_contra hgt
        have h1 := (count_le_n hN.valid).1
        have h2 := hc (by omega)
        have h3 := lw_mono hl (a := l.lookahead1.count + 1) (b := prev.lookahead1.count) (by omega) h1
        rw [lw_succ (by omega)] at h3
        have h4 := hN.lwle
        have h5 := hN.pos
        omega
    have hm : mOf (.chain (prev.lookahead0.weight + prev.lookahead1.weight) l.lookahead1.count prev.lookahead1) = t + 1 := by
      simp only [mOf, hN.m]
      omega
    have hle := mOf_le hv
    have hw := hkw ht hpn
    obtain ⟨hd1, hd2⟩ := hN'.head
    have htp : tp = 2 * ((posOf leaves.size (wOf leaves) j t).2 + 1) := by omega
    have hpk : packs leaves.size (wOf leaves) j (posOf leaves.size (wOf leaves) j t).2 = prev.lookahead0.weight + prev.lookahead1.weight := by
      rw [hN.w0, hN.w1, htp]
      rfl
    have hnl : ¬ NextLeaf leaves (j + 1) t := by
      intro hnl
      have h1 := hnl.1
      have h2 := hnl.2 (by omega)
      rw [hpk, hd1] at h2
      have h3 := hc (by omega)
      have h4 : wOf leaves l.lookahead1.count = leaves[l.lookahead1.count].weight := lw_succ (by omega)
      omega
    obtain ⟨hx1, hx2⟩ := next_package hnl
    have htwo := hN'.two
    refine ⟨fun _ => ⟨hv, hm, ?_, hw, ?_, hc, by omega, ?_, ?_, ?_⟩, fun hx => by omega⟩
    · exact Nat.lt_of_lt_of_le hN'.pos hN'.le
    · exact Nat.le_trans hN'.lwle hw
    · show l.lookahead1.count :: countsOf prev.lookahead1 = _
      rw [hx1, hd1, hN.cn, htp]
    · show prev.lookahead0.weight + prev.lookahead1.weight = _
      rw [Nat.add_sub_cancel, hx2, hpk]
    · show l.lookahead1.weight = _
      rw [hN'.w1, show t + 1 - 2 = t - 1 by omega]

/-- The comparison tells whether the next element is a leaf. -/
theorem sel_leaf {leaves : Array Leaf} {j t tp : Nat} {l prev : PmList} (h : ListOk leaves (j + 1) l t) (hp : ListOk leaves j prev tp)
    (hk : Link leaves j prev l tp t) (hc : l.lookahead1.count < leaves.size)
    (hgt : prev.lookahead0.weight + prev.lookahead1.weight > leaves[l.lookahead1.count].weight) :
    t ≤ TT leaves.size (j + 1) → NextLeaf leaves (j + 1) t := by
  intro ht
  have hN' := h.n ht
  obtain ⟨hd1, hd2⟩ := hN'.head
  have hkt := hk.t
  refine ⟨by rw [hd1]; exact hc, fun hp' => ?_⟩
  have hN := hp.n (by omega)
  have htp : tp = 2 * ((posOf leaves.size (wOf leaves) j t).2 + 1) := by omega
  have hpk : packs leaves.size (wOf leaves) j (posOf leaves.size (wOf leaves) j t).2 = prev.lookahead0.weight + prev.lookahead1.weight := by
    rw [hN.w0, hN.w1, htp]
    rfl
  have h4 : wOf leaves l.lookahead1.count = leaves[l.lookahead1.count].weight := lw_succ (by omega)
  rw [hpk, hd1]
  omega

/-- State of lists `0..index`. -/
structure Inv (leaves : Array Leaf) (index : Nat) (lists : Array PmList) (t : Nat → Nat) : Prop where
  size : lists.size = 15
  ok : ∀ j (_ : j ≤ index) (h : j < 15), ListOk leaves j (lists[j]'(by omega)) (t j)
  link : ∀ j (_ : j + 1 ≤ index) (h : j + 1 < 15),
    Link leaves j (lists[j]'(by omega)) (lists[j + 1]'(by omega)) (t j) (t (j + 1))

/-- What one call does to the list it is called on. -/
structure Step (leaves : Array Leaf) (index : Nat) (lists lists' : Array PmList) (t t' : Nat → Nat) : Prop where
  inv : Inv leaves index lists' t'
  above : ∀ j, index < j → t' j = t j ∧ lists'[j]? = lists[j]?
  tt : t' index = t index + 1
  shift : t index + 1 ≤ TT leaves.size index → ∀ (h : index < lists.size) (h' : index < lists'.size),
    lists'[index].lookahead0 = lists[index].lookahead1

theorem boundaryPm_spec {leaves : Array Leaf} (hl : LeavesOk leaves) (hn : 3 ≤ leaves.size) :
    ∀ (index : Nat) (_ : index < 15) (lists : Array PmList) (t : Nat → Nat), Inv leaves index lists t →
      Ret (boundaryPm leaves index lists) fun lists' => ∃ t', Step leaves index lists lists' t t'
  | 0, _, lists, t, inv => by
    unfold boundaryPm
    have hs := inv.size
    refine Ret.bind (Ret.getElem? (by omega) ?_)
    have h0 := inv.ok 0 (Nat.le_refl _) (by omega)
    dsimp only
    split
    · rename_i hc
      refine Ret.pure ⟨Function.update t 0 (t 0 + 1), ⟨hs, fun j hj hj' => ?_, fun j hj => by omega⟩, fun j hj => ?_, by simp,
        fun hle => ?_⟩
      · obtain rfl : j = 0 := by omega
        rw [Function.update_self]
        refine ⟨fun hle => ?_, fun hx => ?_⟩
        · have := h0.n (by omega)
          have hv := this.valid
          have hm := this.m
          have := count_le_m lists[0].lookahead1
          simp only [TT] at hle
          omega
        · rcases Nat.lt_or_ge (TT leaves.size 0) (t 0) with h' | h'
          · exact h0.x h'
          · have hN := h0.n h'
            have hcn := (count_le_n hN.valid).1
            have e : lists[0].lookahead1.count = leaves.size := by omega
            refine ⟨e, ?_⟩
            have h1 := hN.lwle
            have h2 := hN.pos
            rw [e] at h1
            omega
      · simp [Function.update, show j ≠ 0 by omega]
      · exfalso
        have := h0.n (by omega)
        have hm := this.m
        have := count_le_m lists[0].lookahead1
        simp only [TT] at hle
        omega
    · rename_i hc
      have hc' : lists[0].lookahead1.count < leaves.size := by omega
      refine Ret.bind (Ret.getElem? hc' ?_)
      refine Ret.aset (by omega) ?_
      have hleaf := leaf_ok hl h0 hc' (fun _ => trivial)
      refine ⟨Function.update t 0 (t 0 + 1), ⟨by simpa using hs, fun j hj hj' => ?_, fun j hj => by omega⟩, fun j hj => ?_, by simp,
        fun hle h h' => ?_⟩
      · obtain rfl : j = 0 := by omega
        rw [Function.update_self]
        simpa using hleaf.2
      · simp [Function.update, show j ≠ 0 by omega]
        rw [Array.getElem?_set_ne (by omega) (by omega)]
      · simp
  | index + 1, hi, lists, t, inv => by
    unfold boundaryPm
    have hs := inv.size
    refine Ret.bind (Ret.getElem? (by omega) ?_)
    have h1 := inv.ok (index + 1) (Nat.le_refl _) hi
    have h0 := inv.ok index (by omega) (by omega)
    have hk := inv.link index (by omega) (by omega)
    refine Ret.bind (Ret.getElem? (by omega) ?_)
    -- the package case
    have key : (∀ h : lists[index + 1].lookahead1.count < leaves.size,
        lists[index].lookahead0.weight + lists[index].lookahead1.weight ≤ leaves[lists[index + 1].lookahead1.count].weight) →
        Ret (do
          let lists ← aset lists (index + 1) ⟨lists[index + 1].lookahead1,
            .chain (lists[index].lookahead0.weight + lists[index].lookahead1.weight) lists[index + 1].lookahead1.count lists[index].lookahead1⟩
          let lists ← boundaryPm leaves index lists
          boundaryPm leaves index lists) fun lists' => ∃ t', Step leaves (index + 1) lists lists' t t' := by
      intro hc
      have hpk := package_ok hl h1 h0 hk hc
      refine Ret.bind (Ret.aset (by omega) ?_)
      refine Ret.bind' (boundaryPm_spec hl hn index (by omega) _ t ⟨by simpa using hs, fun j hj hj' => ?_, fun j hj hj' => ?_⟩) ?_
      · rw [Array.getElem_set_ne (by omega) (by omega) (by omega)]
        exact inv.ok j (by omega) hj'
      · rw [Array.getElem_set_ne (by omega) (by omega) (by omega), Array.getElem_set_ne (by omega) (by omega) (by omega)]
        exact inv.link j (by omega) hj'
      rintro lists1 ⟨t1, st1⟩
      refine Ret.mono (boundaryPm_spec hl hn index (by omega) _ t1 st1.inv) ?_
      rintro lists2 ⟨t2, st2⟩
      have hs1 := st1.inv.size
      have hs2 := st2.inv.size
      have hget : lists2[index + 1]'(by omega) = ⟨lists[index + 1].lookahead1,
            .chain (lists[index].lookahead0.weight + lists[index].lookahead1.weight) lists[index + 1].lookahead1.count lists[index].lookahead1⟩ := by
        have e1 := (st1.above (index + 1) (by omega)).2
        have e2 := (st2.above (index + 1) (by omega)).2
        rw [e1, Array.getElem?_set_self (by omega)] at e2
        rw [Array.getElem?_eq_getElem (by omega)] at e2
        exact Option.some.inj e2
      have ht1 := st1.tt
      have ht2 := st2.tt
      refine ⟨Function.update t2 (index + 1) (t (index + 1) + 1), ⟨hs2, fun j hj hj' => ?_, fun j hj hj' => ?_⟩, fun j hj => ?_, by simp, ?_⟩
      · by_cases e : j = index + 1
        · subst e
          rw [Function.update_self, hget]
          exact hpk
        · rw [Function.update_of_ne e]
          exact st2.inv.ok j (by omega) hj'
      · by_cases e : j = index
        · subst e
          rw [Function.update_self, Function.update_of_ne (by omega), hget]
          have hkt := hk.t
          have hkc := hk.c
          refine ⟨?_, ?_, fun hle hle' => ?_⟩
          · show t2 j = 2 * (t (j + 1) + 1 - lists[j + 1].lookahead1.count) + 2
            omega
          · show lists[j + 1].lookahead1.count ≤ _
            omega
          · show lists[j].lookahead0.weight + lists[j].lookahead1.weight ≤ _
            have n0 := h0.n (by omega)
            have n1 := (st1.inv.ok j (by omega) (by omega)).n (by omega)
            have n2 := (st2.inv.ok j (by omega) (by omega)).n hle'
            have e1 := st1.shift (by omega) (by simp; omega) (by omega)
            have e2 := st2.shift (by omega) (by omega) (by omega)
            rw [Array.getElem_set_ne (by omega) (by omega) (by omega)] at e1
            have l0 := n0.le
            have l1 := n1.le
            have l2 := n2.le
            rw [e1] at l1
            rw [e2] at l2 ⊢
            omega
        · rw [Function.update_of_ne (by omega), Function.update_of_ne (by omega)]
          exact st2.inv.link j (by omega) hj'
      · rw [Function.update_of_ne (by omega)]
        have e1 := st1.above j (by omega)
        have e2 := st2.above j (by omega)
        refine ⟨by rw [e2.1, e1.1], ?_⟩
        rw [e2.2, e1.2, Array.getElem?_set_ne (by omega) (by omega)]
      · intro _ _ _
        rw [hget]
    dsimp only
    split
    · rename_i leaf hleaf
      have hc : lists[index + 1].lookahead1.count < leaves.size := by
        by_contra hge
        rw [Array.getElem?_eq_none (by omega)] at hleaf
        cases hleaf
      rw [Array.getElem?_eq_getElem hc] at hleaf
      cases hleaf
      split
      · rename_i hgt
        have hlf := leaf_ok hl h1 hc (sel_leaf h1 h0 hk hc hgt)
        refine Ret.aset (by omega) ⟨Function.update t (index + 1) (t (index + 1) + 1),
          ⟨by simpa using hs, fun j hj hj' => ?_, fun j hj hj' => ?_⟩, fun j hj => ?_, by simp, ?_⟩
        · by_cases e : j = index + 1
          · subst e
            rw [Function.update_self, Array.getElem_set_self]
            exact hlf.2
          · rw [Function.update_of_ne e, Array.getElem_set_ne (by omega) (by omega) (by omega)]
            exact inv.ok j (by omega) hj'
        · by_cases e : j = index
          · subst e
            rw [Function.update_self, Function.update_of_ne (by omega), Array.getElem_set_self, Array.getElem_set_ne (by omega) (by omega) (by omega)]
            have hkt := hk.t
            have hkc := hk.c
            refine ⟨?_, ?_, fun hle hle' => ?_⟩
            · simp only [mk_count]
              omega
            · simp only [mk_count]
              omega
            · simp only [mk_weight]
              omega
          · rw [Function.update_of_ne (by omega), Function.update_of_ne (by omega), Array.getElem_set_ne (by omega) (by omega) (by omega), Array.getElem_set_ne (by omega) (by omega) (by omega)]
            exact inv.link j (by omega) hj'
        · rw [Function.update_of_ne (by omega), Array.getElem?_set_ne (by omega) (by omega)]
          exact ⟨rfl, rfl⟩
        · intro _ _ _
          simp
      · exact key (fun _ => by omega)
    · rename_i hnone
      refine key (fun h => ?_)
      rw [Array.getElem?_eq_getElem h] at hnone
      cases hnone

end Zopfli.Katajainen
