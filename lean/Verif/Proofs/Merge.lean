import Mathlib.Algebra.BigOperators.Group.Finset.Basic
import Mathlib.Algebra.BigOperators.Intervals
import Mathlib.Algebra.Order.BigOperators.Group.Finset
import Mathlib.Tactic.Ring
/-! # The lists of package-merge, and their optimality -/

namespace Zopfli.Katajainen
open Finset

/-- Number of genuine elements of list `j` (leaves, and packages of genuine elements). -/
def TT (n : Nat) : Nat → Nat
  | 0 => n
  | j + 1 => n + TT n j / 2

section generic
variable (n N : Nat) (w q : Nat → Nat)

/-- Is the next element, after `c` of the `n` leaves and `p` of the `N` packages, a leaf? -/
def LeafNext (c p : Nat) : Prop := c < n ∧ (p < N → w c < q p)

instance (c p : Nat) : Decidable (LeafNext n N w q c p) := inferInstanceAs (Decidable (_ ∧ _))

/-- The numbers of leaves and packages among the first `t` elements. -/
def mergePos : Nat → Nat × Nat
  | 0 => (0, 0)
  | t + 1 =>
    let s := mergePos t
    if LeafNext n N w q s.1 s.2 then (s.1 + 1, s.2) else (s.1, s.2 + 1)

/-- The weight of element `t` (from 0). -/
def mergeElem (t : Nat) : Nat :=
  let s := mergePos n N w q t
  if LeafNext n N w q s.1 s.2 then w s.1 else q s.2

structure Loc (c p : Nat) : Prop where
  leaf : c ≤ n
  pack : p ≤ N
  a : 0 < c → p < N → w (c - 1) ≤ q p
  b : 0 < p → c < n → q (p - 1) ≤ w c

variable {n N w q}

theorem mergePos_sum (t : Nat) : (mergePos n N w q t).1 + (mergePos n N w q t).2 = t := by
  induction t with
  | zero => rfl
  | succ t ih => rw [mergePos]; split <;> dsimp only <;> omega

theorem mergePos_loc (hw : ∀ a b, a ≤ b → b < n → w a ≤ w b) (hq : ∀ a b, a ≤ b → b < N → q a ≤ q b) (t : Nat) (ht : t ≤ n + N) :
    Loc n N w q (mergePos n N w q t).1 (mergePos n N w q t).2 := by
  induction t with
  | zero => exact ⟨Nat.zero_le _, Nat.zero_le _, fun h => absurd h (Nat.lt_irrefl _), fun h => absurd h (Nat.lt_irrefl _)⟩
  | succ t ih =>
    have hs := mergePos_sum (n := n) (N := N) (w := w) (q := q) t
    have ih := ih (by omega)
    rw [mergePos]
    generalize (mergePos n N w q t).1 = c at *
    generalize (mergePos n N w q t).2 = p at *
    split
    · rename_i hl
      refine ⟨hl.1, ih.pack, fun _ h => ?_, fun h h' => ?_⟩
      · exact Nat.le_of_lt (hl.2 h)
      · exact Nat.le_trans (ih.b h hl.1) (hw _ _ (by omega) h')
    · rename_i hl
      have hl' : c < n → p < N ∧ q p ≤ w c := by
        intro h
        by_contra hcon
        exact hl ⟨h, fun hp => by by_contra h'; exact hcon ⟨hp, by omega⟩⟩
      have hp : p < N := by
        rcases Nat.lt_or_ge c n with h | h
        · exact (hl' h).1
        · have := ih.leaf; omega
      refine ⟨ih.leaf, hp, fun h h' => ?_, fun _ h => ?_⟩
      · exact Nat.le_trans (ih.a h hp) (hq _ _ (by omega) h')
      · exact (hl' h).2

theorem mergeElem_mono (hw : ∀ a b, a ≤ b → b < n → w a ≤ w b) (hq : ∀ a b, a ≤ b → b < N → q a ≤ q b) {t : Nat} (ht : t + 1 < n + N) :
    mergeElem n N w q t ≤ mergeElem n N w q (t + 1) := by
  have hs := mergePos_sum (n := n) (N := N) (w := w) (q := q) (t + 1)
  have hloc := mergePos_loc hw hq (t + 1) (by omega)
  have hs0 := mergePos_sum (n := n) (N := N) (w := w) (q := q) t
  unfold mergeElem
  dsimp only
  have e : mergePos n N w q (t + 1) = _ := mergePos.eq_2 n N w q t
  generalize mergePos n N w q (t + 1) = s' at *
  generalize mergePos n N w q t = s at *
  have hlast : ∀ c p, s' = (c, p) → ¬ LeafNext n N w q c p → p < N := by
    rintro c p rfl hnl
    rcases Nat.lt_or_ge c n with h | h
    · by_contra hp
      exact hnl ⟨h, fun h' => absurd h' hp⟩
    · have := hloc.leaf
      dsimp only at *
      omega
  by_cases hl : LeafNext n N w q s.1 s.2
  · rw [if_pos hl] at e ⊢
    subst e
    dsimp only at *
    split
    · rename_i h
      exact hw _ _ (by omega) h.1
    · rename_i h
      have := hloc.a (by omega) (hlast _ _ rfl h)
      simpa using this
  · rw [if_neg hl] at e ⊢
    subst e
    dsimp only at *
    split
    · rename_i h
      have := hloc.b (by omega) h.1
      simpa using this
    · rename_i h
      exact hq _ _ (by omega) (hlast _ _ rfl h)

theorem mergeElem_sum (t : Nat) : ∑ i ∈ range t, mergeElem n N w q i =
    (∑ k ∈ range (mergePos n N w q t).1, w k) + ∑ p ∈ range (mergePos n N w q t).2, q p := by
  induction t with
  | zero => simp [mergePos]
  | succ t ih =>
    rw [sum_range_succ, ih, mergePos, mergeElem]
    split
    · dsimp only; rw [sum_range_succ]; omega
    · dsimp only; rw [sum_range_succ (fun x => q x)]; omega

theorem sum_range_grow {f : Nat → Nat} {a b m : Nat} (hab : a ≤ b) (hm : ∀ k, a ≤ k → k < b → m ≤ f k) :
    (∑ k ∈ range a, f k) + (b - a) * m ≤ ∑ k ∈ range b, f k := by
  induction b, hab using Nat.le_induction with
  | base => simp
  | succ b hab ih =>
    rw [sum_range_succ, show b + 1 - a = (b - a) + 1 by omega, Nat.add_mul]
    have h1 := ih fun k h1 h2 => hm k h1 (by omega)
    have h2 := hm b hab (Nat.lt_succ_self _)
    omega

theorem sum_range_shrink {f : Nat → Nat} {a b m : Nat} (hab : a ≤ b) (hm : ∀ k, a ≤ k → k < b → f k ≤ m) :
    (∑ k ∈ range b, f k) ≤ (∑ k ∈ range a, f k) + (b - a) * m := by
  induction b, hab using Nat.le_induction with
  | base => simp
  | succ b hab ih =>
    rw [sum_range_succ, show b + 1 - a = (b - a) + 1 by omega, Nat.add_mul]
    have h1 := ih fun k h1 h2 => hm k h1 (by omega)
    have h2 := hm b hab (Nat.lt_succ_self _)
    omega

/-- Merging takes the cheapest combination of leaves and packages. -/
theorem merge_best (hw : ∀ a b, a ≤ b → b < n → w a ≤ w b) (hq : ∀ a b, a ≤ b → b < N → q a ≤ q b) {t c' p' : Nat} (hc : c' ≤ n) (hp : p' ≤ N)
    (ht : t ≤ c' + p') : ∑ i ∈ range t, mergeElem n N w q i ≤ (∑ k ∈ range c', w k) + ∑ p ∈ range p', q p := by
  rw [mergeElem_sum]
  have hs := mergePos_sum (n := n) (N := N) (w := w) (q := q) t
  have hloc := mergePos_loc hw hq t (by omega)
  generalize (mergePos n N w q t).1 = c at *
  generalize (mergePos n N w q t).2 = p at *
  have mono : ∀ (f : Nat → Nat) {a b : Nat}, a ≤ b → ∑ k ∈ range a, f k ≤ ∑ k ∈ range b, f k := by
    intro f a b hab
    have := sum_range_grow (f := f) (m := 0) hab (fun _ _ _ => Nat.zero_le _)
    omega
  rcases Nat.lt_or_ge p' p with h | h
  · -- fewer packages, more leaves
    have h1 : (∑ k ∈ range c, w k) + (c' - c) * w c ≤ ∑ k ∈ range c', w k :=
      sum_range_grow (by omega) fun k k1 k2 => hw _ _ k1 (by omega)
    have h2 : (∑ i ∈ range p, q i) ≤ (∑ i ∈ range p', q i) + (p - p') * q (p - 1) :=
      sum_range_shrink (by omega) fun k k1 k2 => hq _ _ (by omega) (by have := hloc.pack; omega)
    have h3 := hloc.b (by omega) (by omega)
    have h4 : (p - p') * q (p - 1) ≤ (c' - c) * w c := Nat.mul_le_mul (by omega) h3
    omega
  · rcases Nat.lt_or_ge c' c with h' | h'
    · have h1 : (∑ i ∈ range p, q i) + (p' - p) * q p ≤ ∑ i ∈ range p', q i :=
        sum_range_grow (by omega) fun k k1 k2 => hq _ _ k1 (by omega)
      have h2 : (∑ k ∈ range c, w k) ≤ (∑ k ∈ range c', w k) + (c - c') * w (c - 1) :=
        sum_range_shrink (by omega) fun k k1 k2 => hw _ _ (by omega) (by have := hloc.leaf; omega)
      have h3 := hloc.a (by omega) (by omega)
      have h4 : (c - c') * w (c - 1) ≤ (p' - p) * q p := Nat.mul_le_mul (by omega) h3
      omega
    · have := mono w h'
      have := mono q h
      omega

end generic

/-- The weight of element `i` (from 0) of list `j`. -/
def elem (n : Nat) (w : Nat → Nat) : Nat → Nat → Nat
  | 0, i => w i
  | j + 1, i => mergeElem n (TT n j / 2) w (fun p => elem n w j (2 * p) + elem n w j (2 * p + 1)) i

/-- The weights of the packages made from list `j`. -/
def packs (n : Nat) (w : Nat → Nat) (j p : Nat) : Nat := elem n w j (2 * p) + elem n w j (2 * p + 1)

/-- The numbers of leaves and packages among the first `t` elements of list `j + 1`. -/
def posOf (n : Nat) (w : Nat → Nat) (j t : Nat) : Nat × Nat := mergePos n (TT n j / 2) w (packs n w j) t

/-- How many leaves of each list make up the first `t` elements of list `j`. -/
def cnts (n : Nat) (w : Nat → Nat) : Nat → Nat → List Nat
  | 0, t => [t]
  | j + 1, t => (posOf n w j t).1 :: if (posOf n w j t).2 = 0 then [] else cnts n w j (2 * (posOf n w j t).2)

/-- The number of elements of the top list that the leaves and all packages make. -/
def val : List Nat → Nat
  | [] => 0
  | c :: cs => c + val cs / 2

/-- The total weight of the leaves. -/
def cost (w : Nat → Nat) (cs : List Nat) : Nat := (cs.map fun c => ∑ k ∈ range c, w k).sum

variable {n : Nat} {w : Nat → Nat}

theorem sum_pairs (f : Nat → Nat) (p : Nat) : ∑ i ∈ range (2 * p), f i = ∑ i ∈ range p, (f (2 * i) + f (2 * i + 1)) := by
  induction p with
  | zero => rfl
  | succ p ih => rw [show 2 * (p + 1) = 2 * p + 1 + 1 by omega, sum_range_succ, sum_range_succ, ih, sum_range_succ]; omega

theorem elem_mono (hw : ∀ a b, a ≤ b → b < n → w a ≤ w b) : ∀ (j a b : Nat), a ≤ b → b < TT n j → elem n w j a ≤ elem n w j b
  | 0, a, b, hab, hb => hw a b hab hb
  | j + 1, a, b, hab, hb => by
    have hq : ∀ a b, a ≤ b → b < TT n j / 2 → packs n w j a ≤ packs n w j b := by
      intro a b hab hb
      have h1 := elem_mono hw j (2 * a) (2 * b) (by omega) (by omega)
      have h2 := elem_mono hw j (2 * a + 1) (2 * b + 1) (by omega) (by omega)
      unfold packs
      omega
    induction b, hab using Nat.le_induction with
    | base => exact Nat.le_refl _
    | succ b hab ih => exact Nat.le_trans (ih (by omega)) (mergeElem_mono hw hq (by simpa [TT] using hb))

theorem packs_mono (hw : ∀ a b, a ≤ b → b < n → w a ≤ w b) (j : Nat) : ∀ a b, a ≤ b → b < TT n j / 2 → packs n w j a ≤ packs n w j b := by
  intro a b hab hb
  have h1 := elem_mono hw j (2 * a) (2 * b) (by omega) (by omega)
  have h2 := elem_mono hw j (2 * a + 1) (2 * b + 1) (by omega) (by omega)
  unfold packs
  omega

/-- The first elements of list `j` cost what their leaves cost. -/
theorem cost_cnts (hw : ∀ a b, a ≤ b → b < n → w a ≤ w b) : ∀ (j t : Nat), t ≤ TT n j → cost w (cnts n w j t) = ∑ i ∈ range t, elem n w j i
  | 0, t, _ => by simp [cost, cnts, elem]
  | j + 1, t, ht => by
    have e : ∑ i ∈ range t, elem n w (j + 1) i = _ := mergeElem_sum (n := n) (N := TT n j / 2) (w := w) (q := packs n w j) t
    have hloc := mergePos_loc hw (packs_mono hw j) t ht
    rw [e]
    show cost w ((posOf n w j t).1 :: _) = (∑ k ∈ range (posOf n w j t).1, w k) + ∑ p ∈ range (posOf n w j t).2, packs n w j p
    have hp : (posOf n w j t).2 ≤ TT n j / 2 := hloc.pack
    generalize (posOf n w j t).1 = c at *
    generalize (posOf n w j t).2 = p at *
    split
    · rename_i h
      subst h
      simp [cost]
    · have ih := cost_cnts hw j (2 * p) (by omega)
      rw [sum_pairs] at ih
      show _ + cost w (cnts n w j (2 * p)) = _
      rw [ih]
      rfl

theorem val_le : ∀ (j : Nat) (cs : List Nat), cs.length ≤ j + 1 → (∀ c ∈ cs, c ≤ n) → val cs ≤ TT n j
  | j, [], _, _ => Nat.zero_le _
  | 0, c :: cs, hl, hc => by
    have : cs = [] := by rw [← List.length_eq_zero_iff]; rw [List.length_cons] at hl; omega
    subst this
    simpa [val, TT] using hc c (by simp)
  | j + 1, c :: cs, hl, hc => by
    have := val_le j cs (by simpa using hl) fun c h => hc c (by simp [h])
    have := hc c (by simp)
    simp only [val, TT]
    omega

/-- No selection of leaves that makes `m` elements is cheaper than the first `m` elements of the list. -/
theorem cost_lower (hw : ∀ a b, a ≤ b → b < n → w a ≤ w b) : ∀ (j : Nat) (cs : List Nat) (m : Nat), cs.length ≤ j + 1 → (∀ c ∈ cs, c ≤ n) →
    m ≤ val cs → ∑ i ∈ range m, elem n w j i ≤ cost w cs
  | j, [], m, _, _, hm => by
    have : m = 0 := by simpa [val] using hm
    subst this
    simp
  | 0, c :: cs, m, hl, hc, hm => by
    have : cs = [] := by rw [← List.length_eq_zero_iff]; rw [List.length_cons] at hl; omega
    subst this
    have hm : m ≤ c := by simpa [val] using hm
    have := sum_range_grow (f := w) (m := 0) hm (fun _ _ _ => Nat.zero_le _)
    simp only [cost, elem, List.map_cons, List.map_nil, List.sum_cons, List.sum_nil]
    omega
  | j + 1, c :: cs, m, hl, hc, hm => by
    have hl' : cs.length ≤ j + 1 := by simpa using hl
    have hcs : ∀ c ∈ cs, c ≤ n := fun c h => hc c (by simp [h])
    have hv := val_le j cs hl' hcs
    have ih := cost_lower hw j cs (2 * (val cs / 2)) hl' hcs (by omega)
    rw [sum_pairs] at ih
    have hb := merge_best hw (packs_mono hw j) (t := m) (c' := c) (p' := val cs / 2) (hc c (by simp)) (by omega) hm
    have e : ∑ i ∈ range m, elem n w (j + 1) i = ∑ i ∈ range m, mergeElem n (TT n j / 2) w (packs n w j) i := rfl
    have e2 : ∑ p ∈ range (val cs / 2), packs n w j p = ∑ i ∈ range (val cs / 2), (elem n w j (2 * i) + elem n w j (2 * i + 1)) := rfl
    show _ ≤ (∑ k ∈ range c, w k) + cost w cs
    omega

end Zopfli.Katajainen
