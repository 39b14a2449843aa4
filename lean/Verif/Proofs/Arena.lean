import Verif.Model.Arena
import Verif.Proofs.Basic
/-!
# The arena of `katajainen.rs` holds the chains of the value model
-/

namespace Zopfli.Arena

open Katajainen (Leaf usedLeaves assignLevel)

/-- The chain that starts at an address; all its addresses are in `A`. -/
inductive Rep (arena : Array Node) (A : Nat → Prop) : Nat → Katajainen.Node → Prop
  | root {p w c : Nat} : arena[p]? = some ⟨w, c, none⟩ → A p → Rep arena A p (.root w c)
  | chain {p w c t : Nat} {n : Katajainen.Node} : arena[p]? = some ⟨w, c, some t⟩ → A p → Rep arena A t n → Rep arena A p (.chain w c n)

/-- Nothing has been changed, only added. -/
def Ext (a b : Array Node) : Prop := a.size ≤ b.size ∧ ∀ (p : Nat) (x : Node), a[p]? = some x → b[p]? = some x

theorem Ext.refl (a : Array Node) : Ext a a := ⟨Nat.le_refl _, fun _ _ h => h⟩
theorem Ext.trans {a b c : Array Node} (h1 : Ext a b) (h2 : Ext b c) : Ext a c := ⟨Nat.le_trans h1.1 h2.1, fun p x h => h2.2 p x (h1.2 p x h)⟩
theorem Ext.push (a : Array Node) (n : Node) : Ext a (a.push n) := by
  refine ⟨by simp, fun p x h => ?_⟩
  rw [Array.getElem?_push, if_neg]
  · exact h
  · rintro rfl
    rw [Array.getElem?_eq_none (Nat.le_refl _)] at h
    cases h

theorem Rep.ext {a b : Array Node} {A : Nat → Prop} (h : Ext a b) {p : Nat} {n : Katajainen.Node} (hr : Rep a A p n) : Rep b A p n := by
  induction hr with
  | root h1 h2 => exact .root (h.2 _ _ h1) h2
  | chain h1 h2 _ ih => exact .chain (h.2 _ _ h1) h2 ih

theorem Rep.mono {a : Array Node} {A B : Nat → Prop} (h : ∀ p, p < a.size → A p → B p) {p : Nat} {n : Katajainen.Node} (hr : Rep a A p n) : Rep a B p n := by
  have lt : ∀ {p x}, a[p]? = some x → p < a.size := fun {p x} e => by
    rw [Array.getElem?_eq_some_iff] at e
    exact e.1
  induction hr with
  | root h1 h2 => exact .root h1 (h _ (lt h1) h2)
  | chain h1 h2 _ ih => exact .chain h1 (h _ (lt h1) h2) ih

theorem Rep.set {a : Array Node} {A : Nat → Prop} {q : Nat} {x : Node} (hq : q < a.size) {p : Nat} {n : Katajainen.Node}
    (hr : Rep a (fun p => A p ∧ p ≠ q) p n) : Rep (a.set q x hq) A p n := by
  induction hr with
  | root h1 h2 => exact .root (by rw [Array.getElem?_set, if_neg fun e => h2.2 e.symm]; exact h1) h2.1
  | chain h1 h2 _ ih => exact .chain (by rw [Array.getElem?_set, if_neg fun e => h2.2 e.symm]; exact h1) h2.1 ih

/-- The node at the address. -/
theorem Rep.node {a : Array Node} {A : Nat → Prop} {p : Nat} {n : Katajainen.Node} (h : Rep a A p n) :
    ∃ t, a[p]? = some ⟨n.weight, n.count, t⟩ ∧
      ∀ w c q b, Ext a b → b[q]? = some ⟨w, c, t⟩ → A q → Rep b A q (.mk w c n.tail) := by
  cases h with
  | root h1 h2 => exact ⟨none, h1, fun w c q b hb hq hA => .root hq hA⟩
  | chain h1 h2 h3 => exact ⟨some _, h1, fun w c q b hb hq hA => .chain hq hA (h3.ext hb)⟩

/-- The lists up to `index` hold the chains of the value model. -/
def Rel (A : Nat → Prop) (index : Nat) (t : Thing) (v : Array Katajainen.PmList) : Prop :=
  t.lists.size = v.size ∧ ∀ j, j ≤ index → ∀ w, v[j]? = some w → ∃ l, t.lists[j]? = some l ∧
    Rep t.arena A l.lookahead0 w.lookahead0 ∧ Rep t.arena A l.lookahead1 w.lookahead1

theorem Rel.mono {A B : Nat → Prop} {i j : Nat} {t : Thing} {v : Array Katajainen.PmList} (h : Rel A i t v) (hj : j ≤ i)
    (hAB : ∀ p, p < t.arena.size → A p → B p) : Rel B j t v := by
  refine ⟨h.1, fun k hk w hw => ?_⟩
  obtain ⟨l, e, h1, h2⟩ := h.2 k (by omega) w hw
  exact ⟨l, e, h1.mono hAB, h2.mono hAB⟩

theorem aset_some {α : Type} {a b : Array α} {i : Nat} {x : α} (h : aset a i x = some b) :
    i < a.size ∧ b.size = a.size ∧ ∀ j, b[j]? = if i = j then some x else a[j]? := by
  unfold aset at h
  split at h
  · rename_i hi
    cases h
    refine ⟨hi, by simp, fun j => ?_⟩
    rw [Array.getElem?_set]
  · cases h

theorem aset_ok {α : Type} {a : Array α} {i : Nat} {x : α} (h : i < a.size) : ∃ b, aset a i x = some b := by
  unfold aset
  rw [dif_pos h]
  exact ⟨_, rfl⟩

/-- What one run does. -/
structure Ran (A : Nat → Prop) (index : Nat) (t t' : Thing) (v v' : Array Katajainen.PmList) : Prop where
  ext : Ext t.arena t'.arena
  rel : Rel A index t' v'
  above : ∀ j, index < j → t'.lists[j]? = t.lists[j]? ∧ v'[j]? = v[j]?
  fresh : ∀ k, index = k + 1 → Rel (fun p => A p ∧ p ≠ t.arena.size) k t' v' ∧ ∃ l, t'.lists[index]? = some l ∧ l.lookahead1 = t.arena.size

/-- Entering a new node in a list. -/
theorem Rel.enter {A : Nat → Prop} {index : Nat} {t : Thing} {v v1 : Array Katajainen.PmList} (h : Rel A index t v) {w : Katajainen.PmList}
    (hw : v[index]? = some w) {l : PmList} (hl : t.lists[index]? = some l) (hr : Rep t.arena A l.lookahead1 w.lookahead1) {x : Node} {n : Katajainen.Node}
    (hn : Rep (t.arena.push x) A t.arena.size n) (hv : aset v index ⟨w.lookahead1, n⟩ = some v1) {ls1 ls2 : Array PmList}
    (h1 : aset t.lists index { l with lookahead0 := l.lookahead1 } = some ls1) {l' : PmList} (hl' : ls1[index]? = some l')
    (h2 : aset ls1 index { l' with lookahead1 := t.arena.size } = some ls2) :
    Rel A index ⟨t.arena.push x, ls2⟩ v1 ∧ (∀ j, j ≠ index → ls2[j]? = t.lists[j]? ∧ v1[j]? = v[j]?) ∧
      ls2[index]? = some ⟨l.lookahead1, t.arena.size⟩ := by
  obtain ⟨a1, a2, a3⟩ := aset_some h1
  obtain ⟨b1, b2, b3⟩ := aset_some h2
  obtain ⟨c1, c2, c3⟩ := aset_some hv
  rw [a3, if_pos rfl] at hl'
  cases hl'
  have hat : ls2[index]? = some ⟨l.lookahead1, t.arena.size⟩ := by rw [b3, if_pos rfl]
  refine ⟨⟨by dsimp only; rw [b2, a2, c2]; exact h.1, fun j hj u hu => ?_⟩, fun j hj => ⟨?_, ?_⟩, hat⟩
  · dsimp only
    by_cases e : index = j
    · subst e
      rw [c3, if_pos rfl] at hu
      cases hu
      exact ⟨_, hat, hr.ext (Ext.push _ _), hn⟩
    · rw [c3, if_neg e] at hu
      obtain ⟨m, e1, e2, e3⟩ := h.2 j hj u hu
      exact ⟨m, by rw [b3, if_neg e, a3, if_neg e]; exact e1, e2.ext (Ext.push _ _), e3.ext (Ext.push _ _)⟩
  · rw [b3, if_neg (Ne.symm hj), a3, if_neg (Ne.symm hj)]
  · rw [c3, if_neg (Ne.symm hj)]

theorem boundaryPm_ref (leaves : Array Leaf) : ∀ (index : Nat) (A : Nat → Prop) (t : Thing) (v v' : Array Katajainen.PmList),
    Katajainen.boundaryPm leaves index v = some v' → (∀ p, t.arena.size ≤ p → A p) → Rel A index t v →
    Ret (boundaryPm leaves index t) fun t' => Ran A index t t' v v'
  | 0, A, t, v, v', hv, hA, h => by
    rw [Katajainen.boundaryPm] at hv
    simp only [Option.bind_eq_bind, Option.bind_eq_some_iff] at hv
    obtain ⟨w, hw, hv⟩ := hv
    obtain ⟨l, hl, r0, r1⟩ := h.2 0 (Nat.le_refl _) w hw
    obtain ⟨tl, en, rn⟩ := r1.node
    rw [boundaryPm, hl, some_bind, en, some_bind]
    dsimp only
    split at hv
    · rename_i hc
      cases hv
      rw [if_pos hc]
      exact ⟨t, rfl, Ext.refl _, h, fun _ _ => ⟨rfl, rfl⟩, fun k hk => by omega⟩
    · rename_i hc
      rw [if_neg hc]
      simp only [Option.bind_eq_some_iff] at hv
      obtain ⟨leaf, hleaf, hv⟩ := hv
      obtain ⟨c1, -, -⟩ := aset_some hv
      obtain ⟨ls1, e1⟩ := aset_ok (a := t.lists) (i := 0) (x := { l with lookahead0 := l.lookahead1 }) (by rw [h.1]; exact c1)
      obtain ⟨a1, a2, a3⟩ := aset_some e1
      have hl' : ls1[0]? = some { l with lookahead0 := l.lookahead1 } := by rw [a3, if_pos rfl]
      obtain ⟨ls2, e2⟩ := aset_ok (a := ls1) (i := 0) (x := ⟨l.lookahead1, t.arena.size⟩) (by omega)
      rw [e1, some_bind, hl', some_bind, hleaf, some_bind]
      dsimp only
      rw [en, some_bind]
      unfold Thing.alloc
      dsimp only
      rw [e2, some_bind]
      have hn : Rep (t.arena.push ⟨leaf.weight, w.lookahead1.count + 1, tl⟩) A t.arena.size (.mk leaf.weight (w.lookahead1.count + 1) w.lookahead1.tail) :=
        rn _ _ _ _ (Ext.push _ _) (by simp) (hA _ (Nat.le_refl _))
      obtain ⟨q1, q2, q3⟩ := h.enter hw hl r1 hn hv e1 hl' e2
      exact ⟨_, rfl, Ext.push _ _, q1, fun j hj => q2 j (by omega), fun k hk => by omega⟩
  | index + 1, A, t, v, v', hv, hA, h => by
    rw [Katajainen.boundaryPm] at hv
    simp only [Option.bind_eq_bind, Option.bind_eq_some_iff] at hv
    obtain ⟨w, hw, pv, hpv, hv⟩ := hv
    obtain ⟨l, hl, r0, r1⟩ := h.2 (index + 1) (Nat.le_refl _) w hw
    obtain ⟨pl, hpl, p0, p1⟩ := h.2 index (by omega) pv hpv
    obtain ⟨tl, en, rn⟩ := r1.node
    obtain ⟨tp0, ep0, -⟩ := p0.node
    obtain ⟨tp1, ep1, -⟩ := p1.node
    have hlt : index + 1 < t.lists.size := by
      rw [Array.getElem?_eq_some_iff] at hl
      exact hl.1
    obtain ⟨ls1, e1⟩ := aset_ok (a := t.lists) (i := index + 1) (x := { l with lookahead0 := l.lookahead1 }) hlt
    obtain ⟨a1, a2, a3⟩ := aset_some e1
    have hl' : ls1[index + 1]? = some { l with lookahead0 := l.lookahead1 } := by rw [a3, if_pos rfl]
    have hpl' : ls1[index]? = some pl := by rw [a3, if_neg (by omega)]; exact hpl
    obtain ⟨ls2, e2⟩ := aset_ok (a := ls1) (i := index + 1) (x := ⟨l.lookahead1, t.arena.size⟩) (by omega)
    rw [boundaryPm, hl, some_bind, en, some_bind, e1, some_bind]
    dsimp only
    rw [hl', some_bind, hpl', some_bind, ep0, some_bind, ep1, some_bind]
    dsimp only
    have low : Rel (fun p => A p ∧ p ≠ t.arena.size) index t v := h.mono (by omega) fun p hp hAp => ⟨hAp, by omega⟩
    -- a leaf is entered
    have leafCase : ∀ leaf : Leaf, aset v (index + 1) ⟨w.lookahead1, .mk leaf.weight (w.lookahead1.count + 1) w.lookahead1.tail⟩ = some v' →
        Ran A (index + 1) t ⟨t.arena.push ⟨leaf.weight, w.lookahead1.count + 1, tl⟩, ls2⟩ v v' := by
      intro leaf hv
      obtain ⟨q1, q2, q3⟩ := h.enter hw hl r1 (rn leaf.weight (w.lookahead1.count + 1) _ _ (Ext.push _ ⟨leaf.weight, w.lookahead1.count + 1, tl⟩) (by simp) (hA _ (Nat.le_refl _))) hv e1 hl' e2
      refine ⟨Ext.push _ _, q1, fun j hj => q2 j (by omega), fun k hk => ?_⟩
      obtain rfl : k = index := by omega
      refine ⟨⟨q1.1, fun j hj u hu => ?_⟩, _, q3, rfl⟩
      obtain ⟨u1, u2⟩ := q2 j (by omega)
      rw [u2] at hu
      obtain ⟨m, m1, m2, m3⟩ := low.2 j hj u hu
      exact ⟨m, by dsimp only; rw [u1]; exact m1, m2.ext (Ext.push _ _), m3.ext (Ext.push _ _)⟩
    -- two chains of the list below are combined
    have treeCase : (do
          let lists ← aset v (index + 1) ⟨w.lookahead1, .chain (pv.lookahead0.weight + pv.lookahead1.weight) w.lookahead1.count pv.lookahead1⟩
          let lists ← Katajainen.boundaryPm leaves index lists
          Katajainen.boundaryPm leaves index lists) = some v' →
        Ret (do
          let t ← boundaryPm leaves index ⟨t.arena.push ⟨pv.lookahead0.weight + pv.lookahead1.weight, w.lookahead1.count, some pl.lookahead1⟩, ls2⟩
          boundaryPm leaves index t) fun t' => Ran A (index + 1) t t' v v' := by
      intro hv
      simp only [Option.bind_eq_bind, Option.bind_eq_some_iff] at hv
      obtain ⟨v1, hv1, v2, hv2, hv3⟩ := hv
      have hn : Rep (t.arena.push ⟨pv.lookahead0.weight + pv.lookahead1.weight, w.lookahead1.count, some pl.lookahead1⟩) A t.arena.size
          (.chain (pv.lookahead0.weight + pv.lookahead1.weight) w.lookahead1.count pv.lookahead1) :=
        .chain (by simp) (hA _ (Nat.le_refl _)) (p1.ext (Ext.push _ _))
      obtain ⟨q1, q2, q3⟩ := h.enter hw hl r1 hn hv1 e1 hl' e2
      generalize ht1 : (⟨t.arena.push ⟨pv.lookahead0.weight + pv.lookahead1.weight, w.lookahead1.count, some pl.lookahead1⟩, ls2⟩ : Thing) = t1
      rw [ht1] at q1
      have ex1 : Ext t.arena t1.arena := by rw [← ht1]; exact Ext.push _ _
      have sz1 : t1.arena.size = t.arena.size + 1 := by rw [← ht1]; simp
      have ls1e : ∀ j : Nat, t1.lists[j]? = ls2[j]? := by intro j; rw [← ht1]
      have low1 : Rel (fun p => A p ∧ p ≠ t.arena.size) index t1 v1 := by
        refine ⟨q1.1, fun j hj u hu => ?_⟩
        obtain ⟨u1, u2⟩ := q2 j (by omega)
        rw [u2] at hu
        obtain ⟨m, m1, m2, m3⟩ := low.2 j hj u hu
        exact ⟨m, by rw [ls1e, u1]; exact m1, m2.ext ex1, m3.ext ex1⟩
      obtain ⟨t2, f2, g2⟩ := boundaryPm_ref leaves index _ t1 v1 v2 hv2 (fun p hp => ⟨hA p (by omega), by omega⟩) low1
      obtain ⟨t3, f3, g3⟩ := boundaryPm_ref leaves index _ t2 v2 v' hv3 (fun p hp => by have := g2.ext.1; exact ⟨hA p (by omega), by omega⟩) g2.rel
      rw [f2, some_bind]
      have ex3 : Ext t1.arena t3.arena := g2.ext.trans g3.ext
      have top1 : t3.lists[index + 1]? = some ⟨l.lookahead1, t.arena.size⟩ := by
        rw [(g3.above _ (Nat.lt_succ_self _)).1, (g2.above _ (Nat.lt_succ_self _)).1, ls1e, q3]
      have topv : v'[index + 1]? = v1[index + 1]? := by
        rw [(g3.above _ (Nat.lt_succ_self _)).2, (g2.above _ (Nat.lt_succ_self _)).2]
      refine ⟨t3, f3, ex1.trans ex3, ⟨g3.rel.1, fun j hj u hu => ?_⟩, fun j hj => ⟨?_, ?_⟩, fun k hk => ?_⟩
      · rcases Nat.eq_or_lt_of_le hj with rfl | hj'
        · rw [topv] at hu
          obtain ⟨m, m1, m2, m3⟩ := q1.2 _ (Nat.le_refl _) u hu
          rw [ls1e, q3] at m1
          cases m1
          exact ⟨_, top1, m2.ext ex3, m3.ext ex3⟩
        · obtain ⟨m, m1, m2, m3⟩ := g3.rel.2 j (by omega) u hu
          exact ⟨m, m1, m2.mono fun _ _ h => h.1, m3.mono fun _ _ h => h.1⟩
      · rw [(g3.above _ (by omega)).1, (g2.above _ (by omega)).1, ls1e, (q2 j (by omega)).1]
      · rw [(g3.above _ (by omega)).2, (g2.above _ (by omega)).2, (q2 j (by omega)).2]
      · obtain rfl : k = index := by omega
        exact ⟨g3.rel, _, top1, rfl⟩
    unfold Thing.alloc
    cases hle : leaves[w.lookahead1.count]? with
    | none =>
      rw [hle] at hv
      dsimp only [Option.filter_none] at hv ⊢
      rw [e2, some_bind]
      exact treeCase hv
    | some leaf =>
      rw [hle] at hv
      dsimp only at hv
      rw [Option.filter_some]
      by_cases hc : pv.lookahead0.weight + pv.lookahead1.weight > leaf.weight
      · rw [if_pos hc] at hv
        rw [if_pos (by simpa using hc)]
        dsimp only
        rw [en, some_bind, e2, some_bind]
        exact ⟨_, rfl, leafCase leaf hv⟩
      · rw [if_neg hc] at hv
        rw [if_neg (by simpa using hc)]
        dsimp only
        rw [e2, some_bind]
        exact treeCase hv

theorem final_ref (leaves : Array Leaf) {k q : Nat} {t : Thing} {v v' : Array Katajainen.PmList}
    (hv : Katajainen.boundaryPmFinal leaves (k + 1) v = some v') (h : Rel (fun _ => True) (k + 1) t v)
    (hq : Rel (fun p => True ∧ p ≠ q) k t v) (hl : ∃ l, t.lists[k + 1]? = some l ∧ l.lookahead1 = q) :
    Ret (boundaryPmFinal leaves (k + 1) t) fun t' => ∀ w, v'[k + 1]? = some w → ∃ l, t'.lists[k + 1]? = some l ∧ Rep t'.arena (fun _ => True) l.lookahead1 w.lookahead1 := by
  unfold Katajainen.boundaryPmFinal at hv
  simp only [Option.bind_eq_bind, Option.bind_eq_some_iff, Nat.add_sub_cancel] at hv
  obtain ⟨w, hw, hv⟩ := hv
  rw [if_neg (by omega)] at hv
  simp only [Option.bind_eq_some_iff] at hv
  obtain ⟨pv, hpv, hv⟩ := hv
  obtain ⟨l, hl, hlq⟩ := hl
  obtain ⟨l', hl', r0, r1⟩ := h.2 (k + 1) (Nat.le_refl _) w hw
  rw [hl] at hl'
  cases hl'
  obtain ⟨pl, hpl, p0, p1⟩ := hq.2 k (Nat.le_refl _) pv hpv
  obtain ⟨tl, en, rn⟩ := r1.node
  obtain ⟨tp0, ep0, -⟩ := p0.node
  obtain ⟨tp1, ep1, -⟩ := p1.node
  have hlt : k + 1 < t.lists.size := by
    rw [Array.getElem?_eq_some_iff] at hl
    exact hl.1
  have hqs : l.lookahead1 < t.arena.size := by
    rw [Array.getElem?_eq_some_iff] at en
    exact en.1
  unfold boundaryPmFinal
  rw [hl, some_bind, en, some_bind, if_neg (by omega), Nat.add_sub_cancel, hpl, some_bind, ep0, some_bind, ep1, some_bind]
  dsimp only
  have leafCase : ∀ leaf : Leaf, aset v (k + 1) ⟨w.lookahead0, .mk 0 (w.lookahead1.count + 1) w.lookahead1.tail⟩ = some v' →
      Ret (do
        let lists ← aset t.lists (k + 1) { l with lookahead1 := t.arena.size }
        return (⟨t.arena.push ⟨0, w.lookahead1.count + 1, tl⟩, lists⟩ : Thing)) fun t' : Thing =>
        ∀ w, v'[k + 1]? = some w → ∃ l, t'.lists[k + 1]? = some l ∧ Rep t'.arena (fun _ => True) l.lookahead1 w.lookahead1 := by
    intro leaf hv
    obtain ⟨ls, e⟩ := aset_ok (a := t.lists) (i := k + 1) (x := { l with lookahead1 := t.arena.size }) hlt
    obtain ⟨-, -, a3⟩ := aset_some e
    obtain ⟨-, -, c3⟩ := aset_some hv
    rw [e, some_bind]
    refine ⟨_, rfl, fun u hu => ?_⟩
    rw [c3, if_pos rfl] at hu
    cases hu
    refine ⟨_, by rw [a3, if_pos rfl], ?_⟩
    exact rn 0 (w.lookahead1.count + 1) _ _ (Ext.push _ ⟨0, w.lookahead1.count + 1, tl⟩) (by simp) trivial
  have treeCase : aset v (k + 1) ⟨w.lookahead0, .chain w.lookahead1.weight w.lookahead1.count pv.lookahead1⟩ = some v' →
      Ret (do
        let arena ← aset t.arena l.lookahead1 ⟨w.lookahead1.weight, w.lookahead1.count, some pl.lookahead1⟩
        return (⟨arena, t.lists⟩ : Thing)) fun t' : Thing =>
        ∀ w, v'[k + 1]? = some w → ∃ l, t'.lists[k + 1]? = some l ∧ Rep t'.arena (fun _ => True) l.lookahead1 w.lookahead1 := by
    intro hv
    obtain ⟨-, -, c3⟩ := aset_some hv
    unfold aset
    rw [dif_pos hqs, some_bind]
    refine ⟨_, rfl, fun u hu => ?_⟩
    rw [c3, if_pos rfl] at hu
    cases hu
    refine ⟨_, hl, .chain (t := pl.lookahead1) ?_ trivial ?_⟩
    · rw [Array.getElem?_set, if_pos rfl]
    · rw [hlq] at hqs
      subst hlq
      exact p1.set hqs
  cases hle : leaves[w.lookahead1.count]? with
  | none =>
    rw [hle] at hv
    exact treeCase hv
  | some leaf =>
    rw [hle] at hv
    dsimp only at hv
    rw [Option.filter_some]
    by_cases hc : pv.lookahead0.weight + pv.lookahead1.weight > leaf.weight
    · rw [if_pos hc] at hv
      rw [if_pos (by simpa using hc)]
      exact leafCase leaf hv
    · rw [if_neg hc] at hv
      rw [if_neg (by simpa using hc)]
      exact treeCase hv

theorem collect_ref {arena : Array Node} {A : Nat → Prop} {p : Nat} {n : Katajainen.Node} (h : Rep arena A p n) :
    ∀ {e : Nat} {c : Array Nat} {r : Array Nat × Nat}, Katajainen.collectCounts n e c = some r → collectCounts arena e p c = some r := by
  induction h with
  | root h1 h2 =>
    intro e c r hr
    rw [Katajainen.collectCounts] at hr
    cases e with
    | zero => cases hr
    | succ e =>
      rw [if_neg (by omega), Nat.add_sub_cancel] at hr
      rw [collectCounts, h1, some_bind]
      exact hr
  | chain h1 h2 _ ih =>
    intro e c r hr
    rw [Katajainen.collectCounts] at hr
    cases e with
    | zero => cases hr
    | succ e =>
      rw [if_neg (by omega), Nat.add_sub_cancel] at hr
      rw [collectCounts, h1, some_bind]
      dsimp only
      simp only [Option.bind_eq_bind, Option.bind_eq_some_iff] at hr ⊢
      obtain ⟨c', e1, e2⟩ := hr
      exact ⟨c', e1, ih e2⟩

theorem forRange_ref {σ τ : Type} {f : Nat → σ → Option σ} {g : Nat → τ → Option τ} (R : σ → τ → Prop)
    (h : ∀ i s s' t, f i s = some s' → R s t → ∃ t', g i t = some t' ∧ R s' t') : ∀ (n : Nat) {s s' : σ} {t : τ}, forRange 0 n s f = some s' → R s t →
    ∃ t', forRange 0 n t g = some t' ∧ R s' t'
  | 0, s, s', t, e, hr => by
    rw [forRange_empty (Nat.le_refl _)] at e ⊢
    cases e
    exact ⟨t, rfl, hr⟩
  | n + 1, s, s', t, e, hr => by
    rw [forRange_snoc (Nat.zero_le _)] at e ⊢
    simp only [Option.bind_eq_bind, Option.bind_eq_some_iff] at e
    obtain ⟨s1, e1, e2⟩ := e
    obtain ⟨t1, f1, r1⟩ := forRange_ref R h n e1 hr
    obtain ⟨t2, f2, r2⟩ := h n s1 s' t1 e2 r1
    rw [f1]
    exact ⟨t2, f2, r2⟩

/-- The arena computes what the values compute. -/
theorem lengthLimited_ref {freqs : Array Nat} {maxBits : Nat} {r : Array Nat} (h : Katajainen.lengthLimitedCodeLengths freqs maxBits = some r) :
    lengthLimitedCodeLengths freqs maxBits = some r := by
  unfold Katajainen.lengthLimitedCodeLengths at h
  unfold lengthLimitedCodeLengths
  dsimp only at h ⊢
  simp only [Option.bind_eq_bind, Option.bind_eq_some_iff] at h
  obtain ⟨u, hg, h⟩ := h
  rw [hg, some_bind]
  split at h
  · rename_i hc
    rw [if_pos hc]
    exact h
  · rename_i hc
    rw [if_neg hc]
    generalize ((usedLeaves freqs).toArray.toList.mergeSort fun a b => a.weight ≤ b.weight).toArray = leaves at *
    generalize hm : min ((usedLeaves freqs).toArray.size - 1) maxBits = mb at *
    generalize hn : (usedLeaves freqs).toArray.size = n at *
    simp only [Option.bind_eq_some_iff] at h
    obtain ⟨u', hg', l0, e0, l1, e1, h⟩ := h
    rw [hg', some_bind, e0, some_bind, e1, some_bind]
    dsimp only [Thing.alloc]
    split at h
    · cases h
    · rename_i hmb
      rw [if_neg hmb]
      simp only [Option.bind_eq_some_iff] at h
      obtain ⟨v1, h1, v2, h2, h3⟩ := h
      obtain ⟨k, rfl⟩ : ∃ k, mb = k + 1 := ⟨mb - 1, by omega⟩
      rw [Nat.add_sub_cancel] at h1 h2 ⊢
      -- the last list is not the first one
      obtain ⟨k, rfl⟩ : ∃ j, k = j + 1 := by
        cases k with
        | zero =>
          unfold Katajainen.boundaryPmFinal at h2
          simp only [Option.bind_eq_bind, Option.bind_eq_some_iff] at h2
          obtain ⟨_, _, h2⟩ := h2
          rw [if_pos trivial] at h2
          cases h2
        | succ k => exact ⟨k, rfl⟩
      have h0 : Rel (fun _ => True) (k + 1) ⟨(#[].push ⟨l0.weight, 1, none⟩).push ⟨l1.weight, 2, none⟩, Array.replicate 15 ⟨(#[] : Array Node).size, (#[].push (⟨l0.weight, 1, none⟩ : Node)).size⟩⟩
          (Array.replicate 15 ⟨.root l0.weight 1, .root l1.weight 2⟩) := by
        refine ⟨by simp, fun j _ w hw => ?_⟩
        rw [Array.getElem?_replicate] at hw
        split at hw
        · cases hw
          rename_i hj
          refine ⟨_, by dsimp only; rw [Array.getElem?_replicate, if_pos hj], .root (by simp) trivial, .root (by simp) trivial⟩
        · cases hw
      obtain ⟨m, hm'⟩ : ∃ m, 2 * n - 4 - 1 = m + 1 := ⟨2 * n - 4 - 2, by omega⟩
      rw [hm', forRange_snoc (Nat.zero_le _)] at h1
      rw [hm', forRange_snoc (Nat.zero_le _)]
      simp only [Option.bind_eq_bind, Option.bind_eq_some_iff] at h1
      obtain ⟨v0, h1a, h1b⟩ := h1
      obtain ⟨t0, f0, r0⟩ := forRange_ref (g := fun _ t => boundaryPm leaves (k + 1) t) (fun v t => Rel (fun _ => True) (k + 1) t v)
        (fun i s s' t e hr => by
          obtain ⟨t', e', g⟩ := boundaryPm_ref leaves (k + 1) _ t s s' e (fun _ _ => trivial) hr
          exact ⟨t', e', g.rel⟩) m h1a h0
      obtain ⟨t1, f1, g1⟩ := boundaryPm_ref leaves (k + 1) _ t0 v0 v1 h1b (fun _ _ => trivial) r0
      obtain ⟨q1, q2⟩ := g1.fresh k rfl
      obtain ⟨t2, f2, g2⟩ := final_ref leaves h2 g1.rel q1 q2
      rw [f0, some_bind, f1, some_bind, f2, some_bind]
      unfold Katajainen.extractBitLengths at h3
      unfold extractBitLengths
      simp only [Option.bind_eq_bind, Option.bind_eq_some_iff, Prod.exists, Nat.add_sub_cancel] at h3
      obtain ⟨w, hw, counts, end_, hcc, val, hval, h3⟩ := h3
      obtain ⟨l, hl, hrep⟩ := g2 w hw
      rw [Nat.add_sub_cancel, hl, some_bind, collect_ref hrep hcc, some_bind]
      dsimp only
      rw [hval, some_bind]
      exact h3

end Zopfli.Arena
