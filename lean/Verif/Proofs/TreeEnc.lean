import Verif.Proofs.Rle
/-! # The encoded trees of a dynamic block are read back by the decoder -/

namespace Zopfli
open Rfc Katajainen

theorem mapM_some {α β : Type} {f : α → Option β} {g : α → β} : ∀ (l : List α), (∀ x ∈ l, f x = some (g x)) →
    l.mapM f = some (l.map g)
  | [], _ => rfl
  | x :: l, h => by
    rw [List.mapM_cons, h x (by simp), some_bind, mapM_some l fun y hy => h y (by simp [hy])]
    rfl

theorem trimZeros_spec {get : Nat → Option Nat} : ∀ (n : Nat), (∀ h, h < n → ∃ v, get h = some v) →
    Ret (trimZeros get n) fun r => r ≤ n ∧ (∀ h, r ≤ h → h < n → get h = some 0) ∧ (0 < r → get (r - 1) ≠ some 0)
  | 0, _ => Ret.some ⟨Nat.le_refl _, fun h h1 h2 => by omega, fun h => by omega⟩
  | n + 1, hg => by
    unfold trimZeros
    obtain ⟨v, hv⟩ := hg n (by omega)
    refine Ret.bind (Ret.of_eq hv ?_)
    split
    · rename_i h0
      refine Ret.mono (trimZeros_spec n fun h hh => hg h (by omega)) ?_
      rintro r ⟨h1, h2, h3⟩
      refine ⟨by omega, fun h hh hh' => ?_, h3⟩
      rcases Nat.lt_or_eq_of_le (Nat.le_of_lt_succ hh') with hlt | rfl
      · exact h2 h hh hlt
      · rw [hv, h0]
    · rename_i h0
      refine Ret.pure ⟨Nat.le_refl _, fun h hh hh' => by omega, fun _ => ?_⟩
      simp only [Nat.add_sub_cancel, hv, ne_eq, Option.some.injEq]
      exact h0

/-- What a run of items leaves behind: values appear as symbols. -/
theorem rle_values : ∀ (items : List (Nat × Nat)) (acc acc' : List Nat), items.foldlM rleApply acc = some acc' →
    ∀ v ∈ acc', v ∈ acc ∨ v ∈ items.map (·.1) ∨ (v = 0 ∧ ∃ s ∈ items.map (·.1), 17 ≤ s)
  | [], acc, acc', h, v, hv => by
    simp at h; subst h; exact .inl hv
  | x :: items, acc, acc', h, v, hv => by
    rw [List.foldlM_cons] at h
    cases hx : rleApply acc x with
    | none => rw [hx] at h; cases h
    | some acc1 =>
      rw [hx, some_bind] at h
      rcases rle_values items acc1 acc' h v hv with h1 | h1 | ⟨h1, s, hs, h17⟩
      · unfold rleApply at hx
        split at hx
        · cases hx
          rcases List.mem_append.mp h1 with h1 | h1
          · exact .inl h1
          · right; left; simp at h1; simp [h1]
        · split at hx
          · cases hl : acc.getLast? with
            | none => rw [hl] at hx; cases hx
            | some p =>
              rw [hl] at hx; cases hx
              rcases List.mem_append.mp h1 with h1 | h1
              · exact .inl h1
              · have := List.eq_of_mem_replicate h1
                subst this
                exact .inl (List.mem_of_getLast? hl)
          · split at hx
            · cases hx
              rcases List.mem_append.mp h1 with h1 | h1
              · exact .inl h1
              · exact .inr (.inr ⟨List.eq_of_mem_replicate h1, x.1, by simp, by omega⟩)
            · cases hx
              rcases List.mem_append.mp h1 with h1 | h1
              · exact .inl h1
              · exact .inr (.inr ⟨List.eq_of_mem_replicate h1, x.1, by simp, by omega⟩)
      · exact .inr (.inl (by simp at h1 ⊢; exact .inr h1))
      · exact .inr (.inr ⟨h1, s, by simp at hs ⊢; exact .inr hs, h17⟩)

/-- Lengths usable in a dynamic block header. -/
structure LensOk (ll d : Array Nat) : Prop where
  lls : ll.size = 288
  ds : d.size = 32
  lle : ∀ i (h : i < ll.size), ll[i] ≤ 15
  de : ∀ i (h : i < d.size), d[i] ≤ 15

structure TreeOk (ll d : Array Nat) : Prop extends LensOk ll d where
  ll286 : ∀ i (_ : 286 ≤ i) (h : i < ll.size), ll[i] = 0
  d30 : ∀ i (_ : 30 ≤ i) (h : i < d.size), d[i] = 0
  ll256 : ll[256]? ≠ some 0
  llk : kraft15 ll.toList = 2 ^ 15
  dk : kraft15 d.toList = 2 ^ 15

/-- The list of lengths that is run-length coded. -/
def lensFn (ll d : Array Nat) (hlit2 i : Nat) : Nat := if i < hlit2 then ll.getD i 0 else d.getD (i - hlit2) 0

theorem lensFn_le {ll d : Array Nat} (h : LensOk ll d) (hlit2 i : Nat) : lensFn ll d hlit2 i ≤ 15 := by
  unfold lensFn
  split
  · rw [Array.getD_eq_getD_getElem?]
    by_cases hi : i < ll.size
    · simpa [hi] using h.lle i hi
    · simp [hi]
  · rw [Array.getD_eq_getD_getElem?]
    by_cases hi : i - hlit2 < d.size
    · simpa [hi] using h.de _ hi
    · simp [hi]

theorem lenAt_eq {ll d : Array Nat} (h : LensOk ll d) {hlit2 hdist : Nat} (h1 : hlit2 ≤ 288) (h2 : hdist ≤ 30) {i : Nat}
    (hi : i ≤ hlit2 + hdist + 1) : lenAt ll d hlit2 i = some (lensFn ll d hlit2 i) := by
  have hle := lensFn_le h hlit2 i
  unfold lenAt lensFn at *
  have := h.lls
  have := h.ds
  by_cases hlt : i < hlit2
  · rw [if_pos hlt] at hle ⊢
    rw [if_pos hlt]
    rw [Array.getElem?_eq_getElem (by omega), some_bind]
    simp only [Array.getD_eq_getD_getElem?, Array.getElem?_eq_getElem (show i < ll.size by omega), Option.getD_some] at hle ⊢
    show some _ = _
    congr 1
    omega
  · rw [if_neg hlt] at hle ⊢
    rw [if_neg hlt]
    rw [Array.getElem?_eq_getElem (by omega), some_bind]
    simp only [Array.getD_eq_getD_getElem?, Array.getElem?_eq_getElem (show i - hlit2 < d.size by omega), Option.getD_some] at hle ⊢
    show some _ = _
    congr 1
    omega

theorem lens_list {ll d : Array Nat} (h : LensOk ll d) {hlit2 hdist1 : Nat} (h1 : hlit2 ≤ 288) (h2 : hdist1 ≤ 32) :
    (List.range (hlit2 + hdist1)).map (lensFn ll d hlit2) = ll.toList.take hlit2 ++ d.toList.take hdist1 := by
  have := h.lls
  have := h.ds
  rw [List.range_add, List.map_append, List.map_map]
  congr 1
  · apply List.ext_getElem
    · simp; omega
    · intro i hi hi'
      simp at hi
      simp [lensFn, hi, show i < ll.size by omega]
  · apply List.ext_getElem
    · simp; omega
    · intro i hi hi'
      simp at hi
      simp [lensFn, show i < d.size by omega]

/-- Count of run-length symbols of each kind. -/
theorem sum_counts (f : Nat → Nat) : ∀ (items : List (Nat × Nat)), (∀ x ∈ items, x.1 < 19) →
    ∑ s ∈ Finset.range 19, f s * (items.filter (·.1 == s)).length = (items.map fun x => f x.1).sum
  | [], _ => by simp
  | x :: items, h => by
    rw [List.map_cons, List.sum_cons, ← sum_counts f items fun y hy => h y (by simp [hy])]
    have hx := h x (by simp)
    rw [← Finset.sum_erase_add _ _ (Finset.mem_range.mpr hx), ← Finset.sum_erase_add (Finset.range 19) _ (Finset.mem_range.mpr hx)]
    have : ∑ s ∈ (Finset.range 19).erase x.1, f s * ((x :: items).filter (·.1 == s)).length
        = ∑ s ∈ (Finset.range 19).erase x.1, f s * (items.filter (·.1 == s)).length := by
      refine Finset.sum_congr rfl fun s hs => ?_
      have : ¬ x.1 = s := fun e => by simp [e] at hs
      rw [List.filter_cons, if_neg (by simpa using this)]
    rw [this, List.filter_cons, if_pos (by simp), List.length_cons]
    ring

theorem extra_sum (c : Nat → Nat) : ∑ s ∈ Finset.range 19, rleExtra s * c s = c 16 * 2 + c 17 * 3 + c 18 * 7 := by
  simp only [Finset.sum_range_succ, Finset.range_zero, Finset.sum_empty, rleExtra]
  simp
  omega

theorem treeBits_loop {clcl clcounts : Array Nat} (h1 : clcl.size = 19) (h2 : clcounts.size = 19) (b : Nat) :
    Ret (forRange 0 19 b fun i r => do some (r + (← clcl[i]?) * (← clcounts[i]?)))
      fun r => r = b + ∑ s ∈ Finset.range 19, clcl.getD s 0 * clcounts.getD s 0 := by
  refine forRange_spec (fun i r => r = b + ∑ s ∈ Finset.range i, clcl.getD s 0 * clcounts.getD s 0)
      (by omega) (by simp) ?_
  rintro i r - hi rfl
  refine Ret.bind (Ret.getElem? (by omega) ?_)
  refine Ret.bind (Ret.getElem? (by omega) ?_)
  refine Ret.some ?_
  rw [Finset.sum_range_succ]
  simp [show i < clcl.size by omega, show i < clcounts.size by omega]
  omega

theorem treeBits_spec {clcl clcounts : Array Nat} (h1 : clcl.size = 19) (h2 : clcounts.size = 19) (hclen : Nat) :
    treeBits clcl clcounts hclen = some (14 + (hclen + 4) * 3
      + ∑ s ∈ Finset.range 19, (clcl.getD s 0 + rleExtra s) * clcounts.getD s 0) := by
  obtain ⟨r, e, hr⟩ := treeBits_loop h1 h2 (14 + (hclen + 4) * 3)
  unfold treeBits
  have g : ∀ i, i < 19 → clcounts[i]? = some (clcounts.getD i 0) := by
    intro i hi
    simp [h2, hi]
  rw [e, some_bind, g 16 (by omega), g 17 (by omega), g 18 (by omega), some_bind, some_bind, some_bind]
  have := extra_sum fun s => clcounts.getD s 0
  simp only [Nat.add_mul, Finset.sum_add_distrib]
  rw [this, hr, Option.pure_def, Option.some.injEq]
  ring

theorem rleApply_length {acc acc' : List Nat} {x : Nat × Nat} (h : rleApply acc x = some acc') : acc.length < acc'.length := by
  unfold rleApply at h
  split at h
  · cases h; simp
  · split at h
    · cases hl : acc.getLast? with
      | none => rw [hl] at h; cases h
      | some p => rw [hl] at h; cases h; simp
    · split at h <;> (cases h; simp)

theorem rleApply_fold_length : ∀ {items : List (Nat × Nat)} {acc acc' : List Nat}, items.foldlM rleApply acc = some acc' →
    acc.length + items.length ≤ acc'.length
  | [], acc, acc', h => by simp at h; subst h; simp
  | x :: items, acc, acc', h => by
    rw [List.foldlM_cons] at h
    cases hx : rleApply acc x with
    | none => rw [hx] at h; cases h
    | some acc1 =>
      rw [hx, some_bind] at h
      have h1 := rleApply_fold_length h
      have h2 := rleApply_length hx
      simp only [List.length_cons]
      omega

/-- The bits of one run-length item. -/
def itemBits (code clen : Nat → Nat) (x : Nat × Nat) : List Bool :=
  bitsMsb (code x.1) (clen x.1) ++ bitsLsb x.2 (rleExtra x.1)

theorem readLens_items {cl : List Nat} {total : Nat} {code clen : Nat → Nat} : ∀ (items : List (Nat × Nat)) (acc final : List Nat)
    (rest : List Bool) (pos : Nat), items.foldlM rleApply acc = some final → final.length = total →
    (∀ x ∈ items, RleItemOk x ∧ ∀ rest pos, decodeSym cl ⟨bitsMsb (code x.1) (clen x.1) ++ rest, pos⟩
      = some (x.1, ⟨rest, pos + clen x.1⟩)) →
    readLens cl total acc ⟨(items.map (itemBits code clen)).flatten ++ rest, pos⟩
      = some (final, ⟨rest, pos + (items.map (itemBits code clen)).flatten.length⟩)
  | [], acc, final, rest, pos, h, hf, _ => by
    simp at h; subst h
    rw [readLens.eq_1, if_pos hf]
    simp
  | x :: items, acc, final, rest, pos, h, hf, hx => by
    have hlen := rleApply_fold_length h
    rw [List.foldlM_cons] at h
    cases ha : rleApply acc x with
    | none => rw [ha] at h; cases h
    | some acc1 =>
      rw [ha, some_bind] at h
      obtain ⟨hok, hdec⟩ := hx x (by simp)
      simp only [List.length_cons] at hlen
      have ih := readLens_items items acc1 final rest (pos + clen x.1 + rleExtra x.1) h hf fun y hy => hx y (by simp [hy])
      rw [readLens.eq_1, if_neg (by omega), if_neg (by omega)]
      simp only [List.map_cons, List.flatten_cons, itemBits, List.append_assoc]
      rw [hdec, some_bind]
      dsimp only
      have hpos : pos + clen x.1 + rleExtra x.1 + (items.map (itemBits code clen)).flatten.length
          = pos + (bitsMsb (code x.1) (clen x.1) ++ (bitsLsb x.2 (rleExtra x.1) ++ (items.map (itemBits code clen)).flatten)).length := by
        simp [bitsMsb_length, bitsLsb_length]; omega
      rw [hpos] at ih
      obtain ⟨hok1, hok2⟩ := hok
      unfold rleApply at ha
      by_cases h16 : x.1 < 16
      · rw [if_pos h16] at ha ⊢
        cases ha
        have e0 : rleExtra x.1 = 0 := by unfold rleExtra; rw [if_neg (by omega), if_neg (by omega), if_neg (by omega)]
        rw [e0] at ih ⊢
        simpa [bitsLsb] using ih
      · rw [if_neg h16] at ha ⊢
        by_cases he : x.1 = 16
        · rw [if_pos he] at ha ⊢
          cases hl : acc.getLast? with
          | none => rw [hl] at ha; cases ha
          | some p =>
            rw [hl] at ha; cases ha
            have e0 : rleExtra x.1 = 2 := by simp [rleExtra, he]
            rw [e0] at ih hok2 ⊢
            rw [some_bind, readNat_lt hok2, some_bind]
            exact ih
        · rw [if_neg he] at ha ⊢
          by_cases he7 : x.1 = 17
          · rw [if_pos he7] at ha ⊢
            cases ha
            have e0 : rleExtra x.1 = 3 := by simp [rleExtra, he7]
            rw [e0] at ih hok2 ⊢
            rw [readNat_lt hok2, some_bind]
            exact ih
          · rw [if_neg he7] at ha ⊢
            cases ha
            have e0 : rleExtra x.1 = 7 := by simp [rleExtra, show x.1 = 18 by omega]
            rw [e0] at ih hok2 ⊢
            rw [readNat_lt hok2, some_bind]
            exact ih

theorem readCl_vals : ∀ (vals : List Nat) (rest : List Bool) (pos : Nat), (∀ v ∈ vals, v < 8) →
    readCl vals.length ⟨(vals.map (bitsLsb · 3)).flatten ++ rest, pos⟩
      = some (vals, ⟨rest, pos + 3 * vals.length⟩)
  | [], rest, pos, _ => by simp [readCl]
  | v :: vals, rest, pos, h => by
    have ih := readCl_vals vals rest (pos + 3) fun y hy => h y (by simp [hy])
    simp only [List.map_cons, List.flatten_cons, List.length_cons, readCl, List.append_assoc]
    rw [readNat_lt (h v (by simp)), some_bind]
    dsimp only
    rw [ih, some_bind]
    show some _ = some _
    rw [show pos + 3 + 3 * vals.length = pos + 3 * (vals.length + 1) by omega]

theorem clOrder_list : clOrder.toList = Rfc.clOrder := rfl

/-- The lengths of the code length code, stored in the RFC's order without the trailing unused ones, are recovered. -/
theorem clLens_eq {clcl : Array Nat} (hs : clcl.size = 19) {k : Nat}
    (hz : ∀ i, k ≤ i → i < 19 → ∀ j, Rfc.clOrder[i]? = some j → clcl.getD j 0 = 0) :
    clLens ((Rfc.clOrder.take k).map fun i => clcl.getD i 0) = clcl.toList := by
  unfold clLens
  apply List.ext_getElem
  · simp [hs]
  · intro i h1 h2
    have hi : i < 19 := by simpa using h1
    have hidx : Rfc.clOrder[Rfc.clOrder.idxOf i]? = some i ∧ Rfc.clOrder.idxOf i < 19 := by
      have : ∀ i : Fin 19, Rfc.clOrder[Rfc.clOrder.idxOf i.1]? = some i.1 ∧ Rfc.clOrder.idxOf i.1 < 19 := by decide
      exact this ⟨i, hi⟩
    have e : clcl.getD i 0 = clcl[i] := by simp [hs, hi]
    simp only [List.getElem_map, List.getElem_range, Array.getElem_toList, List.getElem?_map, List.getElem?_take]
    by_cases hlt : Rfc.clOrder.idxOf i < k
    · rw [if_pos hlt, hidx.1]
      simpa using e
    · rw [if_neg hlt]
      have := hz _ (by omega) hidx.2 i hidx.1
      simp
      omega

theorem two_used {f : Array Nat} {i j : Nat} (hij : i ≠ j) (hi : i < f.size) (hj : j < f.size) (hfi : f[i] ≠ 0) (hfj : f[j] ≠ 0) :
    2 ≤ (usedLeaves f).length := by
  have m1 : (⟨f[i], i⟩ : Leaf) ∈ usedLeaves f := usedLeaves_mem.mpr ⟨hi, rfl, hfi⟩
  have m2 : (⟨f[j], j⟩ : Leaf) ∈ usedLeaves f := usedLeaves_mem.mpr ⟨hj, rfl, hfj⟩
  generalize usedLeaves f = l at m1 m2
  match l, m1, m2 with
  | [x], m1, m2 =>
    have e := (List.mem_singleton.mp m1).trans (List.mem_singleton.mp m2).symm
    simp only [Leaf.mk.injEq] at e
    exact absurd e.2 hij
  | _ :: _ :: _, _, _ => simp

theorem usedLeaves_length_le (f : Array Nat) : (usedLeaves f).length ≤ f.size := by
  unfold usedLeaves
  exact Nat.le_trans (List.length_filterMap_le _ _) (by simp)

/-- Two different values among the lengths. -/
theorem two_values {ll d : Array Nat} (h : TreeOk ll d) {hlit : Nat} (hl : hlit ≤ 29)
    (hz : ∀ i, hlit ≤ i → i < 29 → ll[257 + i]? = some 0) (l2 : List Nat) :
    ∃ a ∈ ll.toList.take (hlit + 257) ++ l2, ∃ b ∈ ll.toList.take (hlit + 257) ++ l2, a ≠ b ∧ a ≠ 0 := by
  have hs := h.lls
  have hsplit : ll.toList = ll.toList.take (hlit + 257) ++ List.replicate (288 - (hlit + 257)) 0 := by
    refine (List.take_append_drop (hlit + 257) ll.toList).symm.trans ?_
    refine congrArg (List.take (hlit + 257) ll.toList ++ ·) ?_
    apply List.ext_getElem
    · simp [hs]
    · intro i h1 h2
      simp [hs] at h1
      simp only [List.getElem_drop, Array.getElem_toList, List.getElem_replicate]
      by_cases hi : hlit + i < 29
      · have := hz (hlit + i) (by omega) hi
        rw [Array.getElem?_eq_getElem (by omega)] at this
        have e := Option.some.inj this
        simp only [show 257 + (hlit + i) = hlit + 257 + i by omega] at e
        exact e
      · exact h.ll286 _ (by omega) _
  have hk : kraft15 (ll.toList.take (hlit + 257)) = 2 ^ 15 := by
    rw [← kraft15_zeros _ (288 - (hlit + 257)), ← hsplit]; exact h.llk
  have hlen : (ll.toList.take (hlit + 257)).length = hlit + 257 := by simp [hs]; omega
  have h256 : ll[256] ≠ 0 := by
    have := h.ll256
    rw [Array.getElem?_eq_getElem (by omega)] at this
    simpa using this
  have hm : ll[256] ∈ ll.toList.take (hlit + 257) := by
    rw [List.mem_iff_getElem]
    exact ⟨256, by omega, by simp⟩
  by_contra hcon
  push Not at hcon
  have hall : ∀ b ∈ ll.toList.take (hlit + 257), b = ll[256] := by
    intro b hb
    by_contra hne
    exact h256 (hcon ll[256] (by simp [hm]) b (List.mem_append.mpr (.inl hb)) (fun e => hne e.symm))
  have hrep := List.eq_replicate_of_mem hall
  rw [hlen] at hrep
  rw [hrep] at hk
  generalize ll[256] = v at *
  have hv : v ≤ 15 := by
    obtain ⟨i, hi, e⟩ := List.getElem_of_mem hm
    simp at e
    rw [← e]
    exact h.lle i _
  have : (hlit + 257) * 2 ^ (15 - v) = 2 ^ 15 := by
    simpa [kraft15, h256] using hk
  have hv' : 2 ^ v * 2 ^ (15 - v) = 2 ^ 15 := by rw [← Nat.pow_add, Nat.add_sub_cancel' hv]
  have heq : hlit + 257 = 2 ^ v := Nat.eq_of_mul_eq_mul_right (Nat.two_pow_pos (15 - v)) (this.trans hv'.symm)
  rcases Nat.lt_or_ge v 9 with h9 | h9
  · have : (2 : Nat) ^ v ≤ 2 ^ 8 := Nat.pow_le_pow_right (by omega) (by omega)
    omega
  · have : (2 : Nat) ^ 9 ≤ 2 ^ v := Nat.pow_le_pow_right (by omega) h9
    omega

/-- What the common first part of `encode_tree` and `encode_tree_no_output` computes. -/
structure TreePre (ll d : Array Nat) (u16 u17 u18 : Bool) (hlit hdist : Nat) (o : RleOut) (items : List (Nat × Nat))
    (clcl : Array Nat) (hclen : Nat) : Prop where
  e1 : trimZeros (fun h => ll[257 + h]?) 29 = some hlit
  e2 : trimZeros (fun h => d[1 + h]?) 29 = some hdist
  e3 : loopM (rleEncodeStep ll d (hlit + 257) (hlit + 257 + hdist + 1) u16 u17 u18)
    (0, ⟨Array.replicate 19 0, #[], #[]⟩) = some o
  e4 : loopM (sizeStep ll d (hlit + 257) (hlit + 257 + hdist + 1) u16 u17 u18) (0, Array.replicate 19 0) = some o.clcounts
  e5 : lengthLimitedCodeLengths o.clcounts 7 = some clcl
  e6 : trimZeros (fun h => do o.clcounts[← clOrder[h + 4]?]?) 15 = some hclen
  hl : hlit ≤ 29
  hlz : ∀ i, hlit ≤ i → i < 29 → ll[257 + i]? = some 0
  hd : hdist ≤ 29
  hdz : ∀ i, hdist ≤ i → i < 29 → d[1 + i]? = some 0
  hc : hclen ≤ 15
  hcz : ∀ i, hclen ≤ i → i < 15 → ∀ j, Rfc.clOrder[i + 4]? = some j → clcl.getD j 0 = 0
  enc : Enc o items (ll.toList.take (hlit + 257) ++ d.toList.take (hdist + 1))
  cls : clcl.size = 19
  cle : ∀ i, i < 19 → clcl.getD i 0 ≤ 7
  clz : ∀ i, i < 19 → (clcl.getD i 0 = 0 ↔ (items.filter (·.1 == i)).length = 0)
  clk : 2 ≤ (usedLeaves o.clcounts).length → kraft15 clcl.toList = 2 ^ 15
  clk' : kraft15 clcl.toList ≤ 2 ^ 15

theorem clOrder_get {i : Nat} (h : i < 19) : ∃ j, clOrder[i]? = some j ∧ j < 19 ∧ Rfc.clOrder[i]? = some j := by
  have : ∀ i : Fin 19, ∃ j : Fin 19, clOrder[i.1]? = some j.1 ∧ Rfc.clOrder[i.1]? = some j.1 := by decide
  obtain ⟨j, h1, h2⟩ := this ⟨i, h⟩
  exact ⟨j.1, h1, j.2, h2⟩

theorem tree_pre {ll d : Array Nat} (h : LensOk ll d) (u16 u17 u18 : Bool) :
    ∃ hlit hdist o items clcl hclen, TreePre ll d u16 u17 u18 hlit hdist o items clcl hclen := by
  have hs := h.lls
  have hds := h.ds
  obtain ⟨hlit, e1, hl, hlz, -⟩ := trimZeros_spec (get := fun h => ll[257 + h]?) 29
    (fun i hi => ⟨_, Array.getElem?_eq_getElem (by omega)⟩)
  obtain ⟨hdist, e2, hd, hdz, -⟩ := trimZeros_spec (get := fun h => d[1 + h]?) 29
    (fun i hi => ⟨_, Array.getElem?_eq_getElem (by omega)⟩)
  obtain ⟨o, e3, ⟨items, henc⟩, e4⟩ := rleEncode_spec (total := hlit + 257 + hdist + 1)
    (fun i hi => lenAt_eq h (hlit2 := hlit + 257) (hdist := hdist) (by omega) (by omega) hi)
    (lensFn_le h (hlit + 257)) u16 u17 u18
  rw [show hlit + 257 + hdist + 1 = hlit + 257 + (hdist + 1) from rfl, lens_list h (by omega) (by omega)] at henc
  obtain ⟨clcl, e5, hcs, hcl, hk, hk', -⟩ := lengthLimited_spec o.clcounts 7 (by rw [henc.size]; omega) (by omega) (by omega)
    (Nat.le_trans (usedLeaves_length_le _) (by rw [henc.size]; omega))
  have hcounts : ∀ s, s < 19 → o.clcounts[s]? = some ((items.filter (·.1 == s)).length) := henc.counts
  obtain ⟨hclen, e6, hc, hcz, -⟩ := trimZeros_spec (get := fun h => do o.clcounts[← clOrder[h + 4]?]?) 15
    (fun i hi => by
      obtain ⟨j, hj, hj', -⟩ := clOrder_get (i := i + 4) (by omega)
      exact ⟨_, by simp only [hj, some_bind, hcounts j hj']; rfl⟩)
  have clz : ∀ i, i < 19 → (clcl.getD i 0 = 0 ↔ (items.filter (·.1 == i)).length = 0) := by
    intro i hi
    obtain ⟨l, g1, g2, g3⟩ := hcl i (by rw [henc.size]; exact hi)
    have := hcounts i hi
    rw [Array.getElem?_eq_getElem (by rw [henc.size]; exact hi)] at this
    rw [← Option.some.inj this, ← g3, Array.getD_eq_getD_getElem?, g1]
    rfl
  have clcz : ∀ i, hclen ≤ i → i < 15 → ∀ j, Rfc.clOrder[i + 4]? = some j → clcl.getD j 0 = 0 := by
    intro i h1 h2 j hj
    have := hcz i h1 h2
    obtain ⟨j', hj1, hj2, hj3⟩ := clOrder_get (i := i + 4) (by omega)
    cases hj.symm.trans hj3
    simp only [hj1, some_bind, hcounts _ hj2] at this
    exact (clz _ hj2).mpr (Option.some.inj this)
  have cle : ∀ i, i < 19 → clcl.getD i 0 ≤ 7 := by
    intro i hi
    obtain ⟨l, g1, g2, -⟩ := hcl i (by rw [henc.size]; exact hi)
    rw [Array.getD_eq_getD_getElem?, g1]
    exact g2
  have hcs' : clcl.size = 19 := by rw [hcs, henc.size]
  have hlz' : ∀ i, hlit ≤ i → i < 29 → ll[257 + i]? = some 0 := hlz
  have hdz' : ∀ i, hdist ≤ i → i < 29 → d[1 + i]? = some 0 := hdz
  have q : TreePre ll d u16 u17 u18 hlit hdist o items clcl hclen := by
    constructor
    · exact e1
    · exact e2
    · exact e3
    · exact e4
    · exact e5
    · exact e6
    · exact hl
    · exact hlz'
    · exact hd
    · exact hdz'
    · exact hc
    · exact clcz
    · exact henc
    · exact hcs'
    · exact cle
    · exact clz
    · exact hk
    · exact hk'
  exact ⟨hlit, hdist, o, items, clcl, hclen, q⟩

/-- The size without output, in terms of the run-length items. -/
def treeSizeOf (items : List (Nat × Nat)) (clcl : Array Nat) (hclen : Nat) : Nat :=
  14 + (hclen + 4) * 3 + (items.map fun x => clcl.getD x.1 0 + rleExtra x.1).sum

theorem TreePre.size {ll d : Array Nat} {u16 u17 u18 : Bool} {hlit hdist : Nat} {o : RleOut} {items : List (Nat × Nat)}
    {clcl : Array Nat} {hclen : Nat} (p : TreePre ll d u16 u17 u18 hlit hdist o items clcl hclen) :
    encodeTreeNoOutput ll d u16 u17 u18 = some (treeSizeOf items clcl hclen) := by
  unfold encodeTreeNoOutput
  rw [p.e1, some_bind, p.e2, some_bind]
  dsimp only
  rw [p.e4, some_bind, p.e5, some_bind, p.e6, some_bind, treeBits_spec p.cls p.enc.size]
  unfold treeSizeOf
  rw [← sum_counts (fun s => clcl.getD s 0 + rleExtra s) items fun x hx => (p.enc.ok x hx).1]
  refine congrArg (fun z => some (14 + (hclen + 4) * 3 + z)) ?_
  refine Finset.sum_congr rfl fun s hs => ?_
  have := p.enc.counts s (Finset.mem_range.mp hs)
  rw [show o.clcounts.getD s 0 = _ from Array.getD_eq_getD_getElem?, this]
  rfl

theorem encodeTreeNoOutput_ret {ll d : Array Nat} (h : LensOk ll d) (u16 u17 u18 : Bool) :
    Ret (encodeTreeNoOutput ll d u16 u17 u18) fun n => 26 ≤ n := by
  obtain ⟨hlit, hdist, o, items, clcl, hclen, p⟩ := tree_pre h u16 u17 u18
  exact ⟨_, p.size, by unfold treeSizeOf; omega⟩

theorem calculateTreeSize_ret {ll d : Array Nat} (h : LensOk ll d) : Ret (calculateTreeSize ll d) fun _ => True := by
  unfold calculateTreeSize
  refine Ret.bind' (encodeTreeNoOutput_ret h _ _ _) fun _ _ => ?_
  refine Ret.bind' (encodeTreeNoOutput_ret h _ _ _) fun _ _ => ?_
  refine Ret.bind' (encodeTreeNoOutput_ret h _ _ _) fun _ _ => ?_
  refine Ret.bind' (encodeTreeNoOutput_ret h _ _ _) fun _ _ => ?_
  refine Ret.bind' (encodeTreeNoOutput_ret h _ _ _) fun _ _ => ?_
  refine Ret.bind' (encodeTreeNoOutput_ret h _ _ _) fun _ _ => ?_
  refine Ret.bind' (encodeTreeNoOutput_ret h _ _ _) fun _ _ => ?_
  refine Ret.bind' (encodeTreeNoOutput_ret h _ _ _) fun _ _ => ?_
  exact Ret.pure trivial

theorem take_zeros {a : Array Nat} {n k m : Nat} (hs : a.size = n) (hk : k ≤ n)
    (hz : ∀ i, k ≤ i → i < m → a[i]? = some 0) (hz' : ∀ i (_ : m ≤ i) (h : i < a.size), a[i] = 0) :
    a.toList = a.toList.take k ++ List.replicate (n - k) 0 := by
  refine (List.take_append_drop k a.toList).symm.trans ?_
  refine congrArg (List.take k a.toList ++ ·) ?_
  apply List.ext_getElem
  · simp [hs]
  · intro i h1 h2
    simp [hs] at h1
    simp only [List.getElem_drop, Array.getElem_toList, List.getElem_replicate]
    by_cases hi : k + i < m
    · have := hz (k + i) (by omega) hi
      rw [Array.getElem?_eq_getElem (by omega)] at this
      exact Option.some.inj this
    · exact hz' _ (by omega) _

/-- The trees written by `encode_tree` are read back by the decoder, and the predicted size is the number of bits. -/
theorem encodeTree_spec {ll d : Array Nat} (h : TreeOk ll d) (u16 u17 u18 : Bool) :
    Ret (encodeTree ll d u16 u17 u18) fun ops => ∃ bits, ops = bitOps bits ∧
      encodeTreeNoOutput ll d u16 u17 u18 = some bits.length ∧
      ∃ hdr : DynHeader, (∃ k, ll.toList = hdr.ll ++ List.replicate k 0) ∧ (∃ k, d.toList = hdr.d ++ List.replicate k 0) ∧
        ∀ rest pos, readDynHeader ⟨bits ++ rest, pos⟩ = some (hdr, ⟨rest, pos + bits.length⟩) := by
  have hs := h.lls
  have hds := h.ds
  obtain ⟨hlit, hdist, o, items, clcl, hclen, p⟩ := tree_pre h.toLensOk u16 u17 u18
  have hl := p.hl
  have hd := p.hd
  have hc := p.hc
  -- the code length code is complete
  obtain ⟨a, ha, b, hb, hab, ha0⟩ := two_values h p.hl p.hlz (d.toList.take (hdist + 1))
  have hle : ∀ v ∈ ll.toList.take (hlit + 257) ++ d.toList.take (hdist + 1), v ≤ 15 := by
    intro v hv
    rcases List.mem_append.mp hv with hv | hv
    · obtain ⟨i, hi, e⟩ := List.getElem_of_mem (List.mem_of_mem_take hv)
      rw [← e]; exact h.lle i (by simpa using hi)
    · obtain ⟨i, hi, e⟩ := List.getElem_of_mem (List.mem_of_mem_take hv)
      rw [← e]; exact h.de i (by simpa using hi)
  have hsym : ∃ s t, s ≠ t ∧ s ∈ items.map (·.1) ∧ t ∈ items.map (·.1) := by
    have hda := rle_values items [] _ p.enc.dec a ha
    have hdb := rle_values items [] _ p.enc.dec b hb
    have ha15 := hle a ha
    rcases hda with h1 | h1 | h1
    · cases h1
    · rcases hdb with h2 | h2 | ⟨_, s, h2, h17⟩
      · cases h2
      · exact ⟨a, b, hab, h1, h2⟩
      · exact ⟨a, s, by omega, h1, h2⟩
    · exact absurd h1.1 ha0
  have hcompl : kraft15 clcl.toList = 2 ^ 15 := by
    obtain ⟨s, t, hst, h1, h2⟩ := hsym
    have key : ∀ s ∈ items.map (·.1), ∃ hs : s < o.clcounts.size, o.clcounts[s] ≠ 0 := by
      intro s hs
      obtain ⟨x, hx, rfl⟩ := List.mem_map.mp hs
      have hx19 := (p.enc.ok x hx).1
      have := p.enc.counts x.1 hx19
      have hlt : x.1 < o.clcounts.size := by rw [p.enc.size]; exact hx19
      refine ⟨hlt, ?_⟩
      rw [Array.getElem?_eq_getElem hlt] at this
      rw [Option.some.inj this]
      have : x ∈ items.filter (·.1 == x.1) := List.mem_filter.mpr ⟨hx, by simp⟩
      intro e
      rw [List.length_eq_zero_iff] at e
      rw [e] at this
      cases this
    obtain ⟨g1, g2⟩ := key s h1
    obtain ⟨g3, g4⟩ := key t h2
    exact p.clk (two_used hst g1 g3 g2 g4)
  have hclle : ∀ i (hi : i < clcl.size), clcl[i] ≤ 7 := by
    intro i hi
    have := p.cle i (by rw [← p.cls]; exact hi)
    simpa [hi] using this
  obtain ⟨syms, es, hss, hdec⟩ := huff_decode (maxBits := 7) ⟨hclle, p.clk'⟩ (by omega)
  -- the items of the code length code
  have hlens : (clOrder.toList.take (hclen + 4)).mapM (fun item => do return addBits (← clcl[item]?) 3)
      = some ((clOrder.toList.take (hclen + 4)).map fun item => bitOps (bitsLsb (clcl.getD item 0) 3)) := by
    apply mapM_some
    intro x hx
    have hx' : x < 19 := by
      have : ∀ y ∈ clOrder.toList, y < 19 := by decide
      exact this x (List.mem_of_mem_take hx)
    rw [Array.getElem?_eq_getElem (by rw [p.cls]; exact hx'), some_bind, addBits_eq]
    simp [p.cls, hx']
  have hitems : (o.rle.toList.zip o.rleBits.toList).mapM (fun (x : Nat × Nat) => rleOps clcl syms x.1 x.2)
      = some (items.map fun x => bitOps (itemBits (fun s => syms.getD s 0) (fun s => clcl.getD s 0) x)) := by
    have hz : o.rle.toList.zip o.rleBits.toList = items := by
      rw [p.enc.rle, p.enc.bits]
      exact (List.zip_of_prod rfl rfl).symm
    rw [hz]
    apply mapM_some
    rintro ⟨s, b⟩ hx
    have hs19 : s < 19 := (p.enc.ok _ hx).1
    unfold rleOps
    rw [Array.getElem?_eq_getElem (show s < syms.size by rw [hss, p.cls]; exact hs19), some_bind]
    dsimp only
    rw [Array.getElem?_eq_getElem (show s < clcl.size by rw [p.cls]; exact hs19), some_bind]
    show some _ = some _
    congr 1
    simp only [itemBits, bitOps_append, addHuffmanBits_eq, addBits_eq]
    rw [Array.getD_eq_getD_getElem?, Array.getD_eq_getD_getElem?,
      Array.getElem?_eq_getElem (show s < syms.size by rw [hss, p.cls]; exact hs19),
      Array.getElem?_eq_getElem (show s < clcl.size by rw [p.cls]; exact hs19)]
    refine congrArg₂ (· ++ ·) rfl ?_
    unfold rleExtra
    split
    · rfl
    · split
      · rfl
      · split
        · rfl
        · rfl
  have hk1 : ll.toList = ll.toList.take (hlit + 257) ++ List.replicate (288 - (hlit + 257)) 0 :=
    take_zeros hs (by omega) (m := 286) (fun i h1 h2 => by
      have := p.hlz (i - 257) (by omega) (by omega)
      rwa [show 257 + (i - 257) = i by omega] at this) h.ll286
  have hk2 : d.toList = d.toList.take (hdist + 1) ++ List.replicate (32 - (hdist + 1)) 0 :=
    take_zeros hds (by omega) (m := 30) (fun i h1 h2 => by
      have := p.hdz (i - 1) (by omega) (by omega)
      rwa [show 1 + (i - 1) = i by omega] at this) h.d30
  let clbits := ((Rfc.clOrder.take (hclen + 4)).map fun item => bitsLsb (clcl.getD item 0) 3).flatten
  let itbits := (items.map (itemBits (fun s => syms.getD s 0) (fun s => clcl.getD s 0))).flatten
  have hcllen : clbits.length = 3 * (hclen + 4) := by
    have : ∀ l : List Nat, ((l.map fun item => bitsLsb (clcl.getD item 0) 3).flatten).length = 3 * l.length := by
      intro l
      induction l with
      | nil => rfl
      | cons x l ih => simp only [List.map_cons, List.flatten_cons, List.length_append, ih, bitsLsb_length, List.length_cons]; omega
    have e := this (Rfc.clOrder.take (hclen + 4))
    rw [List.length_take, show Rfc.clOrder.length = 19 from rfl, Nat.min_eq_left (by omega)] at e
    exact e
  have hitlen : itbits.length = (items.map fun x => clcl.getD x.1 0 + rleExtra x.1).sum := by
    show List.length (List.flatten _) = _
    rw [List.length_flatten, List.map_map]
    congr 1
    apply List.map_congr_left
    intro x _
    simp [itemBits, bitsMsb_length, bitsLsb_length]
  refine ⟨bitOps (bitsLsb hlit 5 ++ bitsLsb hdist 5 ++ bitsLsb hclen 4 ++ clbits ++ itbits), ?_,
    bitsLsb hlit 5 ++ bitsLsb hdist 5 ++ bitsLsb hclen 4 ++ clbits ++ itbits, rfl, ?_,
    ⟨clcl.toList, ll.toList.take (hlit + 257), d.toList.take (hdist + 1)⟩, ⟨_, hk1⟩, ⟨_, hk2⟩, ?_⟩
  · unfold encodeTree
    rw [p.e1, some_bind, p.e2, some_bind]
    dsimp only
    rw [p.e3, some_bind, p.e5, some_bind, es, some_bind, p.e6, some_bind, hlens, some_bind, hitems, some_bind]
    show some _ = some _
    congr 1
    simp only [bitOps_append, addBits_eq]
    refine congrArg₂ (· ++ ·) (congrArg₂ (· ++ ·) rfl ?_) ?_
    · rw [clOrder_list]
      show _ = bitOps (List.flatten _)
      rw [← bitOps_flatten, List.map_map]
      rfl
    · show _ = bitOps (List.flatten _)
      rw [← bitOps_flatten, List.map_map]
      rfl
  · rw [p.size]
    simp only [List.length_append, bitsLsb_length, hcllen, hitlen, treeSizeOf]
    congr 1
    omega
  · intro rest pos
    unfold readDynHeader
    simp only [List.append_assoc]
    rw [readNat_lt (by omega), some_bind]
    dsimp only
    rw [readNat_lt (by omega), some_bind]
    dsimp only
    rw [readNat_lt (by omega), some_bind]
    dsimp only
    rw [if_neg (by omega)]
    have hcl := readCl_vals ((Rfc.clOrder.take (hclen + 4)).map fun item => clcl.getD item 0) (itbits ++ rest) (pos + 5 + 5 + 4)
      (by
        intro v hv
        obtain ⟨x, hx, rfl⟩ := List.mem_map.mp hv
        have hx' : x < 19 := by
          have : ∀ y ∈ Rfc.clOrder, y < 19 := by decide
          exact this x (List.mem_of_mem_take hx)
        have := p.cle x hx'
        omega)
    rw [List.length_map, List.length_take, show Rfc.clOrder.length = 19 from rfl, Nat.min_eq_left (by omega), List.map_map] at hcl
    have hcl' : readCl (hclen + 4) ⟨clbits ++ (itbits ++ rest), pos + 5 + 5 + 4⟩ = _ := hcl
    simp only [Option.pure_def]
    rw [hcl', some_bind]
    dsimp only
    rw [clLens_eq p.cls (by
      intro i h1 h2 j hj
      refine p.hcz (i - 4) (by omega) (by omega) j ?_
      rwa [show i - 4 + 4 = i by omega])]
    have hcc : completeCode 7 clcl.toList = true := by
      simp only [completeCode, Bool.and_eq_true, beq_iff_eq, hcompl, and_true, List.all_eq_true, decide_eq_true_eq]
      intro v hv
      obtain ⟨i, hi, e⟩ := List.getElem_of_mem hv
      rw [← e]
      exact hclle i (by simpa using hi)
    rw [if_neg (by simp [hcc])]
    have hrl := readLens_items (cl := clcl.toList) (total := hlit + 257 + (hdist + 1)) (code := fun s => syms.getD s 0)
      (clen := fun s => clcl.getD s 0) items [] _ rest (pos + 5 + 5 + 4 + 3 * (hclen + 4)) p.enc.dec
      (by simp [hs, hds]; omega) (by
        intro x hx
        refine ⟨p.enc.ok x hx, ?_⟩
        have hx19 := (p.enc.ok x hx).1
        have hlt : x.1 < clcl.size := by rw [p.cls]; exact hx19
        have hnz : clcl[x.1] ≠ 0 := by
          intro e
          have := (p.clz x.1 hx19).mp (by simpa [hlt] using e)
          rw [List.length_eq_zero_iff] at this
          have hm : x ∈ items.filter (·.1 == x.1) := List.mem_filter.mpr ⟨hx, by simp⟩
          rw [this] at hm
          cases hm
        obtain ⟨c, hc1, hc2⟩ := hdec x.1 hlt hnz
        intro rest pos
        have := hc2 rest pos
        rw [Array.getD_eq_getD_getElem?, Array.getD_eq_getD_getElem?, hc1, Array.getElem?_eq_getElem hlt]
        exact this)
    have hrl' : readLens clcl.toList (hlit + 257 + (hdist + 1)) [] ⟨itbits ++ rest, pos + 5 + 5 + 4 + 3 * (hclen + 4)⟩ = _ := hrl
    rw [hrl', some_bind]
    dsimp only
    have hlen : (ll.toList.take (hlit + 257)).length = hlit + 257 := by simp [hs]; omega
    rw [List.take_left' hlen, List.drop_left' hlen]
    have hc1 : completeCode 15 (ll.toList.take (hlit + 257)) = true := by
      simp only [completeCode, Bool.and_eq_true, beq_iff_eq, List.all_eq_true, decide_eq_true_eq]
      refine ⟨fun v hv => hle v (List.mem_append.mpr (.inl hv)), ?_⟩
      rw [← kraft15_zeros _ (288 - (hlit + 257)), ← hk1]; exact h.llk
    have hc2 : completeCode 15 (d.toList.take (hdist + 1)) = true := by
      simp only [completeCode, Bool.and_eq_true, beq_iff_eq, List.all_eq_true, decide_eq_true_eq]
      refine ⟨fun v hv => hle v (List.mem_append.mpr (.inr hv)), ?_⟩
      rw [← kraft15_zeros _ (32 - (hdist + 1)), ← hk2]; exact h.dk
    have hc3 : (ll.toList.take (hlit + 257))[256]? ≠ some 0 := by
      rw [List.getElem?_take, if_pos (by omega)]
      simpa using h.ll256
    rw [if_neg (by simp only [hc1, hc2]; simpa using hc3)]
    show some _ = some _
    congr 3
    simp only [List.length_append, bitsLsb_length, hcllen]
    show _ + itbits.length = _
    omega

end Zopfli
