import Verif.Proofs.FloatLaws
import Verif.Proofs.Parse
import Verif.Model.Squeeze
/-! # The optimal parser finds a path -/

namespace Zopfli

/-- A loop that carries a part of the state on which the result does not depend. -/
theorem relLoop {κ τ σ ρ θ : Type} {mk : κ → τ → σ} {body : σ → Option (σ ⊕ (ρ × θ))} (J : τ → Prop) (J' : θ → Prop)
    (I : κ → Prop) (μ : κ → Nat) (Q : ρ → Prop)
    (hs : ∀ k, I k → (∃ k', I k' ∧ μ k' < μ k ∧ ∀ t, J t → ∃ t', J t' ∧ body (mk k t) = some (.inl (mk k' t'))) ∨
      (∃ r, Q r ∧ ∀ t, J t → ∃ t', J' t' ∧ body (mk k t) = some (.inr (r, t'))))
    (k : κ) (h0 : I k) : ∃ r, Q r ∧ ∀ t, J t → ∃ t', J' t' ∧ loopM body (mk k t) = some (r, t') := by
  generalize hn : μ k = n
  induction n using Nat.strongRecOn generalizing k with
  | ind n ih =>
    subst hn
    rcases hs k h0 with ⟨k', h1, h2, h3⟩ | ⟨r, h1, h2⟩
    · obtain ⟨a, ha, hb⟩ := ih _ h2 k' h1 rfl
      refine ⟨a, ha, fun t hc => ?_⟩
      obtain ⟨t', hc', e⟩ := h3 t hc
      obtain ⟨t2, hc2, e2⟩ := hb t' hc'
      refine ⟨t2, hc2, ?_⟩
      rw [loopM.eq_1, e]
      exact e2
    · refine ⟨r, h1, fun t hc => ?_⟩
      obtain ⟨t', hc', e⟩ := h2 t hc
      refine ⟨t', hc', ?_⟩
      rw [loopM.eq_1, e]
      rfl

variable {F : FloatOps}

/-- The cost model gives a plausible cost for every possible item. -/
structure CostOk (L : FloatLaws F) (cm : Nat → Nat → Option F.F64) : Prop where
  lit : ∀ b, b < 256 → ∃ c, cm b 0 = some c ∧ L.Sym c
  copy : ∀ len dist, 3 ≤ len → len ≤ 258 → 1 ≤ dist → dist ≤ 32768 → ∃ c, cm len dist = some c ∧ L.Sym c

theorem costFixed_ok (L : FloatLaws F) : CostOk L (getCostFixed F) where
  lit := by
    intro b hb
    exact ⟨_, by unfold getCostFixed; rw [if_pos rfl], L.sym_nat _ (by split <;> omega)⟩
  copy := by
    intro len dist h1 h2 h3 h4
    obtain ⟨s, eb, v, e1, e2, -, -, -, -, -, -, -, h5, -⟩ := length_spec h1 h2
    obtain ⟨-, -, -, -, -, h6, -⟩ := dist_spec h3 h4
    refine ⟨_, by unfold getCostFixed; rw [if_neg (by omega), e2, e1]; rfl, L.sym_nat _ (by split <;> omega)⟩

theorem minCost_spec {L : FloatLaws F} {cm : Nat → Nat → Option F.F64} (hc : CostOk L cm) : ∃ c, getCostModelMinCost F cm = some c ∧ L.Sym c := by
  have h1 := forRange_spec (f := fun i ((bestlength, mincost) : Nat × F.F64) => do
      let c ← cm i 1
      if F.lt c mincost then return (i, c) else return (bestlength, mincost)) (a := 3) (b := 259) (s := (0, F.inf))
    (fun i s => if i = 3 then s = (0, F.inf) else 3 ≤ s.1 ∧ s.1 ≤ 258) (by omega) (by rw [if_pos rfl]) (by
      rintro i ⟨bl, mc⟩ hi1 hi2 h
      obtain ⟨c, e, hs⟩ := hc.copy i 1 hi1 (by omega) (by omega) (by omega)
      refine Ret.mono (P := fun s => 3 ≤ s.1 ∧ s.1 ≤ 258) ?_ (fun s hs => by rw [if_neg (by omega)]; exact hs)
      dsimp only
      rw [e, some_bind]
      by_cases h3 : i = 3
      · rw [if_pos h3] at h
        cases h
        rw [L.sym_lt_inf c hs, if_pos rfl]
        exact ⟨_, rfl, by simp only; omega⟩
      · rw [if_neg h3] at h
        split
        · exact ⟨_, rfl, by simp only; omega⟩
        · exact ⟨_, rfl, h⟩)
  obtain ⟨⟨bl, mc⟩, e1, hb⟩ := h1
  rw [if_neg (by omega)] at hb
  have hd : ∀ i, i < 30 → ∃ d, dsymbols[i]? = some d ∧ 1 ≤ d ∧ d ≤ 32768 := by decide
  have h2 := forRange_spec (f := fun i ((bestdist, mincost) : Nat × F.F64) => do
      let dsym ← dsymbols[i]?
      let c ← cm 3 dsym
      if F.lt c mincost then return (dsym, c) else return (bestdist, mincost)) (a := 0) (b := dsymbols.size) (s := (0, F.inf))
    (fun i s => if i = 0 then s = (0, F.inf) else 1 ≤ s.1 ∧ s.1 ≤ 32768) (by omega) (by rw [if_pos rfl]) (by
      rintro i ⟨bl, mc⟩ hi1 hi2 h
      obtain ⟨d, e, hd1, hd2⟩ := hd i hi2
      obtain ⟨c, e', hs⟩ := hc.copy 3 d (by omega) (by omega) hd1 hd2
      refine Ret.mono (P := fun s => 1 ≤ s.1 ∧ s.1 ≤ 32768) ?_ (fun s hs => by rw [if_neg (by omega)]; exact hs)
      dsimp only
      rw [e, some_bind, e', some_bind]
      by_cases h3 : i = 0
      · rw [if_pos h3] at h
        cases h
        rw [L.sym_lt_inf c hs, if_pos rfl]
        exact ⟨_, rfl, by simp only; omega⟩
      · rw [if_neg h3] at h
        split
        · exact ⟨_, rfl, by simp only; omega⟩
        · exact ⟨_, rfl, h⟩)
  obtain ⟨⟨bd, mc'⟩, e2, hb'⟩ := h2
  rw [if_neg (by decide)] at hb'
  dsimp only at hb hb'
  obtain ⟨c, e3, hs⟩ := hc.copy bl bd hb.1 hb.2 hb'.1 hb'.2
  refine ⟨c, ?_, hs⟩
  unfold getCostModelMinCost
  refine Eq.trans (congrArg (· >>= _) e1) ?_
  rw [some_bind]
  refine Eq.trans (congrArg (· >>= _) e2) ?_
  exact e3

/-- Entry `x` of the length array is set. -/
def Nz (la : Array Nat) (x : Nat) : Prop := ∃ k, la[x]? = some k ∧ k ≠ 0

/-- The tables of `get_best_lengths`. -/
structure Tab (L : FloatLaws F) (O : Oracle) (instart n : Nat) (costs : Array F.F32) (la : Array Nat) : Prop where
  cs : costs.size = n + 1
  ls : la.size = n + 1
  B : ∀ x k, la[x]? = some k → k ≠ 0 → k ≤ x ∧ (k = 1 ∨ 3 ≤ k ∧ k ≤ O.L (instart + x - k))
  D1 : ∀ x, x ≤ n → (x = 0 ∨ Nz la x) → ∃ c, costs[x]? = some c ∧ L.Acc c
  D2 : ∀ x, 0 < x → x ≤ n → ¬ Nz la x → costs[x]? = some F.inf32

/-- Nothing that was set has been unset. -/
def Mono (la la' : Array Nat) : Prop := ∀ x, Nz la x → Nz la' x

theorem Tab.set {L : FloatLaws F} {O : Oracle} {instart n : Nat} {costs : Array F.F32} {la : Array Nat} (h : Tab L O instart n costs la)
    {y k : Nat} {c : F.F32} (hy : y ≤ n) (hk0 : k ≠ 0) (hk : k ≤ y ∧ (k = 1 ∨ 3 ≤ k ∧ k ≤ O.L (instart + y - k))) (hc : L.Acc c) :
    ∃ costs' la', aset costs y c = some costs' ∧ aset la y k = some la' ∧ Tab L O instart n costs' la' ∧ Mono la la' ∧ Nz la' y ∧
      (∀ x, x ≠ y → costs'[x]? = costs[x]? ∧ la'[x]? = la[x]?) := by
  have h1 : y < costs.size := by rw [h.cs]; omega
  have h2 : y < la.size := by rw [h.ls]; omega
  have hne : ∀ x, x ≠ y → (costs.set y c h1)[x]? = costs[x]? ∧ (la.set y k h2)[x]? = la[x]? := by
    intro x hx
    rw [Array.getElem?_set, if_neg (by omega), Array.getElem?_set, if_neg (by omega)]
    exact ⟨rfl, rfl⟩
  have heq : (costs.set y c h1)[y]? = some c ∧ (la.set y k h2)[y]? = some k := by
    rw [Array.getElem?_set, if_pos rfl, Array.getElem?_set, if_pos rfl]
    exact ⟨rfl, rfl⟩
  have hnz : Nz (la.set y k h2) y := ⟨k, heq.2, hk0⟩
  refine ⟨_, _, aset_eq h1 c, aset_eq h2 k, ⟨by simp [h.cs], by simp [h.ls], ?_, ?_, ?_⟩, ?_, hnz, hne⟩
  · intro x k' hx hk'
    by_cases hxy : x = y
    · subst hxy
      rw [heq.2] at hx
      cases hx
      exact hk
    · rw [(hne x hxy).2] at hx
      exact h.B x k' hx hk'
  · intro x hx hor
    by_cases hxy : x = y
    · subst hxy
      exact ⟨c, heq.1, hc⟩
    · rw [(hne x hxy).1]
      refine h.D1 x hx (hor.imp_right ?_)
      rintro ⟨k', e, hk'⟩
      exact ⟨k', by rw [← (hne x hxy).2]; exact e, hk'⟩
  · intro x hx0 hx hn
    by_cases hxy : x = y
    · subst hxy
      exact absurd hnz hn
    · rw [(hne x hxy).1]
      refine h.D2 x hx0 hx ?_
      rintro ⟨k', e, hk'⟩
      exact hn ⟨k', by rw [(hne x hxy).2]; exact e, hk'⟩
  · rintro x ⟨k', e, hk'⟩
    by_cases hxy : x = y
    · subst hxy
      exact hnz
    · exact ⟨k', by rw [(hne x hxy).2]; exact e, hk'⟩

theorem Tab.get {L : FloatLaws F} {O : Oracle} {instart n : Nat} {costs : Array F.F32} {la : Array Nat} (h : Tab L O instart n costs la)
    {x : Nat} (h0 : 0 < x) (hx : x ≤ n) : ∃ c, costs[x]? = some c ∧ (¬ Nz la x → c = F.inf32) := by
  by_cases hn : Nz la x
  · obtain ⟨c, e, -⟩ := h.D1 x hx (.inr hn)
    exact ⟨c, e, fun h => absurd hn h⟩
  · exact ⟨_, h.D2 x h0 hx hn, fun _ => rfl⟩

theorem tryLiteral_spec {L : FloatLaws F} {O : Oracle} {instart n : Nat} {costs : Array F.F32} {la : Array Nat} (h : Tab L O instart n costs la)
    {cm : Nat → Nat → Option F.F64} (hcm : CostOk L cm) {arr : Array UInt8} {i j : Nat} (hi : i < arr.size) (hj : j + 1 ≤ n)
    (hr : j = 0 ∨ Nz la j) :
    ∃ costs' la', tryLiteral F cm arr i j costs la = some (costs', la') ∧ Tab L O instart n costs' la' ∧ Mono la la' ∧ Nz la' (j + 1) := by
  obtain ⟨c, e1, hs⟩ := hcm.lit arr[i].toNat arr[i].toNat_lt
  obtain ⟨x, e2, hx⟩ := h.D1 j (by omega) hr
  obtain ⟨y, e3, hy⟩ := h.get (x := j + 1) (by omega) hj
  unfold tryLiteral
  rw [Array.getElem?_eq_getElem hi]
  simp only [some_bind, e1, e2, e3]
  rw [guardR_eq (L.cost_ok c x hs hx), some_bind]
  by_cases hlt : F.lt (F.add c (F.toF64 x)) (F.toF64 y) = true
  · rw [if_pos hlt]
    obtain ⟨costs', la', g1, g2, g3, g4, g5, -⟩ := h.set (y := j + 1) (k := 1) hj (by omega) ⟨by omega, .inl rfl⟩ (L.acc_step c x hs hx)
    rw [g1, some_bind, g2, some_bind]
    exact ⟨costs', la', rfl, g3, g4, g5⟩
  · rw [if_neg hlt]
    refine ⟨costs, la, rfl, h, fun _ h => h, ?_⟩
    by_contra hn
    rw [hy hn] at hlt
    exact hlt (L.lt_inf32 c x hs hx)

theorem tryLengths_congr {cm : Nat → Nat → Option F.F64} {mc : F.F64} {s s' : Array Nat} {kend j : Nat} {costs : Array F.F32} {la : Array Nat}
    (hs : s.size = 259) (hs' : s'.size = 259) (h : ∀ k, 3 ≤ k → k ≤ kend → s[k]? = s'[k]?) :
    tryLengths F cm mc s kend j costs la = tryLengths F cm mc s' kend j costs la := by
  unfold tryLengths
  rw [hs, hs']
  refine forRange_congr fun k st hk1 hk2 => ?_
  rw [h k hk1 (by omega)]

theorem tryLengths_short {cm : Nat → Nat → Option F.F64} {mc : F.F64} {s s' : Array Nat} {kend kend' j : Nat} {costs : Array F.F32} {la : Array Nat}
    (h : kend < 3) (h' : kend' < 3) :
    tryLengths F cm mc s kend j costs la = tryLengths F cm mc s' kend' j costs la := by
  unfold tryLengths
  rw [forRange_empty (by omega), forRange_empty (by omega)]

theorem tryLengths_spec {L : FloatLaws F} {O : Oracle} {instart n : Nat} {costs : Array F.F32} {la : Array Nat} (h : Tab L O instart n costs la)
    {cm : Nat → Nat → Option F.F64} (hcm : CostOk L cm) {j kend : Nat} {mc x : F.F64} {xj : F.F32} (hmc : L.Sym mc) (hxj : costs[j]? = some xj)
    (hxe : x = F.add mc (F.toF64 xj)) (hr : j = 0 ∨ Nz la j) {sub : Array Nat} (hsub : sub.size = 259)
    (hsd : ∀ k, 3 ≤ k → k ≤ kend → ∃ d, sub[k]? = some d ∧ 1 ≤ d ∧ d ≤ 32768)
    (hk : kend ≤ O.L (instart + j)) (h258 : kend ≤ 258) (hn : 3 ≤ kend → j + kend ≤ n) :
    ∃ costs' la', tryLengths F cm x sub kend j costs la = some (costs', la') ∧ Tab L O instart n costs' la' ∧ Mono la la' ∧
      ∀ k, 3 ≤ k → k ≤ kend → Nz la' (j + k) := by
  by_cases h3 : kend < 3
  · refine ⟨costs, la, ?_, h, fun _ h => h, by omega⟩
    unfold tryLengths
    rw [forRange_empty (by omega)]
  have := forRange_spec (f := fun k ((costs : Array F.F32), (lengthArray : Array Nat)) => do
      if F.le (F.toF64 (← costs[j + k]?)) x then return (costs, lengthArray)
      else do
        let newCost := F.add (← cm k (← sub[k]?)) (F.toF64 (← costs[j]?))
        guardR (F.costOk newCost)
        if F.lt newCost (F.toF64 (← costs[j + k]?)) then do
          guardR (k ≤ MAX_MATCH)
          return (← aset costs (j + k) (F.toF32 newCost), ← aset lengthArray (j + k) k)
        else return (costs, lengthArray)) (a := 3) (b := min (kend + 1) sub.size) (s := (costs, la))
    (fun k st => Tab L O instart n st.1 st.2 ∧ Mono la st.2 ∧ st.1[j]? = some xj ∧ ∀ k', 3 ≤ k' → k' < k → Nz st.2 (j + k'))
    (by omega) ⟨h, fun _ h => h, hxj, by omega⟩ (by
      rintro k ⟨costs, la'⟩ hk1 hk2 ⟨i1, i2, i3, i4⟩
      dsimp only at i1 i2 i3 i4 ⊢
      obtain ⟨d, e1, hd1, hd2⟩ := hsd k hk1 (by omega)
      obtain ⟨c, e2, hs⟩ := hcm.copy k d hk1 (by omega) hd1 hd2
      obtain ⟨y, e3, hy⟩ := i1.get (x := j + k) (by omega) (by omega)
      obtain ⟨xj', e4, hacc⟩ := i1.D1 j (by omega) (hr.imp_right (i2 j))
      rw [i3] at e4
      cases e4
      have hdone : Nz la' (j + k) → ∀ k', 3 ≤ k' → k' < k + 1 → Nz la' (j + k') := by
        intro hz k' h1 h2
        by_cases h : k' = k
        · rw [h]; exact hz
        · exact i4 k' h1 (by omega)
      simp only [e1, e2, e3, i3, some_bind]
      by_cases hle : F.le (F.toF64 y) x = true
      · rw [if_pos hle]
        refine ⟨_, rfl, i1, i2, i3, hdone ?_⟩
        by_contra hz
        rw [hy hz, hxe, L.not_le_inf32 mc xj hmc hacc] at hle
        cases hle
      · rw [if_neg hle, guardR_eq (L.cost_ok c xj hs hacc), some_bind]
        by_cases hlt : F.lt (F.add c (F.toF64 xj)) (F.toF64 y) = true
        · rw [if_pos hlt]
          obtain ⟨costs2, la2, g1, g2, g3, g4, g5, g6⟩ := i1.set (y := j + k) (k := k) (by omega) (by omega)
            ⟨by omega, .inr ⟨hk1, by rw [show instart + (j + k) - k = instart + j by omega]; omega⟩⟩ (L.acc_step c xj hs hacc)
          have h258' : k ≤ MAX_MATCH := by rw [MAX_MATCH]; omega
          rw [guardR_eq (by simp only [decide_eq_true_eq]; exact h258'), some_bind, g1, some_bind, g2, some_bind]
          refine ⟨_, rfl, g3, fun x hx => g4 x (i2 x hx), ?_, ?_⟩
          · dsimp only
            rw [(g6 j (by omega)).1, i3]
          · intro k' h1 h2
            by_cases h : k' = k
            · rw [h]; exact g5
            · exact g4 _ (i4 k' h1 (by omega))
        · rw [if_neg hlt]
          refine ⟨_, rfl, i1, i2, i3, hdone ?_⟩
          by_contra hz
          rw [hy hz] at hlt
          exact hlt (L.lt_inf32 c xj hs hacc))
  obtain ⟨⟨costs', la'⟩, e, i1, i2, i3, i4⟩ := this
  refine ⟨costs', la', e, i1, i2, fun k h1 h2 => i4 k h1 (by omega)⟩

/-! ## Long runs -/

theorem hashAt_HashInv {arr : Array UInt8} {ws n : Nat} {h : ZopfliHash} (h1 : ws < arr.size) (h2 : ws ≤ n) (h3 : n ≤ arr.size)
    (e : hashAt arr ws n = some h) : HashInv arr ws n h := by
  obtain ⟨h', e', hi⟩ := hashAt_inv h1 (n - ws) (by omega)
  rw [show ws + (n - ws) = n by omega] at e' hi
  rw [e] at e'
  cases e'
  exact hi

theorem inLongRun_spec {arr : Array UInt8} {ws instart i : Nat} {h : ZopfliHash} (hws : ws ≤ instart) (h1 : instart ≤ i) (h2 : i < arr.size)
    (hh : hashAt arr ws (i + 1) = some h) :
    ∃ b, inLongRun h instart arr.size i = some b ∧
      (b = true → instart + 259 < i ∧ i + 517 < arr.size ∧ Run arr (i - 258) 775) := by
  have hi := hashAt_HashInv (by omega) (by omega) (by omega) hh
  have hss := hi.sameSize
  have m1 : i % 32768 < h.same.size := by rw [hss]; exact Nat.mod_lt _ (by omega)
  have m2 : (i - 258) % 32768 < h.same.size := by rw [hss]; exact Nat.mod_lt _ (by omega)
  unfold inLongRun
  dsimp only [WINDOW_SIZE, MAX_MATCH]
  rw [Array.getElem?_eq_getElem m1, some_bind, Array.getElem?_eq_getElem m2, some_bind]
  split
  · rename_i hc
    refine ⟨_, rfl, fun hb => ?_⟩
    have hb := of_decide_eq_true hb
    have r1 := hi.same i _ (by omega) (by omega) (by omega) (Array.getElem?_eq_getElem m1)
    have r2 := hi.same (i - 258) _ (by omega) (by omega) (by omega) (Array.getElem?_eq_getElem m2)
    refine ⟨by omega, by omega, by omega, fun j hj => ?_⟩
    by_cases hj2 : j ≤ 258
    · exact r2.2 j (by omega)
    · have e1 := r1.2 (j - 258) (by omega)
      have e2 := r2.2 258 (by omega)
      rw [show i - 258 + j = i + (j - 258) by omega, e1, ← e2, show i - 258 + 258 = i by omega]
  · exact ⟨_, rfl, by intro h; cases h⟩

theorem run_L {arr : Array UInt8} {ws i pos : Nat} {O : Oracle} (hO : IsOracle arr ws O) (hr : Run arr (i - 258) 775) (h258 : ws + 258 < i)
    (hsz : i + 517 < arr.size) (h1 : i - 257 ≤ pos) (h2 : pos ≤ i + 257) : O.L pos = 258 := by
  refine hO.const pos (by omega) (by omega) ⟨by omega, fun j hj => ?_⟩
  have e1 := hr.2 (pos - 1 + j - (i - 258)) (by omega)
  have e2 := hr.2 (pos - 1 - (i - 258)) (by omega)
  rw [show i - 258 + (pos - 1 + j - (i - 258)) = pos - 1 + j by omega] at e1
  rw [show i - 258 + (pos - 1 - (i - 258)) = pos - 1 by omega] at e2
  rw [e1, e2]

theorem skipRun_spec {L : FloatLaws F} {O : Oracle} {arr : Array UInt8} {ws instart i : Nat} {costs : Array F.F32} {la : Array Nat}
    (h : Tab L O instart (arr.size - instart) costs la) {cm : Nat → Nat → Option F.F64} (hcm : CostOk L cm)
    (hws : ws ≤ instart) (hi : instart ≤ i) (hsz : i + 517 < arr.size)
    {hh : ZopfliHash} (hash : hashAt arr ws (i + 1) = some hh)
    (hL : ∀ k, k < 258 → O.L (i + k) = 258) (hz : ∀ k, k < 258 → i - instart + k = 0 ∨ Nz la (i - instart + k)) :
    ∃ h' costs' la', skipRun F cm arr instart i hh costs la = some (h', costs', la') ∧ hashAt arr ws (i + 258 + 1) = some h' ∧
      Tab L O instart (arr.size - instart) costs' la' ∧ Mono la la' ∧ ∀ k, k < 258 → Nz la' (i - instart + 258 + k) := by
  obtain ⟨c, e1, hs⟩ := hcm.copy 258 1 (by omega) (by omega) (by omega) (by omega)
  unfold skipRun
  dsimp only [MAX_MATCH]
  rw [e1, some_bind]
  have := forRange_spec (f := fun k ((h : ZopfliHash), (costs : Array F.F32), (la : Array Nat)) => do
      let j := i + k - instart
      let c' ← costs[j]?
      let costs ← aset costs (j + 258) (F.add32 c' (F.toF32 c))
      let la ← aset la (j + 258) 258
      let h ← h.update arr (i + k + 1)
      return (h, costs, la)) (a := 0) (b := 258) (s := (hh, costs, la))
    (fun k st => hashAt arr ws (i + k + 1) = some st.1 ∧ Tab L O instart (arr.size - instart) st.2.1 st.2.2 ∧ Mono la st.2.2 ∧
      ∀ k', k' < k → Nz st.2.2 (i - instart + 258 + k')) (by omega) ⟨hash, h, fun _ h => h, by omega⟩ (by
      rintro k ⟨h', costs', la'⟩ - hk ⟨i1, i2, i3, i4⟩
      dsimp only at i1 i2 i3 i4 ⊢
      rw [show i + k - instart = i - instart + k by omega]
      obtain ⟨x, e2, hx⟩ := i2.D1 (i - instart + k) (by omega) ((hz k hk).imp_right (i3 _))
      obtain ⟨costs2, la2, g1, g2, g3, g4, g5, g6⟩ := i2.set (y := i - instart + k + 258) (k := 258) (by omega) (by omega)
            ⟨by omega, .inr ⟨by omega, by rw [show instart + (i - instart + k + 258) - 258 = i + k by omega, hL k hk]⟩⟩ (L.acc_step32 c x hs hx)
      obtain ⟨h2, e3, e4⟩ := hashAt_next (by omega) i1 (by omega)
      rw [e2, some_bind, g1, some_bind, g2, some_bind, e3, some_bind]
      refine ⟨_, rfl, ?_, g3, fun x hx => g4 x (i3 x hx), ?_⟩
      · rw [← Nat.add_assoc]; exact e4
      · intro k' hk'
        by_cases hkk : k' = k
        · subst hkk
          rw [show i - instart + 258 + k' = i - instart + k' + 258 by omega]; exact g5
        · exact g4 _ (i4 k' (by omega)))
  obtain ⟨⟨h', costs', la'⟩, e, i1, i2, i3, i4⟩ := this
  exact ⟨h', costs', la', e, i1, i2, i3, i4⟩

/-! ## The main loop -/

/-- The state of `get_best_lengths`' loop, without the cache and the buffer. -/
structure BCore (F : FloatOps) where
  i : Nat
  h : ZopfliHash
  costs : Array F.F32
  la : Array Nat

/-- The state of `get_best_lengths`' loop. -/
def BCore.with (b : BCore F) (t : Cache × Array Nat) : BestState F := ⟨b.i, b.h, t.1, b.costs, b.la, t.2⟩

/-- The invariant of `get_best_lengths`' loop. -/
structure BInv (L : FloatLaws F) (arr : Array UInt8) (ws : Nat) (O : Oracle) (instart : Nat) (b : BCore F) : Prop where
  lo : instart ≤ b.i
  hi : b.i ≤ arr.size
  hash : hashAt arr ws b.i = some b.h
  tab : Tab L O instart (arr.size - instart) b.costs b.la
  C : ∀ x, 0 < x → x ≤ b.i - instart → Nz b.la x
  E1 : instart < b.i → ∀ k, 3 ≤ k → k ≤ O.L (b.i - 1) → Nz b.la (b.i - instart - 1 + k)
  E2 : instart + 1 < b.i → 3 ≤ O.L (b.i - 2) → Nz b.la (b.i - instart + 1)

/-- The distances of the oracle, as an array. -/
def subD (O : Oracle) (i : Nat) : Array Nat := Array.ofFn (n := 259) fun k => O.D i k.val

theorem subD_get {O : Oracle} {i k : Nat} (h : k < 259) : (subD O i)[k]? = some (O.D i k) := by
  unfold subD
  rw [Array.getElem?_ofFn, dif_pos h]

/-- What the part of an iteration after the skip does to the tables. -/
def TailRun (F : FloatOps) (cm : Nat → Nat → Option F.F64) (mc : F.F64) (arr : Array UInt8) (O : Oracle) (instart i : Nat)
    (costs : Array F.F32) (la : Array Nat) (costs' : Array F.F32) (la' : Array Nat) : Prop :=
  ∃ costs1 la1 xj, tryLiteral F cm arr i (i - instart) costs la = some (costs1, la1) ∧ costs1[i - instart]? = some xj ∧
    tryLengths F cm (F.add mc (F.toF64 xj)) (subD O i) (O.L i) (i - instart) costs1 la1 = some (costs', la')

/-- What an iteration does to the tables. -/
def StepRun (F : FloatOps) (cm : Nat → Nat → Option F.F64) (mc : F.F64) (arr : Array UInt8) (O : Oracle) (ws instart : Nat) (b b' : BCore F) : Prop :=
  (b'.i = b.i + 1 ∧ TailRun F cm mc arr O instart b.i b.costs b.la b'.costs b'.la) ∨
  (b'.i = b.i + 259 ∧ instart + 259 < b.i ∧ b.i + 517 < arr.size ∧ Run arr (b.i - 258) 775 ∧
    ∃ h h2 costs1 la1, hashAt arr ws (b.i + 1) = some h ∧ skipRun F cm arr instart b.i h b.costs b.la = some (h2, costs1, la1) ∧
      TailRun F cm mc arr O instart (b.i + 258) costs1 la1 b'.costs b'.la)

/-- The part of an iteration after the skip. -/
theorem bestTail_spec {L : FloatLaws F} {O : Oracle} {arr : Array UInt8} {ws instart i : Nat} (hO : IsOracle arr ws O) {costs : Array F.F32} {la : Array Nat}
    (h : Tab L O instart (arr.size - instart) costs la) {cm : Nat → Nat → Option F.F64} (hcm : CostOk L cm) {mc : F.F64} (hmc : L.Sym mc)
    (hws : ws ≤ instart) (hi : instart ≤ i) (hlt : i < arr.size)
    {hh : ZopfliHash} (hash : hashAt arr ws (i + 1) = some hh) (C : ∀ x, 0 < x → x ≤ i - instart → Nz la x)
    (E : instart < i → 3 ≤ O.L (i - 1) → Nz la (i - instart + 2)) :
    ∃ costs' la', BInv L arr ws O instart ⟨i + 1, hh, costs', la'⟩ ∧ TailRun F cm mc arr O instart i costs la costs' la' ∧ ∀ (lmc : Cache) (sublen : Array Nat), CacheInv arr O instart lmc → sublen.size = 259 →
      ∃ lmc' sublen', CacheInv arr O instart lmc' ∧ sublen'.size = 259 ∧
      (do let j := i - instart
          let (m, lmc, sub) ← findLongestMatch lmc hh arr i arr.size instart MAX_MATCH (some sublen)
          let sublen ← sub
          let (costs, lengthArray) ← (if i < arr.size then tryLiteral F cm arr i j costs la
                                 else some (costs, la))
          let kend := min m.length (arr.size - i)
          let mincostaddcostj := F.add mc (F.toF64 (← costs[j]?))
          let (costs, lengthArray) ← tryLengths F cm mincostaddcostj sublen kend j costs lengthArray
          return .inl ⟨i + 1, hh, lmc, costs, lengthArray, sublen⟩ : Option (BestState F ⊕ (Array Nat × Cache))) =
        some (.inl ⟨i + 1, hh, lmc', costs', la', sublen'⟩) := by
  have hr : i - instart = 0 ∨ Nz la (i - instart) := by
    by_cases h0 : i - instart = 0
    · exact .inl h0
    · exact .inr (C _ (by omega) (Nat.le_refl _))
  obtain ⟨costs1, la1, e1, t1, m1, n1⟩ := tryLiteral_spec h hcm hlt (j := i - instart) (by omega) hr
  have hr1 := hr.imp_right (m1 _)
  obtain ⟨xj, ej, -⟩ := t1.D1 (i - instart) (by omega) hr1
  have hLle := hO.le i
  have hLle' := hO.le' i (by omega)
  obtain ⟨costs2, la2, e2, t2, m2, n2⟩ := tryLengths_spec t1 hcm hmc ej rfl hr1 (sub := subD O i) (by simp [subD]) (kend := O.L i)
    (fun k h1 h2 => by
      have ht := hO.tm i k (by omega) (by omega) h2
      have d1 := ht.d1
      have d2 := ht.d2
      exact ⟨_, subD_get (by omega), d1, by omega⟩) (by rw [show instart + (i - instart) = i by omega]) hLle (by omega)
  refine ⟨costs2, la2, ⟨by simp only; omega, by simp only; omega, hash, t2, ?_, ?_, ?_⟩, ⟨_, _, _, e1, ej, e2⟩, ?_⟩
  · intro x hx0 hx
    dsimp only at hx
    by_cases hxe : x = i - instart + 1
    · rw [hxe]; exact m2 _ n1
    · exact m2 _ (m1 _ (C x hx0 (by omega)))
  · intro _ k h1 h2
    dsimp only at h2 ⊢
    rw [show i + 1 - instart - 1 + k = i - instart + k by omega]
    exact n2 k h1 h2
  · intro h1 h2
    dsimp only at h1 h2 ⊢
    rw [show i + 1 - instart + 1 = i - instart + 2 by omega]
    exact m2 _ (m1 _ (E (by omega) h2))
  · intro lmc sublen hc hsz
    obtain ⟨m, lmc', sub', e3, hc', hf⟩ := findLongestMatch_spec hO (by omega) hc hi hlt hash (sub := some sublen) (lim := 258)
      (by rintro s ⟨⟩; exact ⟨hsz, rfl⟩) ⟨by omega, by omega⟩
    obtain ⟨s', rfl, hsz', hget⟩ := hf.sub1 sublen rfl
    refine ⟨lmc', s', hc', by omega, ?_⟩
    dsimp only [MAX_MATCH]
    rw [e3, some_bind]
    dsimp only
    rw [some_bind, if_pos hlt, e1, some_bind]
    dsimp only
    rw [ej, some_bind]
    have hte : tryLengths F cm (F.add mc (F.toF64 xj)) s' (min m.length (arr.size - i)) (i - instart) costs1 la1 = some (costs2, la2) := by
      rw [← e2]
      by_cases h3 : 3 ≤ O.L i
      · have hml := (hf.long (by omega)).1
        rw [hml, show min (min 258 (O.L i)) (arr.size - i) = O.L i by omega]
        refine tryLengths_congr (by omega) (by simp [subD]) fun k h1 h2 => ?_
        rw [hget rfl k h1 h2, subD_get (by omega)]
      · have hml := (hf.short (by omega)).1
        exact tryLengths_short (by omega) (by omega)
    rw [hte, some_bind]
    rfl

theorem bestStep_spec {L : FloatLaws F} {O : Oracle} {arr : Array UInt8} {ws instart : Nat} (hO : IsOracle arr ws O)
    {cm : Nat → Nat → Option F.F64} (hcm : CostOk L cm) {mc : F.F64} (hmc : L.Sym mc)
    (hws : ws ≤ instart) {b : BCore F} (hb : BInv L arr ws O instart b) (hlt : b.i < arr.size) :
    ∃ b', BInv L arr ws O instart b' ∧ b.i < b'.i ∧ StepRun F cm mc arr O ws instart b b' ∧ ∀ t : Cache × Array Nat, (CacheInv arr O instart t.1 ∧ t.2.size = 259) →
      ∃ t' : Cache × Array Nat, (CacheInv arr O instart t'.1 ∧ t'.2.size = 259) ∧
        bestStep F cm mc arr instart arr.size (b.with t) = some (.inl (b'.with t')) := by
  obtain ⟨i, h, costs, la⟩ := b
  have g1 := hb.lo
  have g3 := hb.hash
  have tab := hb.tab
  have C := hb.C
  have E1 := hb.E1
  have E2 := hb.E2
  dsimp only at g1 g3 tab C E1 E2 hlt
  obtain ⟨h', eh, hh⟩ := hashAt_next (by omega) g3 hlt
  obtain ⟨long, el, hlong⟩ := inLongRun_spec hws g1 hlt hh
  cases long with
  | false =>
    obtain ⟨costs', la', hinv, htail, hrun⟩ := bestTail_spec hO tab hcm hmc hws g1 hlt hh C
      (fun h1 h2 => by have := E1 h1 3 (Nat.le_refl _) h2; rwa [show i - instart - 1 + 3 = i - instart + 2 by omega] at this)
    refine ⟨_, hinv, by simp only; omega, .inl ⟨rfl, htail⟩, ?_⟩
    rintro ⟨lmc, sublen⟩ ⟨hc, hsz⟩
    obtain ⟨lmc', sublen', hc', hsz', e⟩ := hrun lmc sublen hc hsz
    refine ⟨(lmc', sublen'), ⟨hc', hsz'⟩, ?_⟩
    show bestStep F cm mc arr instart arr.size ⟨i, h, lmc, costs, la, sublen⟩ = _
    rw [bestStep, if_pos hlt, eh, some_bind, el, some_bind, if_neg (by simp), some_bind]
    exact e
  | true =>
    obtain ⟨l1, l2, l3⟩ := hlong rfl
    have hL : ∀ pos, i - 257 ≤ pos → pos ≤ i + 257 → O.L pos = 258 := fun pos h1 h2 => run_L hO l3 (by omega) l2 h1 h2
    obtain ⟨h2, costs1, la1, es, hh2, tab1, mono, hz⟩ := skipRun_spec tab hcm hws g1 l2 hh (fun k hk => hL _ (by omega) (by omega)) (by
      intro k hk
      right
      by_cases hk0 : k = 0
      · exact C _ (by omega) (by omega)
      by_cases hk1 : k = 1
      · rw [hk1]; exact E2 (by omega) (by rw [hL _ (by omega) (by omega)]; omega)
      · have := E1 (by omega) (k + 1) (by omega) (by rw [hL _ (by omega) (by omega)]; omega)
        rwa [show i - instart - 1 + (k + 1) = i - instart + k by omega] at this)
    obtain ⟨costs', la', hinv, htail, hrun⟩ := bestTail_spec hO tab1 hcm hmc hws (i := i + 258) (by omega) (by omega) hh2 (by
        intro x hx0 hx
        by_cases hx1 : x ≤ i - instart
        · exact mono _ (C x hx0 hx1)
        by_cases hx2 : x = i - instart + 1
        · rw [hx2]; exact mono _ (E2 (by omega) (by rw [hL _ (by omega) (by omega)]; omega))
        by_cases hx3 : x < i - instart + 258
        · have := E1 (by omega) (x - (i - instart) + 1) (by omega) (by rw [hL _ (by omega) (by omega)]; omega)
          rw [show i - instart - 1 + (x - (i - instart) + 1) = x by omega] at this
          exact mono _ this
        · have := hz (x - (i - instart + 258)) (by omega)
          rwa [show i - instart + 258 + (x - (i - instart + 258)) = x by omega] at this)
      (fun _ _ => by have := hz 2 (by omega); rwa [show i - instart + 258 + 2 = i + 258 - instart + 2 by omega] at this)
    refine ⟨_, hinv, by simp only; omega, .inr ⟨rfl, l1, l2, l3, _, _, _, _, hh, es, htail⟩, ?_⟩
    rintro ⟨lmc, sublen⟩ ⟨hc, hsz⟩
    obtain ⟨lmc', sublen', hc', hsz', e⟩ := hrun lmc sublen hc hsz
    refine ⟨(lmc', sublen'), ⟨hc', hsz'⟩, ?_⟩
    show bestStep F cm mc arr instart arr.size ⟨i, h, lmc, costs, la, sublen⟩ = _
    rw [bestStep, if_pos hlt, eh, some_bind, el, some_bind, if_pos rfl, es, some_bind]
    exact e

/-- Every position can be reached, by steps that are possible. -/
structure LaOk (O : Oracle) (instart n : Nat) (la : Array Nat) : Prop where
  size : la.size = n + 1
  step : ∀ x k, la[x]? = some k → k ≠ 0 → k ≤ x ∧ (k = 1 ∨ 3 ≤ k ∧ k ≤ O.L (instart + x - k))
  all : ∀ x, 0 < x → x ≤ n → Nz la x

/-- Whatever the iterations preserve holds at the end. -/
theorem getBestLengths_inv {L : FloatLaws F} {O : Oracle} {data : Array UInt8} {instart inend : Nat}
    (hO : IsOracle (data.extract 0 inend) (instart - 32768) O) {cm : Nat → Nat → Option F.F64} (hcm : CostOk L cm)
    (h1 : instart ≤ inend) (h2 : inend ≤ data.size) (X : Nat → Array F.F32 → Array Nat → Prop)
    (hX0 : ∀ hc, X instart ((Array.replicate (inend - instart + 1) F.inf32).set 0 F.zero32 hc) (Array.replicate (inend - instart + 1) 0))
    (hX : ∀ mc b b', getCostModelMinCost F cm = some mc → BInv L (data.extract 0 inend) (instart - 32768) O instart b → b.i < inend → X b.i b.costs b.la →
      StepRun F cm mc (data.extract 0 inend) O (instart - 32768) instart b b' → X b'.i b'.costs b'.la) :
    CRet (data.extract 0 inend) O instart (fun lmc => getBestLengths F lmc data instart inend cm)
      (fun la => LaOk O instart (inend - instart) la ∧ ∃ costs, X inend costs la) := by
  by_cases he : instart = inend
  · subst he
    refine ⟨Array.replicate (instart - instart + 1) 0, ⟨⟨by simp, ?_, by omega⟩, _, hX0 (by simp)⟩, fun lmc hc => ⟨lmc, hc, ?_⟩⟩
    · intro x k hx hk
      rw [Array.getElem?_replicate] at hx
      split at hx
      · cases hx; exact absurd rfl hk
      · cases hx
    · show getBestLengths _ _ _ _ _ _ = _
      rw [getBestLengths, usub_eq h1, some_bind, if_pos rfl]
      rfl
  · have hsz : (data.extract 0 inend).size = inend := by rw [Array.size_extract]; omega
    obtain ⟨hh, e1, e2⟩ := warmHash_spec (arr := data.extract 0 inend) (instart := instart) (by omega)
    obtain ⟨mc, e3, hmc⟩ := minCost_spec hcm
    have hc0 : 0 < (Array.replicate (inend - instart + 1) F.inf32).size := by simp
    have hn0 : ∀ x, ¬ Nz (Array.replicate (inend - instart + 1) 0) x := by
      rintro x ⟨k, hx, hk⟩
      rw [Array.getElem?_replicate] at hx
      split at hx
      · cases hx; exact hk rfl
      · cases hx
    have := relLoop (mk := BCore.with (F := F)) (body := bestStep F cm mc (data.extract 0 inend) instart (data.extract 0 inend).size)
      (fun t => CacheInv (data.extract 0 inend) O instart t.1 ∧ t.2.size = 259) (fun c => CacheInv (data.extract 0 inend) O instart c)
      (fun b => BInv L (data.extract 0 inend) (instart - 32768) O instart b ∧ X b.i b.costs b.la) (fun b => inend - b.i)
      (fun la => LaOk O instart (inend - instart) la ∧ ∃ costs, X inend costs la) (by
        rintro b ⟨hb, hx⟩
        by_cases hlt : b.i < inend
        · obtain ⟨b', g1, g2, g4, g3⟩ := bestStep_spec hO hcm hmc (Nat.sub_le _ _) hb (by omega)
          exact .inl ⟨b', ⟨g1, hX mc b b' e3 hb hlt hx g4⟩, by omega, g3⟩
        · have := hb.hi
          have htab := hb.tab
          rw [hsz] at htab
          have hbe : b.i = inend := by omega
          refine .inr ⟨b.la, ⟨⟨htab.ls, htab.B, fun x h1 h2 => hb.C x h1 (by omega)⟩, b.costs, hbe ▸ hx⟩, ?_⟩
          rintro ⟨lmc, sub⟩ ⟨hc, -⟩
          refine ⟨lmc, hc, ?_⟩
          show bestStep F cm mc _ instart _ ⟨_, _, _, _, _, _⟩ = _
          obtain ⟨c, ec, hacc⟩ := htab.D1 (inend - instart) (Nat.le_refl _) (by
            by_cases h0 : inend - instart = 0
            · exact .inl h0
            · exact .inr (hb.C _ (by omega) (by omega)))
          have hc' : (BCore.costs b)[inend - instart]? = some c := ec
          rw [bestStep, if_neg (by omega), hsz, usub_eq h1, some_bind, hc', some_bind]
          dsimp only
          rw [guardR_eq (L.acc_ok c hacc), some_bind, guardR_eq (L.acc_lt_inf c hacc), some_bind]
          rfl)
      ⟨instart, hh, (Array.replicate (inend - instart + 1) F.inf32).set 0 F.zero32 hc0, Array.replicate (inend - instart + 1) 0⟩
      ⟨⟨Nat.le_refl _, by simp only; omega, e2, ⟨by simp [hsz], by simp [hsz], fun x k hx hk => absurd ⟨k, hx, hk⟩ (hn0 x), fun x hx hor => by
          rcases hor with rfl | h
          · exact ⟨_, by simp, L.acc_zero⟩
          · exact absurd h (hn0 x), fun x hx0 hx _ => by
          simp only
          rw [Array.getElem?_set, if_neg (by omega), Array.getElem?_replicate, if_pos (by omega)]⟩, by simp only; omega, by simp only; omega, by simp only; omega⟩, hX0 hc0⟩
    obtain ⟨la, hla, h⟩ := this
    rw [hsz] at h e1
    refine ⟨la, hla, fun lmc hc => ?_⟩
    obtain ⟨lmc', hc', e⟩ := h (lmc, Array.replicate (MAX_MATCH + 1) 0) ⟨hc, by simp⟩
    refine ⟨lmc', hc', ?_⟩
    show getBestLengths _ _ _ _ _ _ = _
    rw [getBestLengths, usub_eq h1, some_bind, if_neg he, slice_eq (Nat.zero_le _) h2, some_bind, e1, some_bind, aset_eq hc0, some_bind, e3, some_bind]
    exact e

theorem getBestLengths_spec {L : FloatLaws F} {O : Oracle} {data : Array UInt8} {instart inend : Nat}
    (hO : IsOracle (data.extract 0 inend) (instart - 32768) O) {cm : Nat → Nat → Option F.F64} (hcm : CostOk L cm)
    (h1 : instart ≤ inend) (h2 : inend ≤ data.size) :
    CRet (data.extract 0 inend) O instart (fun lmc => getBestLengths F lmc data instart inend cm) (LaOk O instart (inend - instart)) :=
  (getBestLengths_inv hO hcm h1 h2 (fun _ _ _ => True) (fun _ => trivial) (fun _ _ _ _ _ _ _ _ => trivial)).mono fun _ h => h.1

theorem traceFrom_spec {O : Oracle} {instart n : Nat} {la : Array Nat} (hL : ∀ pos, O.L pos ≤ 258) (h : LaOk O instart n la) :
    ∀ x, x ≤ n → ∃ path, traceFrom la x = some path ∧ PathOk O instart path.reverse (instart + x) := by
  intro x
  induction x using Nat.strongRecOn with
  | ind x ih =>
    intro hx
    rw [traceFrom]
    by_cases h0 : x = 0
    · subst h0
      rw [if_pos rfl]
      exact ⟨[], rfl, rfl⟩
    · rw [if_neg h0]
      obtain ⟨k, e, hk⟩ := h.all x (by omega) hx
      obtain ⟨s1, s2⟩ := h.step x k e hk
      rw [e]
      dsimp only
      have h258 : k ≤ MAX_MATCH := by
        rw [MAX_MATCH]
        have := hL (instart + x - k)
        omega
      rw [if_pos ⟨s1, h258, by omega⟩]
      obtain ⟨path, e', hp⟩ := ih (x - k) (by omega) (by omega)
      rw [e', some_bind]
      refine ⟨_, rfl, ?_⟩
      rw [List.reverse_cons]
      refine hp.append ⟨?_, ?_⟩
      · rw [show instart + (x - k) = instart + x - k by omega]; exact s2
      · show instart + (x - k) + k = instart + x
        omega

/-- One run of the optimal parser describes the range, whatever the cache. -/
theorem lz77OptimalRun_spec {L : FloatLaws F} {O : Oracle} {data : Array UInt8} {instart inend : Nat}
    (hO : IsOracle (data.extract 0 inend) (instart - 32768) O) {cm : Nat → Nat → Option F.F64} (hcm : CostOk L cm)
    (h1 : instart ≤ inend) (h2 : inend ≤ data.size) :
    CRet (data.extract 0 inend) O instart (fun lmc => lz77OptimalRun F lmc data instart inend cm Lz77Store.new) (StoreOk data instart inend) := by
  obtain ⟨la, hla, g1⟩ := getBestLengths_spec hO hcm h1 h2
  obtain ⟨path, e, hp⟩ := traceFrom_spec hO.le hla (inend - instart) (Nat.le_refl _)
  rw [show instart + (inend - instart) = inend by omega] at hp
  obtain ⟨s, hs, g2⟩ := followPath_spec hO h1 h2 hp
  refine ⟨s, hs.1, fun lmc hc => ?_⟩
  obtain ⟨lmc', hc', e1⟩ := g1 lmc hc
  obtain ⟨lmc2, hc2, e2⟩ := g2 lmc' hc'
  refine ⟨lmc2, hc2, ?_⟩
  show lz77OptimalRun _ _ _ _ _ _ _ = _
  have e1 : getBestLengths F lmc data instart inend cm = some (la, lmc') := e1
  rw [lz77OptimalRun, e1, some_bind]
  dsimp only
  rw [trace, e, some_bind]
  exact e2

end Zopfli
