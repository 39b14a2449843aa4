import Verif.Proofs.StatCost
/-! # The least cost of a copy -/

namespace Zopfli
open Fp Rfc

/-- `getCostModelMinCost` when costs are known to be (embedded) rational numbers. -/
theorem minCost_min (F : FloatOps) (e : ℚ → F.F64) (hlt : ∀ x y, F.lt (e x) (e y) = true ↔ x < y) (hinf : ∀ x, F.lt (e x) F.inf = true)
    {cm : Nat → Nat → Option F.F64} (f : Nat → Nat → ℚ) (hcm : ∀ len dist, (LitLen.lengthDist len dist).InRange → cm len dist = some (e (f len dist))) :
    ∃ bl bd, (LitLen.lengthDist bl bd).InRange ∧ getCostModelMinCost F cm = some (e (f bl bd)) ∧ (∀ i, 3 ≤ i → i ≤ 258 → f bl 1 ≤ f i 1) ∧
      ∀ (i : Nat) d, dsymbols[i]? = some d → f 3 bd ≤ f 3 d := by
  have h1 := forRange_spec (f := fun i ((bestlength, mincost) : Nat × F.F64) => do
      let c ← cm i 1
      if F.lt c mincost then return (i, c) else return (bestlength, mincost)) (a := 3) (b := 259) (s := (0, F.inf))
    (fun i s => if i = 3 then s = (0, F.inf) else 3 ≤ s.1 ∧ s.1 ≤ 258 ∧ s.2 = e (f s.1 1) ∧ ∀ i', 3 ≤ i' → i' < i → f s.1 1 ≤ f i' 1) (by omega) (by rw [if_pos rfl]) (by
      rintro i ⟨bl, mc⟩ hi1 hi2 h
      refine Ret.mono (P := fun s => 3 ≤ s.1 ∧ s.1 ≤ 258 ∧ s.2 = e (f s.1 1) ∧ ∀ i', 3 ≤ i' → i' < i + 1 → f s.1 1 ≤ f i' 1) ?_
        (fun s hs => by rw [if_neg (by omega)]; exact hs)
      dsimp only
      rw [hcm i 1 ⟨hi1, by omega, by omega, by omega⟩, some_bind]
      by_cases h3 : i = 3
      · rw [if_pos h3] at h
        cases h
        rw [hinf, if_pos rfl]
        refine ⟨_, rfl, hi1, by simp only; omega, rfl, fun i' g1 g2 => ?_⟩
        rw [show i' = i by omega]
      · rw [if_neg h3] at h
        obtain ⟨k1, k2, k3, k4⟩ := h
        dsimp only at k1 k2 k3 k4
        subst k3
        by_cases hc : f i 1 < f bl 1
        · rw [if_pos ((hlt _ _).mpr hc)]
          refine ⟨_, rfl, hi1, by simp only; omega, rfl, fun i' g1 g2 => ?_⟩
          by_cases hi' : i' = i
          · rw [hi']
          · exact le_trans hc.le (k4 i' g1 (by omega))
        · rw [if_neg (by rw [hlt]; exact hc)]
          refine ⟨_, rfl, k1, k2, rfl, fun i' g1 g2 => ?_⟩
          by_cases hi' : i' = i
          · rw [hi']; exact not_lt.mp hc
          · exact k4 i' g1 (by omega))
  obtain ⟨⟨bl, mc⟩, e1, hb⟩ := h1
  rw [if_neg (by omega)] at hb
  obtain ⟨b1, b2, -, b4⟩ := hb
  have hd : ∀ i, i < 30 → ∃ d, dsymbols[i]? = some d ∧ 1 ≤ d ∧ d ≤ 32768 := by decide
  have h2 := forRange_spec (f := fun i ((bestdist, mincost) : Nat × F.F64) => do
      let dsym ← dsymbols[i]?
      let c ← cm 3 dsym
      if F.lt c mincost then return (dsym, c) else return (bestdist, mincost)) (a := 0) (b := dsymbols.size) (s := (0, F.inf))
    (fun i s => if i = 0 then s = (0, F.inf) else 1 ≤ s.1 ∧ s.1 ≤ 32768 ∧ s.2 = e (f 3 s.1) ∧ ∀ i' d', i' < i → dsymbols[i']? = some d' → f 3 s.1 ≤ f 3 d')
    (by omega) (by rw [if_pos rfl]) (by
      rintro i ⟨bl, mc⟩ hi1 hi2 h
      obtain ⟨d, ed, hd1, hd2⟩ := hd i hi2
      refine Ret.mono (P := fun s => 1 ≤ s.1 ∧ s.1 ≤ 32768 ∧ s.2 = e (f 3 s.1) ∧ ∀ i' d', i' < i + 1 → dsymbols[i']? = some d' → f 3 s.1 ≤ f 3 d') ?_
        (fun s hs => by rw [if_neg (by omega)]; exact hs)
      dsimp only
      rw [ed, some_bind, hcm 3 d ⟨by omega, by omega, hd1, hd2⟩, some_bind]
      by_cases h3 : i = 0
      · rw [if_pos h3] at h
        cases h
        rw [hinf, if_pos rfl]
        refine ⟨_, rfl, hd1, hd2, rfl, fun i' d' g1 g2 => ?_⟩
        rw [show i' = i by omega, ed] at g2
        cases g2
        exact le_refl _
      · rw [if_neg h3] at h
        obtain ⟨k1, k2, k3, k4⟩ := h
        dsimp only at k1 k2 k3 k4
        subst k3
        by_cases hc : f 3 d < f 3 bl
        · rw [if_pos ((hlt _ _).mpr hc)]
          refine ⟨_, rfl, hd1, hd2, rfl, fun i' d' g1 g2 => ?_⟩
          by_cases hi' : i' = i
          · rw [hi', ed] at g2
            cases g2
            exact le_refl _
          · exact le_trans hc.le (k4 i' d' (by omega) g2)
        · rw [if_neg (by rw [hlt]; exact hc)]
          refine ⟨_, rfl, k1, k2, rfl, fun i' d' g1 g2 => ?_⟩
          by_cases hi' : i' = i
          · rw [hi', ed] at g2
            cases g2
            exact not_lt.mp hc
          · exact k4 i' d' (by omega) g2)
  obtain ⟨⟨bd, mc2⟩, e2, hb2⟩ := h2
  rw [if_neg (by decide)] at hb2
  obtain ⟨c1, c2, -, c4⟩ := hb2
  refine ⟨bl, bd, ⟨b1, b2, c1, c2⟩, ?_, fun i g1 g2 => b4 i g1 (by omega), fun i d hd' => c4 i d ?_ hd'⟩
  · unfold getCostModelMinCost
    rw [e1, some_bind]
    dsimp only
    rw [e2, some_bind]
    dsimp only
    rw [hcm bl bd ⟨b1, b2, c1, c2⟩]
  · by_contra h
    rw [Array.getElem?_eq_none (by omega)] at hd'
    cases hd'

/-- Every distance symbol has a representative in the table. -/
theorem dsymbols_cover {dist : Nat} (h1 : 1 ≤ dist) (h2 : dist ≤ 32768) : ∃ (i d : Nat), dsymbols[i]? = some d ∧ 1 ≤ d ∧ d ≤ 32768 ∧ distSymbol d = distSymbol dist := by
  have key : ∀ i : Nat, i < 30 → ∃ d : Nat, dsymbols[i]? = some d ∧ 1 ≤ d ∧ d ≤ 32768 ∧ distSymbol d = i := by
    have h : ∀ i : Nat, i < 30 → dsymbols[i]? = some (dsymbols.getD i 0) ∧ 1 ≤ dsymbols.getD i 0 ∧ dsymbols.getD i 0 ≤ 32768 ∧ distSymbol (dsymbols.getD i 0) = i := by
      decide +kernel
    exact fun i hi => ⟨_, h i hi⟩
  obtain ⟨-, -, -, h⟩ := distSymbol_facts h1 h2
  obtain ⟨d, e⟩ := key _ h
  exact ⟨_, d, e⟩

theorem estimate_split (lg : Nat → ℚ) (ll d : Array Nat) : ∃ A B : Nat → ℚ, (∀ len dist, estimate lg ll d (.lengthDist len dist) = A len + B dist) ∧
    ∀ x y, distSymbol x = distSymbol y → B x = B y := by
  refine ⟨fun len => (lengthExtra.getD (lengthSymbol len - 257) 0 : ℚ) + surprise lg ll (lengthSymbol len),
    fun dist => (distExtra.getD (distSymbol dist) 0 : ℚ) + surprise lg d (distSymbol dist), fun len dist => ?_, fun x y h => ?_⟩
  · show (lengthExtra.getD (lengthSymbol len - 257) 0 : ℚ) + (distExtra.getD (distSymbol dist) 0 : ℚ) + surprise lg ll (lengthSymbol len) + surprise lg d (distSymbol dist) = _
    ring
  · dsimp only
    rw [h]

variable {log2 : Fp → Fp} {ll d : Array Nat} {s : SymbolStats (ieee log2)}

theorem statWeights (hlog : Log2Ok log2) {L : Nat} (hmono : Log2Up log2 L) (hk : TallyOk L ll d) (hc : CostsOf log2 ll d s) {arr : Array UInt8} {ws : Nat} {O : Oracle}
    (hO : IsOracle arr ws O) {instart : Nat} (hws : ws ≤ instart) :
    ∃ mc, QWeights log2 (getCostStat (ieee log2) s) mc arr O instart (fun pos k => estimate (lgOf log2) ll d (itemOf arr O pos k)) := by
  have hcopy := fun len dist (h : (LitLen.lengthDist len dist).InRange) => cost_copy hlog hmono hk hc h
  have hex : ∀ len dist, ∃ c, (LitLen.lengthDist len dist).InRange → getCostStat (ieee log2) s len dist = some (Fp.fin c) ∧
      NearW c (estimate (lgOf log2) ll d (.lengthDist len dist)) ∧ estimate (lgOf log2) ll d (.lengthDist len dist) ≤ 2 ^ 8 := by
    intro len dist
    by_cases h : (LitLen.lengthDist len dist).InRange
    · obtain ⟨c, hc⟩ := hcopy len dist h
      exact ⟨c, fun _ => hc⟩
    · exact ⟨0, fun h' => absurd h' h⟩
  choose f hf using hex
  obtain ⟨bl, bd, hin, hmin, hl, hd⟩ := minCost_min (ieee log2) (fun q => Fp.fin q) (cm := getCostStat (ieee log2) s)
    (fun x y => by
      show decide (x < y) = true ↔ _
      rw [decide_eq_true_eq])
    (fun x => rfl) f (fun len dist h => (hf len dist h).1)
  obtain ⟨-, n1, n1'⟩ := hf bl bd hin
  refine ⟨f bl bd, hmin, n1.c0, n1.c1, ?_, ?_⟩
  · intro pos h
    have : itemOf arr O pos 1 = .literal arr[pos].toNat := by
      rw [itemOf, if_pos (by omega), Array.getElem?_eq_getElem h]
      rfl
    rw [this]
    exact cost_lit hlog hmono hk hc (UInt8.toNat_lt _)
  · intro pos k hp h3 hk2
    have hin' := hO.inRange (by omega) h3 hk2
    have : itemOf arr O pos k = .lengthDist k (O.D pos k) := by rw [itemOf, if_neg (by omega)]
    rw [this]
    obtain ⟨g1, g2, g3⟩ := hf k (O.D pos k) hin'
    refine ⟨_, g1, g2, ?_⟩
    obtain ⟨p1, p2, p3, p4⟩ := hin'
    obtain ⟨q1, q2, q3, q4⟩ := hin
    generalize O.D pos k = dist at *
    obtain ⟨i, dd, ei, d1, d2, d3⟩ := dsymbols_cover p3 p4
    -- the four costs compared
    obtain ⟨-, a1, a1'⟩ := hf bl 1 ⟨q1, q2, by omega, by omega⟩
    obtain ⟨-, a2, a2'⟩ := hf k 1 ⟨p1, p2, by omega, by omega⟩
    obtain ⟨-, a3, a3'⟩ := hf 3 bd ⟨by omega, by omega, q3, q4⟩
    obtain ⟨-, a4, a4'⟩ := hf 3 dd ⟨by omega, by omega, d1, d2⟩
    have l1 := hl k p1 p2
    have l2 := hd i dd ei
    obtain ⟨A, B, x1, x2⟩ := estimate_split (lgOf log2) ll d
    have hB := x2 _ _ d3
    obtain ⟨b1, b2, b3, b4, b5⟩ := n1
    obtain ⟨c1, c2, c3, c4, c5⟩ := a1
    obtain ⟨e1, e2, e3, e4, e5⟩ := a2
    obtain ⟨f1, f2, f3, f4, f5⟩ := a3
    obtain ⟨h1, h2, h3, h4, h5⟩ := a4
    simp only [x1, hB] at *
    linarith

end Zopfli
