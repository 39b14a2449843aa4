import Verif.Proofs.Best
import Verif.Proofs.Chains
import Verif.Proofs.Sizes
/-! # With exact costs the optimal parser is optimal -/

namespace Zopfli

theorem Fp.round32_nat {n : Nat} (hn : n < 2 ^ 24) : Fp.round32 n = .fin n := by
  have h1 : |((n : ℤ) : ℚ)| < 2 ^ 24 := by
    push_cast
    rw [abs_of_nonneg (by positivity)]
    exact_mod_cast hn
  have := Fp.round_exact (p := 24) (emin := -149) (emax := 128) (k := 0) (z := n) (by omega) (.inl (by omega)) (by exact_mod_cast h1) (by
    rw [zpow_zero, mul_one]
    refine lt_trans h1 ?_
    norm_num)
  rw [zpow_zero, mul_one] at this
  exact_mod_cast this

/-- Natural numbers (and infinity) as floating point numbers, with exact arithmetic while they are small. -/
structure NatFloat (F : FloatOps) where
  e32 : Option Nat → F.F32
  e64 : Nat → F.F64
  lt : ∀ {a : Nat} {b : Option Nat}, F.lt (e64 a) (F.toF64 (e32 b)) = true ↔ ∀ m, b = some m → a < m
  le : ∀ {a : Nat} {b : Option Nat}, F.le (F.toF64 (e32 b)) (e64 a) = true ↔ ∃ m, b = some m ∧ m ≤ a
  lt64 : ∀ {a b : Nat}, F.lt (e64 a) (e64 b) = true ↔ a < b
  lt_inf : ∀ {a : Nat}, F.lt (e64 a) F.inf = true
  add : ∀ {a b : Nat}, a + b < 2 ^ 53 → F.add (e64 a) (F.toF64 (e32 (some b))) = e64 (a + b)
  to32 : ∀ {a : Nat}, a < 2 ^ 24 → F.toF32 (e64 a) = e32 (some a)
  add32 : ∀ {a b : Nat}, a + b < 2 ^ 24 → F.add32 (e32 (some a)) (e32 (some b)) = e32 (some (a + b))
  inf : F.inf32 = e32 none
  zero : F.zero32 = e32 (some 0)
  of : ∀ {a : Nat}, a < 2 ^ 53 → F.ofUsize a = e64 a
  ok : ∀ {a : Nat}, F.costOk (e64 a) = true

/-- Natural numbers (and infinity) in IEEE 754 arithmetic. -/
def ieeeNat (log2 : Fp → Fp) : NatFloat (ieee log2) where
  e32 b := match b with | none => Fp.inf false | some m => Fp.fin m
  e64 a := Fp.fin a
  lt {a b} := by
    cases b with
    | none => simp [ieee, Fp.lt]
    | some m => simp [ieee, Fp.lt]
  le {a b} := by
    cases b with
    | none => simp [ieee, Fp.le]
    | some m => simp [ieee, Fp.le]
  lt64 {a b} := by simp [ieee, Fp.lt]
  lt_inf {a} := by simp [ieee, Fp.lt]
  add {a b} h := by
    show Fp.round64 ((a : ℚ) + (b : ℚ)) = _
    rw [← Nat.cast_add, Fp.round64_nat h]
  to32 h := Fp.round32_nat h
  add32 {a b} h := by
    show Fp.round32 ((a : ℚ) + (b : ℚ)) = _
    rw [← Nat.cast_add, Fp.round32_nat h]
  inf := rfl
  zero := by show Fp.fin 0 = Fp.fin ((0 : Nat) : ℚ); norm_num
  of h := ieee_ofUsize_small log2 h
  ok := rfl

variable {F : FloatOps}

/-- The weights `W pos k` of the steps of length `k` at `pos`, which the cost model gives exactly. -/
structure Weights (R : NatFloat F) (cm : Nat → Nat → Option F.F64) (mc : Nat) (arr : Array UInt8) (O : Oracle) (instart : Nat)
    (W : Nat → Nat → Nat) : Prop where
  min : getCostModelMinCost F cm = some (R.e64 mc)
  small : mc < 2 ^ 24
  lit : ∀ pos (h : pos < arr.size), cm arr[pos].toNat 0 = some (R.e64 (W pos 1)) ∧ W pos 1 ≤ 9
  copy : ∀ pos k, instart ≤ pos → 3 ≤ k → k ≤ O.L pos → cm k (O.D pos k) = some (R.e64 (W pos k)) ∧ mc ≤ W pos k ∧ W pos k ≤ 9 * k

/-- The costs `g` are those of paths recorded in `la`, and satisfy the triangle inequality for the steps in `E`; both
concern steps from positions before `J` only. -/
structure XG (R : NatFloat F) (W : Nat → Nat → Nat) (instart n : Nat) (E : Nat → Nat → Prop) (J : Nat) (g : Nat → Option Nat) (costs : Array F.F32) (la : Array Nat) : Prop where
  cs : costs.size = n + 1
  ls : la.size = n + 1
  emb : ∀ x, x ≤ n → costs[x]? = some (R.e32 (g x))
  zero : g 0 = some 0
  bd : ∀ x m, g x = some m → m ≤ 9 * x
  N : ∀ x m, 0 < x → g x = some m → Nz la x
  C : ∀ x k, la[x]? = some k → k ≠ 0 → k ≤ x ∧ k ≤ 258 ∧ x - k < J ∧ ∃ m, g (x - k) = some m ∧ g x = some (m + W (instart + (x - k)) k)
  D : ∀ j k, E j k → j < J ∧ ∃ m m', g j = some m ∧ g (j + k) = some m' ∧ m' ≤ m + W (instart + j) k

variable {i : Nat} {R : NatFloat F} {W : Nat → Nat → Nat} {instart n : Nat} {E : Nat → Nat → Prop} {J : Nat} {g : Nat → Option Nat} {costs : Array F.F32} {la : Array Nat}

theorem XG.mono (h : XG R W instart n E J g costs la) {J' : Nat} (hJ : J ≤ J') : XG R W instart n E J' g costs la where
  cs := h.cs
  ls := h.ls
  emb := h.emb
  zero := h.zero
  bd := h.bd
  N := h.N
  C x k h1 h2 := by
    obtain ⟨a, a', b, c⟩ := h.C x k h1 h2
    exact ⟨a, a', by omega, c⟩
  D j k h1 := by
    obtain ⟨a, b⟩ := h.D j k h1
    exact ⟨by omega, b⟩

theorem XG.sub (h : XG R W instart n E J g costs la) {E' : Nat → Nat → Prop} (hE : ∀ j k, E' j k → E j k) : XG R W instart n E' J g costs la :=
  { h with D := fun j k h1 => h.D j k (hE j k h1) }

theorem XG.keep (h : XG R W instart n E J g costs la) {j k m m' : Nat} (hj : j < J) (h1 : g j = some m) (h2 : g (j + k) = some m')
    (h3 : m' ≤ m + W (instart + j) k) : XG R W instart n (fun a b => E a b ∨ (a = j ∧ b = k)) J g costs la :=
  { h with
    D := by
      rintro a b (hab | ⟨rfl, rfl⟩)
      · exact h.D a b hab
      · exact ⟨hj, m, m', h1, h2, h3⟩ }

theorem XG.set (h : XG R W instart n E J g costs la) {j k m : Nat} (hj : j < J) (hJ : J ≤ j + k) (hn : j + k ≤ n) (hk : k ≠ 0) (hk2 : k ≤ 258)
    (h1 : g j = some m) (h9 : W (instart + j) k ≤ 9 * k)
    (h2 : ∀ m', g (j + k) = some m' → m + W (instart + j) k < m') :
    ∃ costs' la', aset costs (j + k) (R.e32 (some (m + W (instart + j) k))) = some costs' ∧ aset la (j + k) k = some la' ∧
      XG R W instart n (fun a b => E a b ∨ (a = j ∧ b = k)) J (fun x => if x = j + k then some (m + W (instart + j) k) else g x) costs' la' := by
  have s1 : j + k < costs.size := by rw [h.cs]; omega
  have s2 : j + k < la.size := by rw [h.ls]; omega
  have hla : ∀ x, (la.set (j + k) k s2)[x]? = if x = j + k then some k else la[x]? := by
    intro x
    rw [Array.getElem?_set]
    by_cases hx : x = j + k
    · subst hx; simp
    · rw [if_neg (by omega), if_neg hx]
  refine ⟨_, _, aset_eq s1 _, aset_eq s2 _, ⟨by simp [h.cs], by simp [h.ls], ?_, ?_, ?_, ?_, ?_, ?_⟩⟩
  · intro x hx
    rw [Array.getElem?_set]
    by_cases hxe : x = j + k
    · subst hxe; simp
    · rw [if_neg (by omega), if_neg hxe, h.emb x hx]
  · rw [if_neg (by omega), h.zero]
  · intro x m' hx
    split at hx
    · cases hx
      have := h.bd j m h1
      omega
    · exact h.bd x m' hx
  · intro x m' hx0 hx
    unfold Nz
    rw [hla]
    split at hx
    · rw [if_pos (by assumption)]
      exact ⟨k, rfl, hk⟩
    · rw [if_neg (by assumption)]
      exact h.N x m' hx0 hx
  · intro x k' hx hk'
    rw [hla] at hx
    split at hx
    · rename_i hxe
      cases hx
      subst hxe
      rw [show j + k - k = j by omega, if_neg (by omega), if_pos rfl, h1]
      exact ⟨by omega, hk2, hj, m, rfl, rfl⟩
    · rename_i hxe
      obtain ⟨a1, a1', a2, m', a3, a4⟩ := h.C x k' hx hk'
      refine ⟨a1, a1', a2, m', ?_, ?_⟩
      · rw [if_neg (by omega)]; exact a3
      · rw [if_neg hxe]; exact a4
  · intro a b hab
    rcases hab with hab | ⟨rfl, rfl⟩
    · obtain ⟨a1, m1, m2, a2, a3, a4⟩ := h.D a b hab
      refine ⟨a1, m1, ?_⟩
      by_cases hab2 : a + b = j + k
      · rw [hab2] at a3
        have := h2 m2 a3
        refine ⟨m + W (instart + j) k, ?_, ?_, by omega⟩
        · rw [if_neg (by omega)]; exact a2
        · rw [if_pos hab2]
      · refine ⟨m2, ?_, ?_, a4⟩
        · rw [if_neg (by omega)]; exact a2
        · rw [if_neg hab2]; exact a3
    · refine ⟨hj, m, m + W (instart + a) b, ?_, ?_, Nat.le_refl _⟩
      · rw [if_neg (by omega)]; exact h1
      · rw [if_pos rfl]

/-- The tables after an iteration: the same costs up to `j`. -/
def After (g g' : Nat → Option Nat) (j : Nat) : Prop := ∀ x, x ≤ j → g' x = g x

theorem tryLiteral_opt {cm : Nat → Nat → Option F.F64} {mc : Nat} {arr : Array UInt8} {O : Oracle}
    (hW : Weights R cm mc arr O instart W) (h : XG R W instart n E J g costs la) {j m : Nat} (hJ : J = j + 1) (hn : 9 * n < 2 ^ 24) (hjn : j + 1 ≤ n)
    (hi : instart + j < arr.size) (hg : g j = some m) {costs' : Array F.F32} {la' : Array Nat}
    (e : tryLiteral F cm arr (instart + j) j costs la = some (costs', la')) :
    ∃ g', XG R W instart n (fun a b => E a b ∨ (a = j ∧ b = 1)) J g' costs' la' ∧ After g g' j := by
  obtain ⟨c1, c2⟩ := hW.lit (instart + j) hi
  have hb := h.bd j m hg
  unfold tryLiteral at e
  simp only [Array.getElem?_eq_getElem hi, some_bind, c1, h.emb j (by omega), h.emb (j + 1) hjn, hg] at e
  rw [R.add (by omega), Nat.add_comm, guardR_eq R.ok, some_bind] at e
  by_cases hlt : F.lt (R.e64 (m + W (instart + j) 1)) (F.toF64 (R.e32 (g (j + 1)))) = true
  · rw [if_pos hlt, R.to32 (by omega)] at e
    obtain ⟨co, l, g1, g2, g3⟩ := h.set (j := j) (k := 1) (by omega) (by omega) hjn (by omega) (by omega) hg c2 (R.lt.mp hlt)
    rw [g1, some_bind, g2, some_bind] at e
    cases e
    exact ⟨_, g3, fun x hx => by rw [if_neg (by omega)]⟩
  · rw [if_neg hlt] at e
    cases e
    rw [R.lt] at hlt
    push Not at hlt
    obtain ⟨m', h1, h2⟩ := hlt
    exact ⟨g, h.keep (by omega) hg h1 h2, fun x _ => rfl⟩

theorem tryLengths_opt {cm : Nat → Nat → Option F.F64} {mc : Nat} {arr : Array UInt8} {O : Oracle}
    (hW : Weights R cm mc arr O instart W) (h : XG R W instart n E J g costs la) {j m : Nat} (hJ : J = j + 1) (hn : 9 * n < 2 ^ 24)
    (hg : g j = some m) (hL : j + O.L (instart + j) ≤ n) (h258 : O.L (instart + j) ≤ 258) {costs' : Array F.F32} {la' : Array Nat}
    (e : tryLengths F cm (R.e64 (mc + m)) (subD O (instart + j)) (O.L (instart + j)) j costs la = some (costs', la')) :
    ∃ g', XG R W instart n (fun a b => E a b ∨ (a = j ∧ 3 ≤ b ∧ b ≤ O.L (instart + j))) J g' costs' la' ∧ After g g' j := by
  unfold tryLengths at e
  rw [show min (O.L (instart + j) + 1) (subD O (instart + j)).size = O.L (instart + j) + 1 by simp [subD]; omega] at e
  by_cases h3 : 3 ≤ O.L (instart + j) + 1
  · have hP : ∀ {x : Option (Array F.F32 × Array Nat)} {P : Array F.F32 × Array Nat → Prop}, x = some (costs', la') → Ret x P → P (costs', la') := by
      rintro x P rfl ⟨y, hy, hp⟩
      cases hy
      exact hp
    have := hP e (forRange_spec
      (fun k (st : Array F.F32 × Array Nat) => ∃ g', XG R W instart n (fun a b => E a b ∨ (a = j ∧ 3 ≤ b ∧ b < k)) J g' st.1 st.2 ∧ After g g' j)
      h3 ⟨g, h.sub (by rintro a b (hab | hab); exacts [hab, by omega]), fun x _ => rfl⟩ ?_)
    · obtain ⟨g', h1, h2⟩ := this
      exact ⟨g', h1.sub (by rintro a b (hab | hab); exacts [.inl hab, .inr (by omega)]), h2⟩
    · rintro k ⟨co, l⟩ hk1 hk2 ⟨g', h1, h2⟩
      dsimp only at h1
      obtain ⟨c1, c2, c3⟩ := hW.copy (instart + j) k (by omega) hk1 (by omega)
      have hg' : g' j = some m := by rw [h2 j (Nat.le_refl _)]; exact hg
      have hb := h1.bd j m hg'
      have hsm := hW.small
      have hsub : ∀ (co' : Array F.F32) (l' : Array Nat) (g2 : Nat → Option Nat),
          XG R W instart n (fun a b => (E a b ∨ (a = j ∧ 3 ≤ b ∧ b < k)) ∨ (a = j ∧ b = k)) J g2 co' l' →
          XG R W instart n (fun a b => E a b ∨ (a = j ∧ 3 ≤ b ∧ b < k + 1)) J g2 co' l' := by
        intro co' l' g2 hx
        refine hx.sub ?_
        rintro a b (hab | ⟨rfl, hb1, hb2⟩)
        · exact .inl (.inl hab)
        · by_cases hbk : b = k
          · exact .inr ⟨rfl, hbk⟩
          · exact .inl (.inr ⟨rfl, hb1, by omega⟩)
      simp only [h1.emb (j + k) (by omega), h1.emb j (by omega), hg', subD_get (show k < 259 by omega), c1, some_bind]
      by_cases hle : F.le (F.toF64 (R.e32 (g' (j + k)))) (R.e64 (mc + m)) = true
      · rw [if_pos hle]
        obtain ⟨m', e1, e2⟩ := R.le.mp hle
        exact ⟨_, rfl, g', hsub _ _ _ (h1.keep (by omega) hg' e1 (by omega)), h2⟩
      · rw [if_neg hle, R.add (by omega), Nat.add_comm, guardR_eq R.ok, some_bind]
        by_cases hlt : F.lt (R.e64 (m + W (instart + j) k)) (F.toF64 (R.e32 (g' (j + k)))) = true
        · rw [if_pos hlt, R.to32 (by omega)]
          obtain ⟨co', l', g1, g2, g3⟩ := h1.set (j := j) (k := k) (by omega) (by omega) (by omega) (by omega) (by omega) hg' c3 (R.lt.mp hlt)
          have hk258 : k ≤ MAX_MATCH := by rw [MAX_MATCH]; omega
          rw [guardR_eq (by simp only [decide_eq_true_eq]; exact hk258), some_bind, g1, some_bind, g2, some_bind]
          refine ⟨_, rfl, _, hsub _ _ _ g3, fun x hx => ?_⟩
          rw [if_neg (by omega), h2 x hx]
        · rw [if_neg hlt]
          rw [R.lt] at hlt
          push Not at hlt
          obtain ⟨m', e1, e2⟩ := hlt
          exact ⟨_, rfl, g', hsub _ _ _ (h1.keep (by omega) hg' e1 e2), h2⟩
  · rw [forRange_empty (by omega)] at e
    cases e
    exact ⟨g, h.sub (by rintro a b (hab | hab); exacts [hab, by omega]), fun x _ => rfl⟩

theorem Ret.get {α : Type} {x : Option α} {a : α} {P : α → Prop} (e : x = Option.some a) (h : Ret x P) : P a := by
  subst e
  obtain ⟨y, hy, hp⟩ := h
  cases hy
  exact hp

theorem skipRun_opt {cm : Nat → Nat → Option F.F64} {mc : Nat} {arr : Array UInt8} {O : Oracle}
    (hW : Weights R cm mc arr O instart W) (h : XG R W instart n E J g costs la) {i : Nat} (hi : instart ≤ i) (hJ : J = i - instart) (hn : 9 * n < 2 ^ 24)
    (hin : i - instart + 516 ≤ n) (hg : ∀ k, k < 258 → g (i - instart + k) ≠ none) (h258 : ∀ k, k < 258 → O.L (i + k) = 258 ∧ O.D (i + k) 258 = 1)
    {ws : Nat} {hh h2 : ZopfliHash} {costs' : Array F.F32} {la' : Array Nat} (hws : ws ≤ i) (hsz : i + 259 ≤ arr.size)
    (hash : hashAt arr ws (i + 1) = some hh) (e : skipRun F cm arr instart i hh costs la = some (h2, costs', la')) :
    ∃ g', XG R W instart n (fun a b => E a b ∨ (i - instart ≤ a ∧ a < i - instart + 258 ∧ b = 258)) (i - instart + 258) g' costs' la' ∧
      After g g' (i - instart + 257) := by
  have hcost : ∀ k, k < 258 → cm 258 1 = some (R.e64 (W (i + k) 258)) ∧ W (i + k) 258 ≤ 9 * 258 := by
    intro k hk
    obtain ⟨a1, -, a2⟩ := hW.copy (i + k) 258 (by omega) (by omega) (by rw [(h258 k hk).1])
    rw [(h258 k hk).2] at a1
    exact ⟨a1, a2⟩
  unfold skipRun at e
  rw [show cm MAX_MATCH 1 = some (R.e64 (W (i + 0) 258)) from (hcost 0 (by omega)).1, some_bind] at e
  have := Ret.get e (forRange_spec (fun k (st : ZopfliHash × Array F.F32 × Array Nat) => hashAt arr ws (i + k + 1) = some st.1 ∧ ∃ g', XG R W instart n
      (fun a b => E a b ∨ (i - instart ≤ a ∧ a < i - instart + k ∧ b = 258)) (i - instart + k) g' st.2.1 st.2.2 ∧ After g g' (i - instart + 257))
      (Nat.zero_le _) ⟨hash, g, (h.mono (by omega)).sub (by rintro a b (hab | hab); exacts [hab, by omega]), fun x _ => rfl⟩ ?_)
  · exact this.2
  · rintro k ⟨hh, co, l⟩ - hk ⟨i1, g', h1, h2⟩
    have hk : k < 258 := hk
    dsimp only at h1 i1 ⊢
    obtain ⟨h3, e3, e4⟩ := hashAt_next (by omega) i1 (by omega)
    rw [show i + k - instart = i - instart + k by omega]
    obtain ⟨m, hm⟩ : ∃ m, g' (i - instart + k) = some m := by
      rw [h2 _ (by omega)]
      exact Option.ne_none_iff_exists'.mp (hg k hk)
    have hb := h1.bd _ m hm
    obtain ⟨hc1, hc2⟩ := hcost k hk
    have hc0 := (hcost 0 (by omega)).1
    rw [hc1] at hc0
    have e0 := Option.some.inj hc0
    have hnone : g' (i - instart + k + 258) = none := by
      cases hy : g' (i - instart + k + 258) with
      | none => rfl
      | some m' =>
        obtain ⟨k', a1, a2⟩ := h1.N _ m' (by omega) hy
        obtain ⟨b1, b2, b3, -⟩ := h1.C _ k' a1 a2
        omega
    have hw : W (instart + (i - instart + k)) 258 = W (i + k) 258 := by rw [show instart + (i - instart + k) = i + k by omega]
    have hJ1 := h1.mono (J' := i - instart + k + 1) (by omega)
    obtain ⟨co', l', g1, g2, g3⟩ := hJ1.set (j := i - instart + k) (k := 258) (by omega) (by omega) (by omega) (by omega) (by omega) hm
      (by rw [hw]; exact hc2) (by rw [hnone]; intro m' hm'; cases hm')
    rw [hw] at g1
    rw [h1.emb _ (by omega), some_bind, hm, ← e0, R.to32 (by omega), R.add32 (by omega)]
    dsimp only [MAX_MATCH]
    rw [g1, some_bind, g2, some_bind, e3, some_bind]
    refine ⟨_, rfl, (by rw [← Nat.add_assoc]; exact e4), _, (g3.mono (by omega)).sub ?_, fun x hx => ?_⟩
    · rintro a b (hab | hab)
      · exact .inl (.inl hab)
      · by_cases ha : a = i - instart + k
        · exact .inr ⟨ha, hab.2.2⟩
        · exact .inl (.inr ⟨hab.1, by omega, hab.2.2⟩)
    · rw [if_neg (by omega), h2 x hx]

/-- Position `pos` was passed over when a run of equal bytes was skipped at one of the positions `ts`. -/
def Skipped (ts : List Nat) (pos : Nat) : Prop := ∃ t ∈ ts, t ≤ pos ∧ pos < t + 258

/-- The positions at which a run was skipped, the latest first, before position `i`. -/
structure SkipsOk (arr : Array UInt8) (instart i : Nat) (ts : List Nat) : Prop where
  run : ∀ t ∈ ts, instart + 259 < t ∧ t + 517 < arr.size ∧ Run arr (t - 258) 775 ∧ t + 259 ≤ i
  gap : ts.Pairwise fun t t' => t' + 259 ≤ t

/-- The steps from the positions before `i` that were tried. -/
def Tried (O : Oracle) (instart : Nat) (ts : List Nat) (i j k : Nat) : Prop :=
  instart + j < i ∧ (k = 1 ∨ 3 ≤ k ∧ k ≤ O.L (instart + j)) ∧ (Skipped ts (instart + j) → k = 258)

/-- The invariant of the main loop. -/
def XInv (R : NatFloat F) (W : Nat → Nat → Nat) (arr : Array UInt8) (O : Oracle) (instart i : Nat) (costs : Array F.F32) (la : Array Nat) : Prop :=
  ∃ ts g, SkipsOk arr instart i ts ∧ XG R W instart (arr.size - instart) (Tried O instart ts i) (i - instart) g costs la

theorem tail_opt {cm : Nat → Nat → Option F.F64} {mc : Nat} {arr : Array UInt8} {O : Oracle}
    (hW : Weights R cm mc arr O instart W) (h : XG R W instart (arr.size - instart) E (i - instart) g costs la)
    (hn : 9 * (arr.size - instart) < 2 ^ 24) (hi1 : instart ≤ i) (hi2 : i < arr.size) (hg : g (i - instart) ≠ none)
    (hL : i + O.L i ≤ arr.size) (h258 : O.L i ≤ 258) {costs' : Array F.F32} {la' : Array Nat}
    (e : TailRun F cm (R.e64 mc) arr O instart i costs la costs' la') :
    ∃ g', XG R W instart (arr.size - instart) (fun a b => E a b ∨ (instart + a = i ∧ (b = 1 ∨ 3 ≤ b ∧ b ≤ O.L (instart + a)))) (i + 1 - instart) g' costs' la' := by
  obtain ⟨costs1, la1, xj, e1, e2, e3⟩ := e
  obtain ⟨m, hm⟩ := Option.ne_none_iff_exists'.mp hg
  obtain ⟨j, rfl⟩ : ∃ j, i = instart + j := ⟨i - instart, by omega⟩
  rw [show instart + j - instart = j by omega] at *
  obtain ⟨g1, x1, a1⟩ := tryLiteral_opt hW (h.mono (J' := j + 1) (by omega)) rfl hn (by omega) hi2 hm e1
  have hm1 : g1 j = some m := by rw [a1 j (Nat.le_refl _)]; exact hm
  rw [x1.emb j (by omega), hm1] at e2
  cases e2
  have hb := x1.bd j m hm1
  have hs := hW.small
  rw [R.add (by omega)] at e3
  obtain ⟨g2, x2, a2⟩ := tryLengths_opt hW x1 rfl hn hm1 (by omega) h258 e3
  refine ⟨g2, (x2.mono (by omega)).sub ?_⟩
  rintro a b (hab | ⟨ha, hk | hk⟩)
  · exact .inl (.inl hab)
  · exact .inl (.inr ⟨by omega, hk⟩)
  · have : a = j := by omega
    subst this
    exact .inr ⟨rfl, hk⟩

theorem XG.some_of_nz (h : XG R W instart n E J g costs la) {x : Nat} (hx : x = 0 ∨ Nz la x) : g x ≠ none := by
  rcases hx with rfl | ⟨k, h1, h2⟩
  · rw [h.zero]; simp
  · obtain ⟨-, -, -, m, -, e⟩ := h.C x k h1 h2
    rw [e]; simp

theorem step_opt {L : FloatLaws F} {cm : Nat → Nat → Option F.F64} {mc : Nat} {arr : Array UInt8} {O : Oracle} {ws : Nat} (hO : IsOracle arr ws O)
    (hW : Weights R cm mc arr O instart W) (hn : 9 * (arr.size - instart) < 2 ^ 24) (hws : ws ≤ instart)
    (hrun : ∀ t, instart + 259 < t → t + 517 < arr.size → Run arr (t - 258) 775 → ∀ k, k < 258 → O.D (t + k) 258 = 1)
    {b b' : BCore F} (hb : BInv L arr ws O instart b) (hlt : b.i < arr.size) (hx : XInv R W arr O instart b.i b.costs b.la)
    (hs : StepRun F cm (R.e64 mc) arr O ws instart b b') : XInv R W arr O instart b'.i b'.costs b'.la := by
  obtain ⟨i, h, costs, la⟩ := b
  obtain ⟨i', h', costs', la'⟩ := b'
  obtain ⟨ts, g, hts, hx⟩ := hx
  dsimp only at hts
  have C := hb.C
  have E1 := hb.E1
  have E2 := hb.E2
  have lo := hb.lo
  dsimp only at C E1 E2 lo hx hlt hs ⊢
  have hreach : g (i - instart) ≠ none := by
    refine hx.some_of_nz ?_
    by_cases h0 : i - instart = 0
    · exact .inl h0
    · exact .inr (C _ (by omega) (Nat.le_refl _))
  rcases hs with ⟨hi', ht⟩ | ⟨hi', l1, l2, l3, hh, h2, costs1, la1, hash, hsk, ht⟩
  · dsimp only at hi' ht
    subst hi'
    obtain ⟨g', hg'⟩ := tail_opt hW hx hn lo hlt hreach (hO.le' i (by omega)) (hO.le i) ht
    refine ⟨ts, g', ⟨fun t h => ?_, hts.gap⟩, hg'.sub ?_⟩
    · obtain ⟨a1, a2, a3, a4⟩ := hts.run t h
      exact ⟨a1, a2, a3, by omega⟩
    · rintro a b ⟨h1, h2, h3⟩
      by_cases ha : instart + a = i
      · exact .inr ⟨ha, h2⟩
      · exact .inl ⟨by omega, h2, h3⟩
  · dsimp only at hi' l1 l2 l3 hash hsk ht
    subst hi'
    have hL : ∀ pos, i - 257 ≤ pos → pos ≤ i + 257 → O.L pos = 258 := fun pos h1 h2 => run_L hO l3 (by omega) l2 h1 h2
    obtain ⟨g1, x1, a1⟩ := skipRun_opt hW hx lo rfl hn (by omega) (by
      intro k hk
      by_cases hk0 : k = 0
      · subst hk0; exact hreach
      by_cases hk1 : k = 1
      · rw [hk1]; exact hx.some_of_nz (.inr (E2 (by omega) (by rw [hL _ (by omega) (by omega)]; omega)))
      · have := E1 (by omega) (k + 1) (by omega) (by rw [hL _ (by omega) (by omega)]; omega)
        rw [show i - instart - 1 + (k + 1) = i - instart + k by omega] at this
        exact hx.some_of_nz (.inr this)) (fun k hk => ⟨hL _ (by omega) (by omega), hrun i l1 l2 l3 k hk⟩) (by omega) (by omega) hash hsk
    rw [show i - instart + 258 = i + 258 - instart by omega] at x1
    have hr1 : g1 (i + 258 - instart) ≠ none := by
      obtain ⟨-, m, m', -, e2, -⟩ := x1.D (i - instart) 258 (.inr ⟨Nat.le_refl _, by omega, rfl⟩)
      rw [show i - instart + 258 = i + 258 - instart by omega] at e2
      rw [e2]; simp
    obtain ⟨g', hg'⟩ := tail_opt hW x1 hn (i := i + 258) (by omega) (by omega) hr1 (hO.le' _ (by omega)) (hO.le _) ht
    refine ⟨i :: ts, g', ⟨fun t h => ?_, List.pairwise_cons.mpr ⟨fun t h => (hts.run t h).2.2.2, hts.gap⟩⟩, hg'.sub ?_⟩
    · rcases List.mem_cons.mp h with rfl | h
      · exact ⟨l1, l2, l3, by omega⟩
      · obtain ⟨a1, a2, a3, a4⟩ := hts.run t h
        exact ⟨a1, a2, a3, by omega⟩
    · rintro a b ⟨h1, h2, h3⟩
      by_cases ha : instart + a = i + 258
      · exact .inr ⟨ha, h2⟩
      by_cases ha2 : i ≤ instart + a
      · exact .inl (.inr ⟨by omega, by omega, h3 ⟨i, by simp, by omega, by omega⟩⟩)
      · refine .inl (.inl ⟨by omega, h2, fun hsk => h3 ?_⟩)
        obtain ⟨t, t1, t2⟩ := hsk
        exact ⟨t, by simp [t1], t2⟩

/-! ## Paths -/

/-- The cost of a path. -/
def pathCost (W : Nat → Nat → Nat) : Nat → List Nat → Nat
  | _, [] => 0
  | pos, k :: ks => W pos k + pathCost W (pos + k) ks

theorem pathCost_append (W : Nat → Nat → Nat) : ∀ (xs ys : List Nat) (pos : Nat),
    pathCost W pos (xs ++ ys) = pathCost W pos xs + pathCost W (pos + xs.sum) ys
  | [], ys, pos => by simp [pathCost]
  | x :: xs, ys, pos => by
    rw [List.cons_append, pathCost, pathCost, pathCost_append W xs ys, List.sum_cons, ← Nat.add_assoc, Nat.add_assoc pos]

/-- The path takes no step that was not tried. -/
def PathTried (ts : List Nat) : Nat → List Nat → Prop
  | _, [] => True
  | pos, k :: ks => (Skipped ts pos → k = 258) ∧ PathTried ts (pos + k) ks

theorem PathOk.sum {O : Oracle} : ∀ {xs : List Nat} {a b : Nat}, PathOk O a xs b → a + xs.sum = b
  | [], _, _, h => h
  | x :: xs, a, b, h => by rw [List.sum_cons, ← Nat.add_assoc]; exact h.2.sum

theorem path_le {ts : List Nat} {O : Oracle} {stop : Nat} (hx : XG R W instart n (Tried O instart ts stop) J g costs la) :
    ∀ (ks : List Nat) (j m : Nat), g j = some m → PathOk O (instart + j) ks stop → PathTried ts (instart + j) ks →
      ∃ m', g (stop - instart) = some m' ∧ m' ≤ m + pathCost W (instart + j) ks
  | [], j, m, hj, hp, _ => by
    have : instart + j = stop := hp
    exact ⟨m, by rw [show stop - instart = j by omega]; exact hj, by simp [pathCost]⟩
  | k :: ks, j, m, hj, hp, ht => by
    have hle := hp.2.le
    have := hp.1
    obtain ⟨-, m1, m2, e1, e2, h3⟩ := hx.D j k ⟨by omega, hp.1, ht.1⟩
    rw [hj] at e1
    cases e1
    have hp2 := hp.2
    have ht2 := ht.2
    rw [Nat.add_assoc] at hp2 ht2
    obtain ⟨m', e, h4⟩ := path_le hx ks (j + k) m2 e2 hp2 ht2
    refine ⟨m', e, ?_⟩
    rw [pathCost, Nat.add_assoc instart]
    omega

theorem trace_cost {la : Array Nat} (hx : XG R W instart n E J g costs la) :
    ∀ (x : Nat) (path : List Nat), traceFrom la x = some path → path.sum = x ∧ g x = some (pathCost W instart path.reverse) := by
  intro x
  induction x using Nat.strongRecOn with
  | ind x ih =>
    intro path e
    rw [traceFrom] at e
    by_cases h0 : x = 0
    · subst h0
      rw [if_pos rfl] at e
      cases e
      exact ⟨rfl, hx.zero⟩
    · rw [if_neg h0] at e
      cases hk : la[x]? with
      | none => rw [hk] at e; cases e
      | some k =>
        rw [hk] at e
        dsimp only at e
        split at e
        · rename_i hk2
          simp only [Option.bind_eq_bind, Option.bind_eq_some_iff, Option.pure_def, Option.some.injEq] at e
          obtain ⟨p, ep, rfl⟩ := e
          obtain ⟨s1, s2⟩ := ih (x - k) (by omega) p ep
          obtain ⟨-, -, -, m, c1, c2⟩ := hx.C x k hk (by omega)
          rw [s2] at c1
          cases c1
          refine ⟨by rw [List.sum_cons, s1]; omega, ?_⟩
          rw [c2, List.reverse_cons, pathCost_append, List.sum_reverse, s1]
          simp [pathCost]
        · cases e

end Zopfli
