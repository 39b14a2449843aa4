import Verif.Proofs.Ieee
import Verif.Proofs.Sizes
/-! # Costs are not negative when the logarithm does not decrease -/

namespace Zopfli
open Fp

/-- A finite number, not negative. -/
def NonNeg (c : Fp) : Prop := ∃ q, c = Fp.fin q ∧ 0 ≤ q

theorem NonNeg.le {c : Fp} (h : NonNeg c) : Fp.le (.fin 0) c = true := by
  obtain ⟨q, rfl, hq⟩ := h
  exact decide_eq_true hq

theorem NonNeg.nat {n : Nat} : NonNeg (.fin n) := ⟨n, rfl, by positivity⟩

/-- A sum of numbers that are not negative, if it is finite. -/
theorem NonNeg.add {a b : Fp} {r : ℚ → Fp} (hr : ∀ q v, 0 ≤ q → r q = .fin v → 0 ≤ v) (ha : NonNeg a) (hb : NonNeg b)
    (hf : ∃ v, addWith r a b = .fin v) : NonNeg (addWith r a b) := by
  obtain ⟨x, rfl, hx⟩ := ha
  obtain ⟨y, rfl, hy⟩ := hb
  obtain ⟨v, hv⟩ := hf
  exact ⟨v, hv, hr (x + y) v (by linarith) hv⟩

theorem round64_nonneg {q v : ℚ} (hq : 0 ≤ q) (h : round64 q = .fin v) : 0 ≤ v := round_nonneg hq h
theorem round32_nonneg {q v : ℚ} (hq : 0 ≤ q) (h : round32 q = .fin v) : 0 ≤ v := round_nonneg hq h

/-- IEEE 754 arithmetic with the debug assertions on costs satisfies the laws, if the logarithm does not decrease. -/
def ieeeDebugLaws {log2 : Fp → Fp} (hlog : Log2Ok log2) {lim : Nat} (hge : 2 ^ 21 ≤ lim) (hle : lim ≤ 2 ^ 47)
    (hmono : Log2Mono log2 (2 ^ 11 * lim)) : FloatLaws (ieeeDebug log2) where
  lim := lim
  lim_ge := hge
  lim_le := hle
  Sym c := (∃ q, c = Fp.fin q ∧ |q| ≤ 2 ^ 10) ∧ NonNeg c
  Acc c := (∃ q, c = Fp.fin q ∧ |q| ≤ 2 ^ 40) ∧ NonNeg c
  Ent c := (∃ q, c = Fp.fin q ∧ |q| ≤ 2 ^ 7) ∧ NonNeg c
  size_lt_inf := (ieeeLaws hlog).size_lt_inf
  sym_lt_inf c h := (ieeeLaws hlog).sym_lt_inf c h.1
  acc_zero := ⟨(ieeeLaws hlog).acc_zero, 0, rfl, le_refl _⟩
  acc_step c x hc hx := by
    refine ⟨(ieeeLaws hlog).acc_step c x hc.1 hx.1, ?_⟩
    obtain ⟨w, hw, -⟩ := (ieeeLaws hlog).acc_step c x hc.1 hx.1
    obtain ⟨q, rfl, hq⟩ := hc.2
    obtain ⟨y, rfl, hy⟩ := hx.2
    refine ⟨w, hw, ?_⟩
    have hw : toF32 (round64 (q + y)) = .fin w := hw
    cases hv : round64 (q + y) with
    | fin v =>
      rw [hv] at hw
      exact round32_nonneg (round64_nonneg (by linarith) hv) hw
    | inf s => rw [hv] at hw; cases hw
    | nan => rw [hv] at hw; cases hw
  acc_step32 c x hc hx := by
    refine ⟨(ieeeLaws hlog).acc_step32 c x hc.1 hx.1, ?_⟩
    obtain ⟨w, hw, -⟩ := (ieeeLaws hlog).acc_step32 c x hc.1 hx.1
    obtain ⟨q, rfl, hq⟩ := hc.2
    obtain ⟨y, rfl, hy⟩ := hx.2
    refine ⟨w, hw, ?_⟩
    have hw : addWith round32 (.fin y) (round32 q) = .fin w := hw
    cases hv : round32 q with
    | fin v =>
      rw [hv] at hw
      exact round32_nonneg (q := y + v) (by have := round32_nonneg hq hv; linarith) hw
    | inf s => rw [hv] at hw; cases hw
    | nan => rw [hv] at hw; cases hw
  lt_inf32 c x hc hx := (ieeeLaws hlog).lt_inf32 c x hc.1 hx.1
  not_le_inf32 c x hc hx := (ieeeLaws hlog).not_le_inf32 c x hc.1 hx.1
  cost_ok c x hc hx := by
    refine NonNeg.le (NonNeg.add (r := round64) (fun q v => round64_nonneg) hc.2 hx.2 ?_)
    obtain ⟨q, rfl, hq⟩ := hc.1
    obtain ⟨y, rfl, hy⟩ := hx.1
    obtain ⟨v, hv, _⟩ := ieee_add_fin log2 (a := q) (b := y) (k := 41) (by norm_num) (by linarith)
    exact ⟨v, hv⟩
  acc_ok x hx := hx.2.le
  acc_lt_inf x hx := (ieeeLaws hlog).acc_lt_inf x hx.1
  sym_nat n hn := ⟨(ieeeLaws hlog).sym_nat n hn, by
    have := NonNeg.nat (n := n)
    rwa [← ieee_ofUsize_small log2 (by omega)] at this⟩
  sym_ent c hc := ⟨(ieeeLaws hlog).sym_ent c hc.1, hc.2⟩
  sym_match a b l d ha hb hl hd := by
    refine ⟨(ieeeLaws hlog).sym_match a b l d ha hb hl.1 hd.1, ?_⟩
    show NonNeg (addWith round64 (addWith round64 (addWith round64 ((ieee log2).ofUsize a) ((ieee log2).ofUsize b)) l) d)
    rw [ieee_ofUsize_small log2 (by omega), ieee_ofUsize_small log2 (by omega)]
    obtain ⟨x, rfl, hx⟩ := hl.1
    obtain ⟨y, rfl, hy⟩ := hd.1
    have ha' : |(a : ℚ)| ≤ 5 := by rw [abs_of_nonneg (by positivity)]; exact_mod_cast ha
    have hb' : |(b : ℚ)| ≤ 14 := by rw [abs_of_nonneg (by positivity)]; exact_mod_cast hb
    obtain ⟨v1, h1, g1⟩ := ieee_add_fin log2 (a := a) (b := b) (k := 5) (by norm_num) (by linarith)
    obtain ⟨v2, h2, g2⟩ := ieee_add_fin log2 (a := v1) (b := x) (k := 8) (by norm_num) (by linarith)
    obtain ⟨v3, h3, g3⟩ := ieee_add_fin log2 (a := v2) (b := y) (k := 9) (by norm_num) (by linarith)
    have hr : ∀ q v : ℚ, 0 ≤ q → round64 q = .fin v → 0 ≤ v := fun q v => round64_nonneg
    have n1 : NonNeg (addWith round64 (.fin a) (.fin b)) := NonNeg.nat.add hr NonNeg.nat ⟨v1, h1⟩
    rw [show addWith round64 (.fin (a : ℚ)) (.fin (b : ℚ)) = .fin v1 from h1] at n1 ⊢
    have n2 := n1.add hr hl.2 ⟨v2, h2⟩
    rw [show addWith round64 (.fin v1) (.fin x) = .fin v2 from h2] at n2 ⊢
    exact n2.add hr hd.2 ⟨v3, h3⟩
  ent_log s h1 h2 := by
    have h2' : s < 2 ^ 11 * 2 ^ 47 := by omega
    refine ⟨(ieeeLaws hlog).ent_log s h1 h2', ?_⟩
    obtain ⟨q, e, g1, -⟩ := hlog s h1 (by omega)
    refine ⟨q, ?_, g1⟩
    show log2 ((ieee log2).ofUsize s) = _
    rw [ieee_ofUsize, Nat.mod_eq_of_lt (by omega)]
    exact e
  ent_sub s c h1 h2 h3 := by
    have h3' : s < 2 ^ 11 * 2 ^ 47 := by omega
    refine ⟨(ieeeLaws hlog).ent_sub s c h1 h2 h3', ?_⟩
    obtain ⟨w, hw, -⟩ := (ieeeLaws hlog).ent_sub s c h1 h2 h3'
    refine ⟨w, hw, ?_⟩
    obtain ⟨q, e, -, -⟩ := hlog s (by omega) (by omega)
    obtain ⟨q', e', -, -⟩ := hlog c h1 (by omega)
    have hm := hmono c s h1 h2 h3
    rw [e, e'] at hm
    have hm : q' ≤ q := of_decide_eq_true hm
    have hw : addWith round64 (log2 ((ieee log2).ofUsize s)) (neg (log2 ((ieee log2).ofUsize c))) = .fin w := hw
    rw [ieee_ofUsize, ieee_ofUsize, Nat.mod_eq_of_lt (by omega), Nat.mod_eq_of_lt (by omega), e, e'] at hw
    exact round64_nonneg (q := q + -q') (by linarith) hw
  weight_le := (ieeeLaws hlog).weight_le

theorem ieeeDebug_exact (log2 : Fp → Fp) : FloatExact (ieeeDebug log2) :=
  ⟨(ieee_exact log2).add, (ieee_exact log2).le, (ieee_exact log2).lt, (ieee_exact log2).min, (ieee_exact log2).lt_inf,
    (ieee_exact log2).inf_lt⟩

/-! ## Rounding does not change the order -/

theorem Fp.rne_mono {x y : ℚ} (h : x ≤ y) : rne x ≤ rne y := by
  have hf : ⌊x⌋ ≤ ⌊y⌋ := Int.floor_le_floor h
  rcases hf.lt_or_eq with hlt | heq
  · have h1 : rne x ≤ ⌊x⌋ + 1 := by rcases rne_mem x with e | e <;> omega
    have h2 : ⌊y⌋ ≤ rne y := by rcases rne_mem y with e | e <;> omega
    omega
  · unfold rne
    dsimp only
    rw [heq]
    split_ifs <;> first | omega | (exfalso; linarith)

theorem Fp.round64_mono {m n : Nat} (h1 : 1 ≤ m) (h : m ≤ n) {v w : ℚ} (hv : round64 m = .fin v) (hw : round64 n = .fin w) : v ≤ w := by
  unfold round64 Fp.round at hv hw
  dsimp only at hv hw
  split at hv <;> cases hv
  split at hw <;> cases hw
  have hm0 : (0 : ℚ) < m := by exact_mod_cast h1
  have hn0 : (0 : ℚ) < n := by exact_mod_cast (by omega : 0 < n)
  have hmn : (m : ℚ) ≤ n := by exact_mod_cast h
  have hE : ∀ k : Nat, 1 ≤ k → ulpExp 53 (-1074) (k : ℚ) = Int.log 2 (k : ℚ) - 52 := by
    intro k hk
    have hk0 : (0 : ℚ) < k := by exact_mod_cast hk
    unfold ulpExp
    rw [abs_of_pos hk0]
    have : (0 : ℤ) ≤ Int.log 2 (k : ℚ) := (Int.zpow_le_iff_le_log (R := ℚ) (by norm_num) hk0).1 (by simpa using (by exact_mod_cast hk : (1 : ℚ) ≤ k))
    rw [max_eq_left (by omega)]
    omega
  rw [hE m h1, hE n (by omega)]
  have hlog : Int.log 2 (m : ℚ) ≤ Int.log 2 (n : ℚ) := Int.log_mono_right hm0 hmn
  rcases hlog.lt_or_eq with hlt | heq
  · have hpm := two_zpow_pos (Int.log 2 (m : ℚ) - 52)
    have hpn := two_zpow_pos (Int.log 2 (n : ℚ) - 52)
    have a1 : rne ((m : ℚ) / 2 ^ (Int.log 2 (m : ℚ) - 52)) ≤ 2 ^ 53 := rne_le (by
      rw [div_le_iff₀ hpm]
      push_cast
      have := (Int.lt_zpow_succ_log_self (R := ℚ) (b := 2) (by norm_num) (m : ℚ)).le
      refine le_trans this (le_of_eq ?_)
      push_cast
      rw [show (9007199254740992 : ℚ) = 2 ^ (53 : ℤ) by norm_num, ← zpow_add₀ (by norm_num : (2 : ℚ) ≠ 0)]
      congr 1
      omega)
    have a2 : 2 ^ 52 ≤ rne ((n : ℚ) / 2 ^ (Int.log 2 (n : ℚ) - 52)) := le_rne (by
      rw [le_div_iff₀ hpn]
      push_cast
      have := Int.zpow_log_le_self (R := ℚ) (b := 2) (by norm_num) hn0
      refine le_trans (le_of_eq ?_) this
      push_cast
      rw [show (4503599627370496 : ℚ) = 2 ^ (52 : ℤ) by norm_num, ← zpow_add₀ (by norm_num : (2 : ℚ) ≠ 0)]
      congr 1
      omega)
    have a1' : (rne ((m : ℚ) / 2 ^ (Int.log 2 (m : ℚ) - 52)) : ℚ) ≤ 2 ^ 53 := by exact_mod_cast a1
    have a2' : (2 : ℚ) ^ 52 ≤ rne ((n : ℚ) / 2 ^ (Int.log 2 (n : ℚ) - 52)) := by exact_mod_cast a2
    calc _ ≤ (2 : ℚ) ^ 53 * 2 ^ (Int.log 2 (m : ℚ) - 52) := mul_le_mul_of_nonneg_right a1' hpm.le
      _ = 2 ^ (Int.log 2 (m : ℚ) + 1) := by
        rw [show (2 : ℚ) ^ 53 = 2 ^ (53 : ℤ) by norm_num, ← zpow_add₀ (by norm_num : (2 : ℚ) ≠ 0)]; congr 1; omega
      _ ≤ 2 ^ Int.log 2 (n : ℚ) := zpow_le_zpow_right₀ (by norm_num) (by omega)
      _ = (2 : ℚ) ^ 52 * 2 ^ (Int.log 2 (n : ℚ) - 52) := by
        rw [show (2 : ℚ) ^ 52 = 2 ^ (52 : ℤ) by norm_num, ← zpow_add₀ (by norm_num : (2 : ℚ) ≠ 0)]; congr 1; omega
      _ ≤ _ := mul_le_mul_of_nonneg_right a2' hpn.le
  · rw [heq]
    have hpn := two_zpow_pos (Int.log 2 (n : ℚ) - 52)
    refine mul_le_mul_of_nonneg_right ?_ hpn.le
    exact_mod_cast Fp.rne_mono (div_le_div_of_nonneg_right hmn hpn.le)

theorem floorLog2_mono : Log2Mono floorLog2 (2 ^ 60) := by
  intro m n h1 h2 h3
  have hfin : ∀ k : Nat, k < 2 ^ 60 → ∃ v, round64 (k : ℚ) = .fin v := by
    intro k hk
    obtain ⟨v, hv, -⟩ := round64_pow (k := 60) (q := (k : ℚ)) (by norm_num) (by
      rw [abs_of_nonneg (by positivity)]
      exact_mod_cast hk.le)
    exact ⟨v, hv⟩
  obtain ⟨v, hv⟩ := hfin m (by omega)
  obtain ⟨w, hw⟩ := hfin n h3
  have hle := Fp.round64_mono h1 h2 hv hw
  rw [hv, hw]
  refine decide_eq_true ?_
  obtain ⟨q, e, g, -⟩ := floorLog2_ok m h1 (by omega)
  by_cases hv0 : 0 < v
  · exact_mod_cast Int.log_mono_right hv0 hle
  · have h0 : 0 ≤ v := round64_nonneg (by positivity) hv
    have : v = 0 := by linarith
    subst this
    have := Fp.round64_mono (m := 1) (n := m) (v := 1) (le_refl _) h1 (by exact_mod_cast round64_nat (n := 1) (by norm_num)) hv
    linarith

end Zopfli
