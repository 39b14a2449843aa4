import Verif.Proofs.MathLog
/-!
# Consequences of the accuracy of `log2` of `no_std` builds
-/

namespace Zopfli
namespace Fp

theorem isDouble_nat {n : ℕ} (h : n < 2 ^ 53) : IsDouble n := round64_nat h

theorem round64_zero : round64 0 = .fin 0 := by
  have := round64_int (z := 0) (by norm_num)
  exact_mod_cast this

/-- The computation is exact when the reduced number is one. -/
theorem log2Reduced_one {k : ℤ} (hk : |(k : ℚ)| < 2 ^ 53) : log2Reduced (.fin 1) k = .fin k := by
  have hk0 : add64 (.fin k) (.fin 0) = .fin k := by
    show round64 (k + 0) = _
    rw [add_zero]
    exact round64_int hk
  have hk1 : sub64 (.fin k) (.fin k) = .fin 0 := by
    show round64 (k + -k) = _
    rw [add_neg_cancel]
    exact round64_zero
  have hk2 : add64 (.fin 0) (.fin k) = .fin k := by
    show round64 (0 + k) = _
    rw [zero_add]
    exact round64_int hk
  have z1 : sub64 (.fin 1) (.fin 1) = .fin 0 := by decide +kernel
  have z2 : mul64 (mul64 (.fin (1 / 2)) (.fin 0)) (.fin 0) = .fin 0 := by decide +kernel
  have z3 : sub64 (.fin 0) (.fin 0) = .fin 0 := by decide +kernel
  have z4 : fromBits (toBits (.fin 0) - toBits (.fin 0) % 2 ^ 32) = .fin 0 := by decide +kernel
  have z5 : mul64 (.fin 0) IVLN2HI = .fin 0 := by decide +kernel
  have z6 : mul64 (.fin 0) IVLN2LO = .fin 0 := by decide +kernel
  have z7 : add64 (.fin 0) (.fin 0) = .fin 0 := by decide +kernel
  have z8 : mul64 (div64 (.fin 0) (add64 (.fin 2) (.fin 0))) (add64 (.fin 0) (add64 (mul64 (mul64 (div64 (.fin 0) (add64 (.fin 2) (.fin 0))) (div64 (.fin 0) (add64 (.fin 2) (.fin 0)))) (add64 LG1 (mul64 (mul64 (mul64 (div64 (.fin 0) (add64 (.fin 2) (.fin 0))) (div64 (.fin 0) (add64 (.fin 2) (.fin 0)))) (mul64 (div64 (.fin 0) (add64 (.fin 2) (.fin 0))) (div64 (.fin 0) (add64 (.fin 2) (.fin 0))))) (add64 LG3 (mul64 (mul64 (mul64 (div64 (.fin 0) (add64 (.fin 2) (.fin 0))) (div64 (.fin 0) (add64 (.fin 2) (.fin 0)))) (mul64 (div64 (.fin 0) (add64 (.fin 2) (.fin 0))) (div64 (.fin 0) (add64 (.fin 2) (.fin 0))))) (add64 LG5 (mul64 (mul64 (mul64 (div64 (.fin 0) (add64 (.fin 2) (.fin 0))) (div64 (.fin 0) (add64 (.fin 2) (.fin 0)))) (mul64 (div64 (.fin 0) (add64 (.fin 2) (.fin 0))) (div64 (.fin 0) (add64 (.fin 2) (.fin 0))))) LG7))))))) (mul64 (mul64 (mul64 (div64 (.fin 0) (add64 (.fin 2) (.fin 0))) (div64 (.fin 0) (add64 (.fin 2) (.fin 0)))) (mul64 (div64 (.fin 0) (add64 (.fin 2) (.fin 0))) (div64 (.fin 0) (add64 (.fin 2) (.fin 0))))) (add64 LG2 (mul64 (mul64 (mul64 (div64 (.fin 0) (add64 (.fin 2) (.fin 0))) (div64 (.fin 0) (add64 (.fin 2) (.fin 0)))) (mul64 (div64 (.fin 0) (add64 (.fin 2) (.fin 0))) (div64 (.fin 0) (add64 (.fin 2) (.fin 0))))) (add64 LG4 (mul64 (mul64 (mul64 (div64 (.fin 0) (add64 (.fin 2) (.fin 0))) (div64 (.fin 0) (add64 (.fin 2) (.fin 0)))) (mul64 (div64 (.fin 0) (add64 (.fin 2) (.fin 0))) (div64 (.fin 0) (add64 (.fin 2) (.fin 0))))) LG6))))))) = .fin 0 := by
    decide +kernel
  unfold log2Reduced
  dsimp only
  rw [z1, z2, z8, z3, z4, z3, z3, z7, z7, z5, z6, z7, hk0, hk1, z7, z7, hk2]

/-- Powers of two. -/
theorem log2NoStd_pow {k : ℤ} (h1 : -1074 ≤ k) (h2 : k ≤ 1023) : log2NoStd (.fin (2 ^ k)) = .fin k := by
  have hd : IsDouble (2 ^ k) := by
    by_cases hk : k ≤ 971
    · have := isDouble_mk (z := 1) h1 hk (by norm_num)
      rwa [Int.cast_one, one_mul] at this
    · have := isDouble_mk (z := 2 ^ 52) (k := k - 52) (by omega) (by omega) (by push_cast; norm_num)
      have e : ((2 ^ 52 : ℤ) : ℚ) * 2 ^ (k - 52) = 2 ^ k := by
        rw [show ((2 ^ 52 : ℤ) : ℚ) = 2 ^ (52 : ℤ) by norm_cast, ← zpow_add₀ (by norm_num)]
        congr 1
        omega
      rwa [e] at this
  by_cases h0 : k = 0
  · subst h0
    rw [zpow_zero]
    decide +kernel
  · have hne : (2 : ℚ) ^ k ≠ 1 := by
      intro h
      apply h0
      exact zpow_right_injective₀ (by norm_num) (by norm_num) (h.trans (zpow_zero 2).symm)
    obtain ⟨x, κ, e1, hx, e2, hk1, hk2⟩ := log2NoStd_split hd (two_zpow_pos k) hne
    have hx' : x = 2 ^ (k - κ) := by
      rw [zpow_sub₀ (by norm_num), ← e2, mul_div_cancel_right₀ _ (two_zpow_pos κ).ne']
    have hle := hx.le
    have hlt := hx.lt
    have hk : k - κ = 0 := by
      apply le_antisymm
      · by_contra hc
        push Not at hc
        have : (2 : ℚ) ^ (1 : ℤ) ≤ x := by
          rw [hx']
          exact zpow_le_zpow_right₀ (by norm_num) (by omega)
        norm_num at this hlt
        linarith
      · by_contra hc
        push Not at hc
        have : x ≤ (2 : ℚ) ^ (-1 : ℤ) := by
          rw [hx']
          exact zpow_le_zpow_right₀ (by norm_num) (by omega)
        norm_num at this hle
        linarith
    have : κ = k := by omega
    subst this
    rw [e1, hx', hk, zpow_zero]
    apply log2Reduced_one
    rw [abs_lt]
    have g1 : (-1080 : ℚ) ≤ κ := by exact_mod_cast hk1
    have g2 : (κ : ℚ) ≤ 1024 := by exact_mod_cast hk2
    constructor <;> linarith

theorem logb_gap {m n : ℕ} (hm : 1 ≤ m) (hmn : m < n) : 1 / (n : ℝ) ≤ Real.logb 2 n - Real.logb 2 m := by
  have hm' : (1 : ℝ) ≤ m := by exact_mod_cast hm
  have hn' : (m : ℝ) + 1 ≤ n := by exact_mod_cast hmn
  have h2 : Real.log 2 ≤ 1 := by
    have := Real.log_le_sub_one_of_pos (show (0 : ℝ) < 2 by norm_num)
    linarith
  have h20 : 0 < Real.log 2 := Real.log_pos (by norm_num)
  rw [Real.logb, Real.logb, ← sub_div, ← Real.log_div (by linarith) (by linarith)]
  have h3 := Real.one_sub_inv_le_log_of_pos (show (0 : ℝ) < n / m by apply div_pos <;> linarith)
  have h4 : 1 / (n : ℝ) ≤ 1 - ((n : ℝ) / m)⁻¹ := by
    rw [inv_div, one_sub_div (by linarith)]
    apply div_le_div_of_nonneg_right _ (by linarith)
    linarith
  have h5 : 0 ≤ Real.log (n / m) := le_trans (le_trans (by positivity) h4) h3
  rw [le_div_iff₀ h20]
  have : 1 / (n : ℝ) * Real.log 2 ≤ 1 / (n : ℝ) * 1 := by
    apply mul_le_mul_of_nonneg_left h2
    positivity
  linarith

theorem logb_range {n : ℕ} {K : ℕ} (h1 : 1 ≤ n) (h2 : n ≤ 2 ^ K) : 0 ≤ Real.logb 2 n ∧ Real.logb 2 n ≤ K := by
  have hn : (1 : ℝ) ≤ n := by exact_mod_cast h1
  constructor
  · exact Real.logb_nonneg (by norm_num) hn
  · have : (n : ℝ) ≤ 2 ^ K := by exact_mod_cast h2
    rw [Real.logb_le_iff_le_rpow (by norm_num) (by linarith), Real.rpow_natCast]
    exact this

/-- It does not decrease on integers up to `2^45`. -/
theorem log2NoStd_mono {m n : ℕ} (hm : 1 ≤ m) (hmn : m ≤ n) (hn : n ≤ 2 ^ 45) :
    Fp.le (log2NoStd (round64 m)) (log2NoStd (round64 n)) = true := by
  rcases Nat.eq_or_lt_of_le hmn with rfl | hlt
  · rw [round64_nat (by omega)]
    obtain ⟨v, hv, -⟩ := log2NoStd_near (isDouble_nat (n := m) (by omega)) (by exact_mod_cast hm)
    rw [hv]
    simp [Fp.le]
  · rw [round64_nat (by omega), round64_nat (by omega)]
    obtain ⟨v, hv, hv'⟩ := log2NoStd_near (isDouble_nat (n := m) (by omega)) (by exact_mod_cast hm)
    obtain ⟨w, hw, hw'⟩ := log2NoStd_near (isDouble_nat (n := n) (by omega)) (by have : 0 < n := by omega
                                                                                 exact_mod_cast this)
    rw [hv, hw]
    have hgap := logb_gap hm hlt
    obtain ⟨r1, r2⟩ := logb_range hm (hmn.trans hn)
    obtain ⟨r3, r4⟩ := logb_range (hm.trans hmn) hn
    have hn0 : (0 : ℝ) < n := by
      have : 0 < n := by omega
      exact_mod_cast this
    have hinv : 1 / (2 : ℝ) ^ 45 ≤ 1 / n := by
      apply one_div_le_one_div_of_le hn0
      exact_mod_cast hn
    rw [Rat.cast_natCast, abs_of_nonneg r1] at hv'
    rw [Rat.cast_natCast, abs_of_nonneg r3] at hw'
    rw [abs_le] at hv' hw'
    push_cast at r2 r4
    have : (v : ℝ) ≤ w := by
      obtain ⟨-, a⟩ := hv'
      obtain ⟨b, -⟩ := hw'
      norm_num at a b hinv
      norm_num at hgap
      linarith
    have : v ≤ w := by exact_mod_cast this
    simpa [Fp.le] using this

/-- What the encoder needs of a logarithm. -/
theorem log2NoStd_ok : Log2Ok log2NoStd := by
  intro n h1 h2
  have hn : |(n : ℚ)| ≤ 2 ^ 60 := by
    rw [abs_of_nonneg (by positivity)]
    exact_mod_cast h2.le
  obtain ⟨v, hv, hv'⟩ := round64_pow (k := 60) (by norm_num) hn
  rw [hv]
  rcases Nat.eq_or_lt_of_le h1 with rfl | h1
  · rw [round64_nat (by norm_num)] at hv
    cases hv
    exact ⟨0, by decide +kernel, le_refl _, by norm_num⟩
  have hn2 : (2 : ℚ) ≤ n := by exact_mod_cast h1
  have hv2 : 3 / 2 ≤ v := by
    have hr := round64_rel hv
    rw [abs_of_nonneg (by linarith : (0 : ℚ) ≤ n), abs_le] at hr
    have h3 : (1 : ℚ) / 2 ^ 1000 ≤ 1 / 2 ^ 60 := by
      apply one_div_le_one_div_of_le (by norm_num)
      exact pow_le_pow_right₀ (by norm_num) (by norm_num)
    generalize (1 : ℚ) / 2 ^ 1000 = tiny at *
    obtain ⟨hr, -⟩ := hr
    norm_num at h3 hr
    linarith
  have hv3 : v ≤ 2 ^ 60 := le_trans (le_abs_self v) hv'
  obtain ⟨w, hw, hw'⟩ := log2NoStd_near (round64_isDouble hv) (by linarith)
  refine ⟨w, hw, ?_⟩
  have hr2 : (3 / 2 : ℝ) ≤ v := by
    have := (Rat.cast_le (K := ℝ)).2 hv2
    push_cast at this
    exact this
  have hr3 : (v : ℝ) ≤ 2 ^ 60 := by exact_mod_cast hv3
  have l1 : 1 / 3 ≤ Real.logb 2 v := by
    have h20 : 0 < Real.log 2 := Real.log_pos (by norm_num)
    have h2 : Real.log 2 ≤ 1 := by
      have := Real.log_le_sub_one_of_pos (show (0 : ℝ) < 2 by norm_num)
      linarith
    have h3 := Real.one_sub_inv_le_log_of_pos (show (0 : ℝ) < v by linarith)
    have h4 : (v : ℝ)⁻¹ ≤ 2 / 3 := by
      rw [inv_le_comm₀ (by linarith) (by norm_num)]
      linarith
    rw [Real.logb, le_div_iff₀ h20]
    linarith
  have l2 : Real.logb 2 v ≤ 60 := by
    rw [Real.logb_le_iff_le_rpow (by norm_num) (by linarith)]
    exact_mod_cast hr3
  rw [abs_of_nonneg (by linarith : 0 ≤ Real.logb 2 v), abs_le] at hw'
  obtain ⟨a, b⟩ := hw'
  have c1 : (0 : ℝ) ≤ w := by
    norm_num at a
    linarith
  have c2 : (w : ℝ) ≤ 64 := by
    norm_num at b
    linarith
  exact ⟨by exact_mod_cast c1, by exact_mod_cast c2⟩

end Fp
end Zopfli
