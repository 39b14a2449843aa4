import Verif.Proofs.Ieee
/-! # Rounding errors relative to the number, in any format, and order -/

namespace Zopfli
namespace Fp

/-- Rounding error, in terms of the last place. -/
theorem round_ulp {p emin emax : ℤ} {x v : ℚ} (h : round p emin emax x = .fin v) : |v - x| ≤ 2 ^ (ulpExp p emin x - 1) := by
  unfold round at h
  dsimp only at h
  split at h
  · cases h
  · cases h
    generalize ulpExp p emin x = e
    have hpe := two_zpow_pos e
    have h1 := rne_error (x / 2 ^ e)
    have h2 : (rne (x / 2 ^ e) : ℚ) * 2 ^ e - x = (rne (x / 2 ^ e) - x / 2 ^ e) * 2 ^ e := by
      rw [sub_mul, div_mul_cancel₀ _ hpe.ne']
    rw [h2, abs_mul, abs_of_pos hpe, zpow_sub_one₀ (by norm_num : (2 : ℚ) ≠ 0)]
    rw [mul_comm]
    apply mul_le_mul_of_nonneg_left _ hpe.le
    rw [← one_div]
    exact h1

theorem rne_zero : rne 0 = 0 := by exact_mod_cast rne_int 0

theorem round_zero {p emin emax : ℤ} {v : ℚ} (h : round p emin emax 0 = .fin v) : v = 0 := by
  unfold round at h
  dsimp only at h
  rw [zero_div, rne_zero] at h
  split at h
  · cases h
  · cases h
    simp

/-- Rounding error relative to the number. -/
theorem round_rel {p emin emax : ℤ} {x v : ℚ} (h : round p emin emax x = .fin v) : |v - x| ≤ |x| * 2 ^ (-p) + 2 ^ (emin - 1) := by
  by_cases h0 : x = 0
  · subst h0
    rw [round_zero h]
    have := two_zpow_pos (emin - 1)
    simp only [sub_zero, abs_zero, zero_mul, zero_add]
    exact this.le
  · refine le_trans (round_ulp h) ?_
    have hx : 0 < |x| := abs_pos.2 h0
    have hlow : (2 : ℚ) ^ (Int.log 2 |x|) ≤ |x| := by exact_mod_cast Int.zpow_log_le_self (b := 2) (by norm_num) hx
    have hp := two_zpow_pos (-p)
    have he := two_zpow_pos (emin - 1)
    unfold ulpExp
    rcases le_total (Int.log 2 |x| + 1 - p) emin with hc | hc
    · rw [max_eq_right hc]
      have : 0 ≤ |x| * 2 ^ (-p) := by positivity
      linarith
    · rw [max_eq_left hc]
      have e1 : (2 : ℚ) ^ (Int.log 2 |x| + 1 - p - 1) = 2 ^ (Int.log 2 |x|) * 2 ^ (-p) := by
        rw [← zpow_add₀ (by norm_num : (2 : ℚ) ≠ 0)]
        congr 1
        ring
      rw [e1]
      have := mul_le_mul_of_nonneg_right hlow hp.le
      linarith

theorem round32_rel {x v : ℚ} (h : round32 x = .fin v) : |v - x| ≤ |x| / 2 ^ 24 + 1 / 2 ^ 100 := by
  refine le_trans (round_rel h) ?_
  have e1 : (2 : ℚ) ^ (-24 : ℤ) = 1 / 2 ^ 24 := by norm_num
  have e2 : (2 : ℚ) ^ (-149 - 1 : ℤ) ≤ 1 / 2 ^ 100 := by norm_num
  rw [e1, mul_one_div]
  linarith

theorem round64_rel' {x v : ℚ} (h : round64 x = .fin v) : |v - x| ≤ |x| / 2 ^ 53 + 1 / 2 ^ 100 := by
  refine le_trans (round_rel h) ?_
  have e1 : (2 : ℚ) ^ (-53 : ℤ) = 1 / 2 ^ 53 := by norm_num
  have e2 : (2 : ℚ) ^ (-1074 - 1 : ℤ) ≤ 1 / 2 ^ 100 := by
    refine le_trans (zpow_le_zpow_right₀ (by norm_num) (show (-1074 - 1 : ℤ) ≤ -100 by norm_num)) ?_
    norm_num
  rw [e1, mul_one_div]
  linarith

/-- Rounding does not pass a multiple of a power of two that is above the last place. -/
theorem round_le_of {p emin emax k m : ℤ} {q v : ℚ} (hk : ulpExp p emin q ≤ k) (hq : q ≤ m * 2 ^ k)
    (h : round p emin emax q = .fin v) : v ≤ m * 2 ^ k := by
  unfold round at h
  dsimp only at h
  split at h
  · cases h
  · cases h
    generalize ulpExp p emin q = e at hk
    obtain ⟨n, hn, _⟩ := zpow_sub_int hk
    have hpe := two_zpow_pos e
    have e1 : (m : ℚ) * 2 ^ k = (m * n : ℤ) * 2 ^ e := by
      push_cast
      rw [← hn, mul_assoc, ← zpow_add₀ (by norm_num : (2 : ℚ) ≠ 0)]
      congr 2
      omega
    rw [e1]
    refine mul_le_mul_of_nonneg_right ?_ hpe.le
    exact_mod_cast rne_le (by rw [div_le_iff₀ hpe, ← e1]; exact hq)

theorem ulpExp_mono {p emin : ℤ} {x y : ℚ} (h0 : 0 < x) (h : x ≤ y) : ulpExp p emin x ≤ ulpExp p emin y := by
  unfold ulpExp
  rw [abs_of_pos h0, abs_of_pos (lt_of_lt_of_le h0 h)]
  have := Int.log_mono_right (b := 2) h0 h
  omega

/-- A number below a rounded one is rounded to something not above it. -/
theorem round_le_rounded {p emin emax : ℤ} (hp : 1 ≤ p) {q v y w : ℚ} (h0 : 0 ≤ q) (hy : round p emin emax y = .fin w) (hle : q ≤ w)
    (h : round p emin emax q = .fin v) : v ≤ w := by
  rcases h0.lt_or_eq with h0 | h0
  · have hw : 0 < w := lt_of_lt_of_le h0 hle
    by_cases hqy : q ≤ y
    · refine le_trans ?_ (le_of_eq (show (rne (y / 2 ^ ulpExp p emin y) : ℚ) * 2 ^ ulpExp p emin y = w from ?_))
      · refine round_le_of (ulpExp_mono h0 hqy) ?_ h
        unfold round at hy
        dsimp only at hy
        split at hy
        · cases hy
        · cases hy
          exact hle
      · unfold round at hy
        dsimp only at hy
        split at hy
        · cases hy
        · cases hy
          rfl
    · -- `y < q ≤ w`
      push Not at hqy
      have hwy : (rne (y / 2 ^ ulpExp p emin y) : ℚ) * 2 ^ ulpExp p emin y = w := by
        unfold round at hy
        dsimp only at hy
        split at hy
        · cases hy
        · cases hy
          rfl
      -- either the last place of `q` is not above that of `y`, or `w` is a power of two
      by_cases hu : ulpExp p emin q ≤ ulpExp p emin y
      · rw [← hwy]
        exact round_le_of hu (by rw [hwy]; exact hle) h
      · push Not at hu
        have hy0 : 0 < y := by
          by_contra hneg
          push Not at hneg
          have : rne (y / 2 ^ ulpExp p emin y) ≤ 0 := rne_le (by
            push_cast
            exact div_nonpos_of_nonpos_of_nonneg hneg (two_zpow_pos _).le)
          have h1 : (rne (y / 2 ^ ulpExp p emin y) : ℚ) ≤ 0 := by exact_mod_cast this
          have := mul_nonpos_of_nonpos_of_nonneg h1 (two_zpow_pos (ulpExp p emin y)).le
          linarith
        have hlq := Int.zpow_log_le_self (R := ℚ) (b := 2) (by norm_num) h0
        have hly := Int.lt_zpow_succ_log_self (R := ℚ) (b := 2) (by norm_num) y
        unfold ulpExp at hu
        rw [abs_of_pos hy0, abs_of_pos h0] at hu
        have hlog : Int.log 2 y + 1 ≤ Int.log 2 q := by omega
        -- `w` is not above `2 ^ log q`, which is not above `q`
        have hwle : w ≤ (1 : ℤ) * 2 ^ Int.log 2 q := by
          refine round_le_of (k := Int.log 2 q) (m := 1) ?_ ?_ hy
          · unfold ulpExp
            rw [abs_of_pos hy0]
            omega
          · have : (2 : ℚ) ^ (Int.log 2 y + 1) ≤ 2 ^ Int.log 2 q := zpow_le_zpow_right₀ (by norm_num) hlog
            push_cast at hly ⊢
            linarith
        have hq2 : (2 : ℚ) ^ Int.log 2 q ≤ q := by exact_mod_cast hlq
        have hqw : q = w := by push_cast at hwle; linarith
        have hq3 : q ≤ (1 : ℤ) * 2 ^ Int.log 2 q := by push_cast at hwle ⊢; linarith
        have := round_le_of (k := Int.log 2 q) (m := 1) (by
          unfold ulpExp
          rw [abs_of_pos h0]
          omega) hq3 h
        push_cast at this
        linarith
  · rw [← h0] at h
    rw [round_zero h]
    linarith

end Fp
end Zopfli
