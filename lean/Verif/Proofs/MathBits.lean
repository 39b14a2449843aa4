import Verif.Model.Math
import Verif.Proofs.Ieee
/-!
# Rounding errors, and the bits of binary64 numbers
-/

namespace Zopfli
namespace Fp

/-- A rational number that is a finite binary64 value. -/
def IsDouble (q : ℚ) : Prop := round64 q = .fin q

/-- The last place is small for small numbers. -/
theorem ulpExp64_le {x : ℚ} {j : ℤ} (hj : -1021 ≤ j) (hx : x ≠ 0) (h : |x| < 2 ^ j) : ulpExp 53 (-1074) x ≤ j - 53 := by
  apply ulpExp_le (by omega) (.inr hx)
  rw [show (53 : ℤ) + (j - 53) = j by omega]
  exact h

/-- Rounding error, in terms of the last place. -/
theorem round64_ulp {x v : ℚ} (h : round64 x = .fin v) : |v - x| ≤ 2 ^ (ulpExp 53 (-1074) x - 1) := by
  unfold round64 round at h
  dsimp only at h
  split at h
  · cases h
  · cases h
    generalize ulpExp 53 (-1074) x = e
    have hpe := two_zpow_pos e
    have h1 := rne_error (x / 2 ^ e)
    have h2 : (rne (x / 2 ^ e) : ℚ) * 2 ^ e - x = (rne (x / 2 ^ e) - x / 2 ^ e) * 2 ^ e := by
      rw [sub_mul, div_mul_cancel₀ _ hpe.ne']
    rw [h2, abs_mul, abs_of_pos hpe, zpow_sub_one₀ (by norm_num : (2 : ℚ) ≠ 0)]
    rw [mul_comm]
    apply mul_le_mul_of_nonneg_left _ hpe.le
    rw [← one_div]
    exact h1

/-- Rounding a number of size at most `2^j`. -/
theorem round64_err {x : ℚ} {j : ℤ} (hj : -1000 ≤ j) (hj' : j ≤ 1000) (h : |x| ≤ 2 ^ j) :
    ∃ v, round64 x = .fin v ∧ |v - x| ≤ 2 ^ (j - 54) ∧ |v| ≤ 2 ^ j := by
  have hlt : (2 : ℚ) ^ j < 2 ^ (1024 : ℤ) := zpow_lt_zpow_right₀ (by norm_num) (by omega)
  by_cases h0 : x = 0
  · subst h0
    have := round64_int (z := 0) (by norm_num)
    refine ⟨0, by exact_mod_cast this, ?_, ?_⟩
    · rw [sub_zero, abs_zero]
      exact (two_zpow_pos _).le
    · rw [abs_zero]
      exact (two_zpow_pos _).le
  rcases lt_or_eq_of_le h with h' | h'
  · have he := ulpExp64_le (by omega) h0 h'
    have hv : ∃ v, round64 x = .fin v ∧ |v| ≤ 2 ^ j := by
      unfold round64 round
      dsimp only
      generalize ulpExp 53 (-1074) x = e at he
      have hpe := two_zpow_pos e
      obtain ⟨n, hn, _⟩ := zpow_sub_int (show e ≤ j by omega)
      have e1 : (2 : ℚ) ^ j = n * 2 ^ e := by
        rw [← hn, ← zpow_add₀ (by norm_num : (2 : ℚ) ≠ 0)]
        congr 1
        omega
      have hv : |(rne (x / 2 ^ e) : ℚ) * 2 ^ e| ≤ 2 ^ j := by
        rw [abs_mul, abs_of_pos hpe, e1]
        apply mul_le_mul_of_nonneg_right _ hpe.le
        apply abs_rne_le
        rw [abs_div, abs_of_pos hpe, div_le_iff₀ hpe, ← e1]
        exact h
      rw [if_neg (not_le.2 (lt_of_le_of_lt hv hlt))]
      exact ⟨_, rfl, hv⟩
    obtain ⟨v, hv, hv'⟩ := hv
    refine ⟨v, hv, le_trans (round64_ulp hv) ?_, hv'⟩
    exact zpow_le_zpow_right₀ (by norm_num) (by omega)
  · have key : ∀ z : ℤ, |(z : ℚ)| = 1 → x = z * 2 ^ j → round64 x = .fin x := by
      intro z hz hx
      rw [hx]
      apply round_exact (p := 53) (emin := -1074) (emax := 1024) (by omega) (.inr _)
      · rw [hz]; norm_num
      · rw [← hx, h']; exact hlt
      · rintro rfl
        norm_num at hz
    have hx : round64 x = .fin x := by
      rcases abs_eq (two_zpow_pos j).le |>.1 h' with hx | hx
      · exact key 1 (by norm_num) (by push_cast; rw [one_mul]; exact hx)
      · exact key (-1) (by norm_num) (by push_cast; rw [neg_one_mul]; exact hx)
    refine ⟨x, hx, ?_, h⟩
    rw [sub_self, abs_zero]
    exact (two_zpow_pos _).le

/-- An integer multiple of a power of two with at most 53 significant bits is a binary64 value. -/
theorem isDouble_mk {z k : ℤ} (hk : -1074 ≤ k) (hk' : k ≤ 971) (hz : |(z : ℚ)| < 2 ^ 53) : IsDouble (z * 2 ^ k) := by
  by_cases h0 : z = 0
  · subst h0
    have := round64_int (z := 0) (by norm_num)
    unfold IsDouble
    rw [Int.cast_zero, zero_mul]
    exact_mod_cast this
  · apply round_exact (p := 53) (emin := -1074) (emax := 1024) hk (.inr h0)
    · exact_mod_cast hz
    · rw [abs_mul, abs_of_pos (two_zpow_pos k)]
      have h1 : (2 : ℚ) ^ k ≤ 2 ^ (971 : ℤ) := zpow_le_zpow_right₀ (by norm_num) hk'
      calc |(z : ℚ)| * 2 ^ k < 2 ^ 53 * 2 ^ k := mul_lt_mul_of_pos_right hz (two_zpow_pos k)
        _ ≤ 2 ^ 53 * 2 ^ (971 : ℤ) := by apply mul_le_mul_of_nonneg_left h1; norm_num
        _ = 2 ^ (1024 : ℤ) := by rw [← zpow_natCast, ← zpow_add₀ (by norm_num)]; rfl

/-- The significand and the exponent of a binary64 value. -/
structure Repr (q : ℚ) (M : ℕ) (e : ℤ) : Prop where
  eq : |q| = M * 2 ^ e
  ulp : ulpExp 53 (-1074) q = e
  pos : 0 < M
  lt : M < 2 ^ 53
  le : -1074 ≤ e
  ge : e ≤ 971
  norm : 2 ^ 52 ≤ M ∨ e = -1074

theorem IsDouble.repr {q : ℚ} (h : IsDouble q) (h0 : q ≠ 0) : ∃ M e, Repr q M e := by
  have hq : 0 < |q| := abs_pos.2 h0
  unfold IsDouble round64 round at h
  dsimp only at h
  generalize he : ulpExp 53 (-1074) q = e at h
  have hpe := two_zpow_pos e
  split at h
  · cases h
  rename_i hmax
  have hv : (rne (q / 2 ^ e) : ℚ) * 2 ^ e = q := by injection h
  rw [hv, not_le] at hmax
  have hM : |q| = ((rne (q / 2 ^ e)).natAbs : ℕ) * 2 ^ e := by
    rw [← hv, abs_mul, abs_of_pos hpe, hv]
    congr 1
    rw [Nat.cast_natAbs, Int.cast_abs]
  generalize (rne (q / 2 ^ e)).natAbs = M at hM
  have hMpos : 0 < M := by
    rcases Nat.eq_zero_or_pos M with h | h
    · subst h
      rw [Nat.cast_zero, zero_mul] at hM
      exact absurd hM hq.ne'
    · exact h
  have hlow : (2 : ℚ) ^ (Int.log 2 |q|) ≤ |q| := by exact_mod_cast Int.zpow_log_le_self (b := 2) (by norm_num) hq
  have hhigh : |q| < (2 : ℚ) ^ (Int.log 2 |q| + 1) := by exact_mod_cast Int.lt_zpow_succ_log_self (b := 2) (by norm_num) |q|
  have hele : Int.log 2 |q| + 1 - 53 ≤ e := by rw [← he]; exact le_max_left _ _
  have hle : -1074 ≤ e := by rw [← he]; exact le_max_right _ _
  have hlt : M < 2 ^ 53 := by
    have h1 : |q| < 2 ^ (53 : ℤ) * 2 ^ e := by
      rw [← zpow_add₀ (by norm_num)]
      exact lt_of_lt_of_le hhigh (zpow_le_zpow_right₀ (by norm_num) (by omega))
    rw [hM] at h1
    have h2 := lt_of_mul_lt_mul_right h1 hpe.le
    have h3 : (M : ℚ) < (2 ^ 53 : ℕ) := by
      push_cast
      exact_mod_cast h2
    exact_mod_cast h3
  have hge : e ≤ 971 := by
    have hlogle : Int.log 2 |q| < 1024 := by
      by_contra hc
      push Not at hc
      have : (2 : ℚ) ^ (1024 : ℤ) ≤ 2 ^ (Int.log 2 |q|) := zpow_le_zpow_right₀ (by norm_num) hc
      linarith
    rw [← he]
    unfold ulpExp
    apply max_le <;> omega
  refine ⟨M, e, hM, he, hMpos, hlt, hle, hge, ?_⟩
  by_cases hc : e = -1074
  · exact .inr hc
  · left
    have hee : e = Int.log 2 |q| + 1 - 53 := by
      rw [← he] at hc ⊢
      unfold ulpExp at hc ⊢
      omega
    rw [hM] at hlow
    have h1 : (2 : ℚ) ^ (52 : ℤ) * 2 ^ e ≤ M * 2 ^ e := by
      refine le_trans (le_of_eq ?_) hlow
      rw [← zpow_add₀ (by norm_num), ← hM]
      congr 1
      omega
    have h2 := le_of_mul_le_mul_right h1 hpe
    have h3 : ((2 ^ 52 : ℕ) : ℚ) ≤ M := by
      push_cast
      exact_mod_cast h2
    exact_mod_cast h3

/-- The bits of a binary64 value. -/
theorem Repr.bits {q : ℚ} {M : ℕ} {e : ℤ} (h : Repr q M e) :
    toBits (.fin q) = (if q < 0 then 2 ^ 63 else 0) + ((e + 1074).toNat * 2 ^ 52 + M) := by
  have hpe := two_zpow_pos e
  have h0 : q ≠ 0 := by
    rintro rfl
    have := h.eq
    rw [abs_zero] at this
    have hM : (0 : ℚ) < M := by exact_mod_cast h.pos
    have := mul_pos hM hpe
    linarith
  unfold toBits
  dsimp only
  rw [if_neg h0, h.ulp, h.eq, mul_div_cancel_right₀ _ hpe.ne', Int.floor_natCast, Int.toNat_natCast]

theorem bits_arith {E M s : ℕ} (hE : E ≤ 2045) (hM : M < 2 ^ 53) (hn : 2 ^ 52 ≤ M ∨ E = 0) (hs : s = 0 ∨ s = 2 ^ 63) :
    ((2 ^ 63 ≤ s + (E * 2 ^ 52 + M)) ↔ s = 2 ^ 63) ∧
    (M < 2 ^ 52 → (s + (E * 2 ^ 52 + M)) % 2 ^ 63 / 2 ^ 52 = 0 ∧ (s + (E * 2 ^ 52 + M)) % 2 ^ 52 = M) ∧
    (2 ^ 52 ≤ M → (s + (E * 2 ^ 52 + M)) % 2 ^ 63 / 2 ^ 52 = E + 1 ∧ (s + (E * 2 ^ 52 + M)) % 2 ^ 52 = M - 2 ^ 52) := by
  refine ⟨?_, ?_, ?_⟩ <;> omega

/-- The number with given bits. -/
theorem fromBits_mk {E M s : ℕ} (hE : E ≤ 2045) (hM : M < 2 ^ 53) (hn : 2 ^ 52 ≤ M ∨ E = 0) (hs : s = 0 ∨ s = 2 ^ 63) :
    fromBits (s + (E * 2 ^ 52 + M)) = .fin (if s = 2 ^ 63 then -(M * 2 ^ ((E : ℤ) - 1074)) else M * 2 ^ ((E : ℤ) - 1074)) := by
  obtain ⟨h1, h2, h3⟩ := bits_arith hE hM hn hs
  unfold fromBits
  dsimp only
  simp only [h1]
  have hv : ∀ v w : ℚ, v = w → (Fp.fin (if s = 2 ^ 63 then -v else v)) = .fin (if s = 2 ^ 63 then -w else w) := by
    rintro v _ rfl
    rfl
  rcases Nat.lt_or_ge M (2 ^ 52) with h | h
  · obtain ⟨h4, h5⟩ := h2 h
    have hE0 : E = 0 := by omega
    rw [h4, h5, if_neg (by decide), if_pos rfl]
    apply hv
    rw [hE0]
    norm_num
  · obtain ⟨h4, h5⟩ := h3 h
    have h6 : E + 1 ≠ 2047 := by omega
    have h7 : E + 1 ≠ 0 := by omega
    rw [h4, h5, if_neg h6, if_neg h7]
    apply hv
    rw [Nat.cast_sub h]
    push_cast
    rw [show ((E : ℤ) + 1 - 1075) = (E : ℤ) - 1074 by omega]
    ring

/-- `from_bits` undoes `to_bits`. -/
theorem fromBits_toBits {q : ℚ} (h : IsDouble q) : fromBits (toBits (.fin q)) = .fin q := by
  by_cases h0 : q = 0
  · subst h0
    decide +kernel
  obtain ⟨M, e, hr⟩ := h.repr h0
  have h1 := hr.le
  have h2 := hr.ge
  rw [hr.bits, fromBits_mk (by omega) hr.lt (by have := hr.norm; omega) (by split <;> simp)]
  have he : ((e + 1074).toNat : ℤ) - 1074 = e := by omega
  rw [he, ← hr.eq]
  by_cases hq : q < 0
  · rw [if_pos (by rw [if_pos hq]), abs_of_neg hq, neg_neg]
  · rw [if_neg (by rw [if_neg hq]; norm_num), abs_of_nonneg (not_lt.1 hq)]

/-- Clearing the low half of the bits does not make the number larger in magnitude. -/
theorem trunc_bits {q : ℚ} (h : IsDouble q) (hq : |q| ≤ 1) :
    ∃ v, fromBits (toBits (.fin q) - toBits (.fin q) % 2 ^ 32) = .fin v ∧ |v| ≤ |q| := by
  by_cases h0 : q = 0
  · subst h0
    refine ⟨0, by decide +kernel, le_refl _⟩
  obtain ⟨M, e, hr⟩ := h.repr h0
  have h1 := hr.le
  have h2 := hr.ge
  have h3 := hr.norm
  have h4 := hr.lt
  obtain ⟨s, hs⟩ : ∃ s : ℕ, (if q < 0 then 2 ^ 63 else 0) = s := ⟨_, rfl⟩
  have hs' : s = 0 ∨ s = 2 ^ 63 := by rw [← hs]; split <;> simp
  rw [hr.bits, hs]
  have e1 : s + ((e + 1074).toNat * 2 ^ 52 + M) - (s + ((e + 1074).toNat * 2 ^ 52 + M)) % 2 ^ 32 =
      s + ((e + 1074).toNat * 2 ^ 52 + (M - M % 2 ^ 32)) := by omega
  rw [e1, fromBits_mk (by omega) (by omega) (by omega) hs']
  refine ⟨_, rfl, ?_⟩
  have he : ((e + 1074).toNat : ℤ) - 1074 = e := by omega
  rw [he, hr.eq]
  have hpe := two_zpow_pos e
  have hle : ((M - M % 2 ^ 32 : ℕ) : ℚ) * 2 ^ e ≤ M * 2 ^ e := by
    apply mul_le_mul_of_nonneg_right _ hpe.le
    exact_mod_cast Nat.sub_le _ _
  have hnn : (0 : ℚ) ≤ ((M - M % 2 ^ 32 : ℕ) : ℚ) * 2 ^ e := by positivity
  split
  · rw [abs_neg, abs_of_nonneg hnn]
    exact hle
  · rw [abs_of_nonneg hnn]
    exact hle

/-- `f64::abs` of `no_std` builds is the absolute value. -/
theorem absNoStd_eq {q : ℚ} (h : IsDouble q) : absNoStd (.fin q) = Fp.abs (.fin q) := by
  unfold absNoStd Fp.abs
  by_cases h0 : q = 0
  · subst h0
    decide +kernel
  obtain ⟨M, e, hr⟩ := h.repr h0
  have h1 := hr.le
  have h2 := hr.ge
  have h3 := hr.norm
  have h4 := hr.lt
  obtain ⟨s, hs⟩ : ∃ s : ℕ, (if q < 0 then 2 ^ 63 else 0) = s := ⟨_, rfl⟩
  have hs' : s = 0 ∨ s = 2 ^ 63 := by rw [← hs]; split <;> simp
  rw [hr.bits, hs]
  have e1 : (s + ((e + 1074).toNat * 2 ^ 52 + M)) % 2 ^ 63 = 0 + ((e + 1074).toNat * 2 ^ 52 + M) := by omega
  rw [e1, fromBits_mk (by omega) hr.lt (by omega) (.inl rfl), if_neg (by norm_num)]
  have he : ((e + 1074).toNat : ℤ) - 1074 = e := by omega
  rw [he]
  exact congrArg Fp.fin hr.eq.symm

/-- The result of rounding is a binary64 value. -/
theorem round64_isDouble {x v : ℚ} (h : round64 x = .fin v) : IsDouble v := by
  have h' := h
  unfold round64 round at h
  dsimp only at h
  have hle : -1074 ≤ ulpExp 53 (-1074) x := le_max_right _ _
  by_cases h0 : x = 0
  · subst h0
    have := round64_int (z := 0) (by norm_num)
    have hv : round64 0 = .fin 0 := by exact_mod_cast this
    rw [hv] at h'
    cases h'
    exact hv
  have hlt : |x| / 2 ^ ulpExp 53 (-1074) x < 2 ^ 53 := by
    rw [div_lt_iff₀ (two_zpow_pos _)]
    have h1 : |x| < (2 : ℚ) ^ (Int.log 2 |x| + 1) := by exact_mod_cast Int.lt_zpow_succ_log_self (b := 2) (by norm_num) |x|
    refine lt_of_lt_of_le h1 ?_
    rw [← zpow_natCast, ← zpow_add₀ (by norm_num)]
    apply zpow_le_zpow_right₀ (by norm_num)
    have : Int.log 2 |x| + 1 - 53 ≤ ulpExp 53 (-1074) x := le_max_left _ _
    push_cast
    omega
  generalize ulpExp 53 (-1074) x = e at h hle hlt
  have hpe := two_zpow_pos e
  split at h
  · cases h
  rename_i hmax
  rw [not_le] at hmax
  have hv : (rne (x / 2 ^ e) : ℚ) * 2 ^ e = v := by injection h
  have hM : |(rne (x / 2 ^ e) : ℚ)| ≤ (2 ^ 53 : ℤ) := by
    apply abs_rne_le
    rw [abs_div, abs_of_pos hpe]
    push_cast
    exact hlt.le
  generalize rne (x / 2 ^ e) = M at *
  rw [← hv]
  have hMi : |M| ≤ 2 ^ 53 := by exact_mod_cast hM
  have hmax' : M ≠ 0 → (2 : ℚ) ^ e < 2 ^ (1024 : ℤ) := by
    intro hM0
    refine lt_of_le_of_lt ?_ hmax
    rw [abs_mul, abs_of_pos hpe]
    have : (1 : ℚ) ≤ |(M : ℚ)| := by
      have : 1 ≤ |M| := Int.one_le_abs hM0
      exact_mod_cast this
    exact le_mul_of_one_le_left hpe.le this
  by_cases hM0 : M = 0
  · subst hM0
    unfold IsDouble
    rw [Int.cast_zero, zero_mul]
    have := round64_int (z := 0) (by norm_num)
    exact_mod_cast this
  rcases lt_or_eq_of_le hMi with hl | hl
  · exact round_exact (p := 53) (emin := -1074) (emax := 1024) hle (.inr hM0) (by
      have : (|M| : ℤ) < 2 ^ 53 := hl
      exact_mod_cast this) hmax
  · have hd : (2 : ℤ) ∣ M := by
      rw [← dvd_abs, hl]
      exact ⟨2 ^ 52, by norm_num⟩
    obtain ⟨N, rfl⟩ := hd
    have e2 : ((2 * N : ℤ) : ℚ) * 2 ^ e = N * 2 ^ (e + 1) := by
      rw [zpow_add_one₀ (by norm_num)]
      push_cast
      ring
    rw [e2] at hmax ⊢
    refine round_exact (p := 53) (emin := -1074) (emax := 1024) (by omega) (.inr (by omega)) ?_ hmax
    have : |N| < 2 ^ 53 := by
      rw [abs_mul] at hl
      norm_num at hl
      omega
    exact_mod_cast this

end Fp
end Zopfli
