import Verif.Proofs.MathBits
/-!
# The reduction of `log2` to numbers between `sqrt(2)/2` and `sqrt(2)`
-/

namespace Zopfli
namespace Fp

/-- What the reduction leaves: a multiple of `2^-53` between about `sqrt(2)/2` and `sqrt(2)`. -/
structure Mid (x : ℚ) : Prop where
  int : ∃ N : ℕ, x = N * 2 ^ (-53 : ℤ)
  le : 1482910 / 2 ^ 21 ≤ x
  lt : x < 1482910 / 2 ^ 20

theorem split_arith {b E m : ℕ} (hb : b = E * 2 ^ 52 + m) (hm : m < 2 ^ 52) :
    (m / 2 ^ 32 < 434334 →
      (b / 2 ^ 32 + (0x3ff00000 - 0x3fe6a09e)) / 2 ^ 20 = E ∧
      ((b / 2 ^ 32 + (0x3ff00000 - 0x3fe6a09e)) % 2 ^ 20 + 0x3fe6a09e) * 2 ^ 32 + b % 2 ^ 32 = 0 + (1022 * 2 ^ 52 + (2 ^ 52 + m))) ∧
    (434334 ≤ m / 2 ^ 32 →
      (b / 2 ^ 32 + (0x3ff00000 - 0x3fe6a09e)) / 2 ^ 20 = E + 1 ∧
      ((b / 2 ^ 32 + (0x3ff00000 - 0x3fe6a09e)) % 2 ^ 20 + 0x3fe6a09e) * 2 ^ 32 + b % 2 ^ 32 = 0 + (1021 * 2 ^ 52 + (2 ^ 52 + m))) := by
  have h0 : b / 2 ^ 32 = E * 2 ^ 20 + m / 2 ^ 32 := by omega
  have h1 : b % 2 ^ 32 = m % 2 ^ 32 := by omega
  rw [h0, h1]
  have h2 : m / 2 ^ 32 < 2 ^ 20 := by omega
  have h3 : m = m / 2 ^ 32 * 2 ^ 32 + m % 2 ^ 32 := by omega
  generalize m / 2 ^ 32 = mh at *
  generalize m % 2 ^ 32 = ml at *
  subst h3
  constructor <;> intro h <;> constructor <;> omega

theorem log2Split_eq {b E m : ℕ} (hb : b = E * 2 ^ 52 + m) (hm : m < 2 ^ 52) (k : ℤ) :
    ∃ x κ, log2Split b k = log2Reduced (.fin x) (k + κ) ∧ Mid x ∧ x * 2 ^ κ = (2 ^ 52 + m : ℕ) * (2 : ℚ) ^ ((E : ℤ) - 1075) ∧
      -1023 + (E : ℤ) ≤ κ ∧ κ ≤ E - 1022 := by
  obtain ⟨h1, h2⟩ := split_arith hb hm
  have h3 : m = m / 2 ^ 32 * 2 ^ 32 + m % 2 ^ 32 := by omega
  have h4 : m % 2 ^ 32 < 2 ^ 32 := by omega
  unfold log2Split
  dsimp only
  rcases Nat.lt_or_ge (m / 2 ^ 32) 434334 with h | h
  · obtain ⟨e1, e2⟩ := h1 h
    rw [e1, e2, fromBits_mk (by norm_num) (by omega) (.inl (by omega)) (.inl rfl), if_neg (by norm_num)]
    have hx : ((2 ^ 52 + m : ℕ) : ℚ) * 2 ^ (((1022 : ℕ) : ℤ) - 1074) = ((2 ^ 52 + m : ℕ) : ℚ) / 2 ^ 52 := by
      norm_num
      ring
    refine ⟨_, _, rfl, ?_, ?_, by omega, by omega⟩
    · rw [hx]
      refine ⟨⟨2 * (2 ^ 52 + m), ?_⟩, ?_, ?_⟩
      · push_cast
        norm_num
        ring
      · rw [div_le_div_iff₀ (by norm_num) (by norm_num)]
        have : 1482910 * 2 ^ 52 ≤ (2 ^ 52 + m) * 2 ^ 21 := by omega
        exact_mod_cast this
      · rw [div_lt_div_iff₀ (by norm_num) (by norm_num)]
        have : (2 ^ 52 + m) * 2 ^ 20 < 1482910 * 2 ^ 52 := by omega
        exact_mod_cast this
    · rw [mul_assoc, ← zpow_add₀ (by norm_num)]
      congr 2
      push_cast
      ring
  · obtain ⟨e1, e2⟩ := h2 h
    rw [e1, e2, fromBits_mk (by norm_num) (by omega) (.inl (by omega)) (.inl rfl), if_neg (by norm_num)]
    have hx : ((2 ^ 52 + m : ℕ) : ℚ) * 2 ^ (((1021 : ℕ) : ℤ) - 1074) = ((2 ^ 52 + m : ℕ) : ℚ) / 2 ^ 53 := by
      norm_num
      ring
    refine ⟨_, _, rfl, ?_, ?_, by push_cast; omega, by push_cast; omega⟩
    · rw [hx]
      refine ⟨⟨2 ^ 52 + m, ?_⟩, ?_, ?_⟩
      · norm_num
        ring
      · rw [div_le_div_iff₀ (by norm_num) (by norm_num)]
        have : 1482910 * 2 ^ 53 ≤ (2 ^ 52 + m) * 2 ^ 21 := by omega
        exact_mod_cast this
      · rw [div_lt_div_iff₀ (by norm_num) (by norm_num)]
        have : (2 ^ 52 + m) * 2 ^ 20 < 1482910 * 2 ^ 53 := by omega
        exact_mod_cast this
    · rw [mul_assoc, ← zpow_add₀ (by norm_num)]
      congr 2
      push_cast
      ring

theorem toBits_normal {q : ℚ} {M : ℕ} {e : ℤ} (h : Repr q M e) (hq : 0 < q) (hM : 2 ^ 52 ≤ M) :
    ∃ E m : ℕ, toBits (.fin q) = E * 2 ^ 52 + m ∧ m < 2 ^ 52 ∧ (E : ℤ) = e + 1075 ∧ M = 2 ^ 52 + m := by
  have h1 := h.le
  have h2 := h.lt
  rw [h.bits, if_neg (not_lt.2 hq.le)]
  refine ⟨(e + 1074).toNat + 1, M - 2 ^ 52, by omega, by omega, by omega, by omega⟩

/-- The reduction: every positive number is `x * 2^k` with `x` in the middle. -/
theorem log2NoStd_split {q : ℚ} (h : IsDouble q) (hq : 0 < q) (h1 : q ≠ 1) :
    ∃ x κ, log2NoStd (.fin q) = log2Reduced (.fin x) κ ∧ Mid x ∧ x * 2 ^ κ = q ∧ -1080 ≤ κ ∧ κ ≤ 1024 := by
  obtain ⟨M, e, hr⟩ := h.repr hq.ne'
  have hq' : q = M * 2 ^ e := by rw [← hr.eq, abs_of_pos hq]
  have hle := hr.le
  have hge := hr.ge
  have hpos := hr.pos
  by_cases hM : 2 ^ 52 ≤ M
  · obtain ⟨E, m, hb, hm, hE, hMm⟩ := toBits_normal hr hq hM
    unfold log2NoStd
    dsimp only
    have hh : toBits (.fin q) / 2 ^ 32 = E * 2 ^ 20 + m / 2 ^ 32 := by omega
    have hn : ¬ (toBits (.fin q) / 2 ^ 32 < 0x00100000 ∨ toBits (.fin q) / 2 ^ 32 / 2 ^ 31 > 0) := by
      rw [hh]
      have h5 : m / 2 ^ 32 < 2 ^ 20 := by omega
      have h6 : 1 ≤ E := by omega
      have h7 : E ≤ 2046 := by omega
      omega
    rw [if_neg hn]
    have hn2 : ¬ toBits (.fin q) / 2 ^ 32 ≥ 0x7ff00000 := by
      rw [hh]
      have h5 : m / 2 ^ 32 < 2 ^ 20 := by omega
      have h7 : E ≤ 2046 := by omega
      omega
    rw [if_neg hn2]
    have hn3 : ¬ (toBits (.fin q) / 2 ^ 32 = 0x3ff00000 ∧ toBits (.fin q) * 2 ^ 32 % 2 ^ 64 = 0) := by
      rintro ⟨h6, h7⟩
      apply h1
      rw [hh] at h6
      have h5 : m / 2 ^ 32 < 2 ^ 20 := by omega
      have hE0 : E = 1023 := by omega
      have hm0 : m / 2 ^ 32 = 0 := by omega
      have hm1 : m % 2 ^ 32 = 0 := by omega
      have hm2 : m = 0 := by omega
      have he : e = -52 := by omega
      rw [hq', hMm, hm2, he]
      norm_num
    rw [if_neg hn3]
    obtain ⟨x, κ, e1, e2, e3, e4, e5⟩ := log2Split_eq hb hm 0
    refine ⟨x, 0 + κ, e1, e2, ?_, by omega, by omega⟩
    rw [zero_add, e3, hq', hMm, hE]
    congr 2
    omega
  · have he : e = -1074 := by
      rcases hr.norm with h | h
      · exact absurd h hM
      · exact h
    subst he
    have hlt : M < 2 ^ 52 := by omega
    have hb : toBits (.fin q) = M := by
      rw [hr.bits, if_neg (not_lt.2 hq.le)]
      norm_num
    unfold log2NoStd
    dsimp only
    rw [hb, if_pos (by left; omega), if_neg (by omega), if_neg (by omega)]
    have hc : fromBits 0x4350000000000000 = .fin (2 ^ 54) := by
      have := fromBits_mk (E := 1076) (M := 2 ^ 52) (s := 0) (by norm_num) (by norm_num) (.inl (by norm_num)) (.inl rfl)
      norm_num at this
      rw [this]
      norm_num
    have hmul : mul64 (.fin q) (fromBits 0x4350000000000000) = .fin ((M : ℤ) * 2 ^ (-1020 : ℤ)) := by
      rw [hc]
      show round64 (q * 2 ^ 54) = _
      have e1 : q * 2 ^ 54 = (M : ℤ) * 2 ^ (-1020 : ℤ) := by
        rw [hq', mul_assoc, ← zpow_natCast, ← zpow_add₀ (by norm_num)]
        rfl
      rw [e1]
      exact isDouble_mk (by norm_num) (by norm_num) (by
        rw [Int.cast_natCast, abs_of_nonneg (by positivity)]
        have : M < 2 ^ 53 := by omega
        exact_mod_cast this)
    rw [hmul]
    have hd : IsDouble ((M : ℤ) * 2 ^ (-1020 : ℤ)) := isDouble_mk (by norm_num) (by norm_num) (by
        rw [Int.cast_natCast, abs_of_nonneg (by positivity)]
        have : M < 2 ^ 53 := by omega
        exact_mod_cast this)
    have hMq : (1 : ℚ) ≤ M := by exact_mod_cast hpos
    have hp2 : (0 : ℚ) < (M : ℤ) * 2 ^ (-1020 : ℤ) := by
      rw [Int.cast_natCast]
      exact mul_pos (by linarith) (two_zpow_pos _)
    obtain ⟨M', e', hr'⟩ := hd.repr hp2.ne'
    have hq2 : ((M : ℤ) : ℚ) * 2 ^ (-1020 : ℤ) = M' * 2 ^ e' := by rw [← hr'.eq, abs_of_pos hp2]
    have hM' : 2 ^ 52 ≤ M' := by
      rcases hr'.norm with h | h
      · exact h
      · exfalso
        subst h
        have hlt' := hr'.lt
        have h5 : (M : ℚ) * 2 ^ 54 = M' := by
          have h6 : ((M : ℤ) : ℚ) * 2 ^ (-1020 : ℤ) * 2 ^ (1074 : ℤ) = M' * 2 ^ (-1074 : ℤ) * 2 ^ (1074 : ℤ) := by rw [hq2]
          rw [mul_assoc, mul_assoc, ← zpow_add₀ (by norm_num), ← zpow_add₀ (by norm_num)] at h6
          norm_num at h6
          rw [← h6]
          norm_num
        have h7 : M * 2 ^ 54 = M' := by exact_mod_cast h5
        omega
    obtain ⟨E, m, hb', hm, hE, hMm⟩ := toBits_normal hr' hp2 hM'
    have hle' := hr'.le
    have hge' : E ≤ 1078 := by
      by_contra hc
      push Not at hc
      have h6 : (2 : ℚ) ^ (52 : ℤ) * 2 ^ (4 : ℤ) ≤ M' * 2 ^ e' := by
        apply mul_le_mul _ _ (two_zpow_pos _).le (Nat.cast_nonneg _)
        · have : ((2 ^ 52 : ℕ) : ℚ) ≤ M' := by exact_mod_cast hM'
          push_cast at this
          exact_mod_cast this
        · apply zpow_le_zpow_right₀ (by norm_num)
          omega
      rw [← hq2] at h6
      have h7 : ((M : ℤ) : ℚ) * 2 ^ (-1020 : ℤ) ≤ 2 ^ 52 * 1 := by
        apply mul_le_mul _ _ (two_zpow_pos _).le (by norm_num)
        · have : (M : ℚ) ≤ (2 ^ 52 : ℕ) := by exact_mod_cast hlt.le
          push_cast at this
          exact_mod_cast this
        · exact zpow_le_one_of_nonpos₀ (by norm_num) (by norm_num)
      have h8 : (2 : ℚ) ^ (52 : ℤ) * 2 ^ (4 : ℤ) ≤ 2 ^ 52 * 1 := le_trans h6 h7
      norm_num at h8
    obtain ⟨x, κ, e1, e2, e3, e4, e5⟩ := log2Split_eq hb' hm (-54)
    refine ⟨x, -54 + κ, e1, e2, ?_, by omega, by omega⟩
    rw [zpow_add₀ (by norm_num), mul_left_comm, e3, ← hMm, hE, show (e' + 1075 - 1075) = e' by omega, ← hq2, hq', Int.cast_natCast, mul_left_comm,
      ← zpow_add₀ (by norm_num)]
    rfl

end Fp
end Zopfli
