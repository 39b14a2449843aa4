import Verif.Model.Ieee
import Verif.Proofs.FloatLaws
import Mathlib.Tactic.Linarith
import Mathlib.Tactic.Positivity
import Mathlib.Tactic.NormNum
import Mathlib.Tactic.Push
/-! # IEEE 754 arithmetic satisfies the laws -/

namespace Zopfli
namespace Fp

theorem rne_mem (x : ℚ) : rne x = ⌊x⌋ ∨ rne x = ⌊x⌋ + 1 := by
  unfold rne
  dsimp only
  split
  · exact .inl rfl
  · split
    · exact .inr rfl
    · split
      · exact .inl rfl
      · exact .inr rfl

theorem rne_error (x : ℚ) : |(rne x : ℚ) - x| ≤ 1 / 2 := by
  have h1 := Int.floor_le x
  have h2 := Int.lt_floor_add_one x
  unfold rne
  dsimp only
  rw [abs_le]
  split
  · constructor <;> linarith
  · split
    · push_cast; constructor <;> linarith
    · split
      · constructor <;> linarith
      · push_cast; constructor <;> linarith

theorem rne_int (n : ℤ) : rne (n : ℚ) = n := by
  unfold rne
  rw [Int.floor_intCast]
  simp

theorem rne_le {x : ℚ} {n : ℤ} (h : x ≤ n) : rne x ≤ n := by
  have h1 := rne_error x
  rw [abs_le] at h1
  by_contra hc
  push Not at hc
  have : (n : ℚ) + 1 ≤ rne x := by exact_mod_cast hc
  linarith

theorem le_rne {x : ℚ} {n : ℤ} (h : (n : ℚ) ≤ x) : n ≤ rne x := by
  have h1 := rne_error x
  rw [abs_le] at h1
  by_contra hc
  push Not at hc
  have : (rne x : ℚ) + 1 ≤ n := by exact_mod_cast hc
  linarith

theorem abs_rne_le {x : ℚ} {n : ℤ} (h : |x| ≤ n) : |(rne x : ℚ)| ≤ n := by
  rw [abs_le] at h ⊢
  constructor
  · have := le_rne (x := x) (n := -n) (by push_cast; exact h.1)
    exact_mod_cast this
  · exact_mod_cast rne_le h.2

theorem two_zpow_pos (k : ℤ) : (0 : ℚ) < 2 ^ k := zpow_pos (by norm_num) k

theorem lt_big {x : ℚ} (h : x ≤ 2 ^ 60) : x < 2 ^ (1024 : ℤ) := by
  refine lt_of_le_of_lt h ?_
  rw [← zpow_natCast]
  exact zpow_lt_zpow_right₀ (by norm_num) (by norm_num)

/-- Below `2^(p+k)` the last place is at most `2^k`. -/
theorem ulpExp_le {p emin k : ℤ} {q : ℚ} (hk : emin ≤ k) (hp : 1 ≤ p + k ∨ q ≠ 0) (h : |q| < 2 ^ (p + k)) : ulpExp p emin q ≤ k := by
  unfold ulpExp
  apply max_le _ hk
  by_cases h0 : q = 0
  · subst h0
    rw [abs_zero, Int.log_zero_right]
    rcases hp with hp | hp
    · omega
    · exact absurd rfl hp
  · have hpos : 0 < |q| := abs_pos.2 h0
    have : Int.log 2 |q| < p + k := (Int.lt_zpow_iff_log_lt (R := ℚ) (by norm_num) hpos).1 (by exact_mod_cast h)
    omega

theorem zpow_sub_int {e k : ℤ} (h : e ≤ k) : ∃ n : ℤ, (2 : ℚ) ^ (k - e) = n ∧ 0 < n := by
  obtain ⟨m, hm⟩ := Int.eq_ofNat_of_zero_le (show 0 ≤ k - e by omega)
  refine ⟨2 ^ m, ?_, by positivity⟩
  rw [hm]
  push_cast
  exact zpow_natCast 2 m

theorem div_ulp {e k : ℤ} {q z : ℚ} (hq : q = z * 2 ^ k) : q / 2 ^ e = z * 2 ^ (k - e) := by
  rw [hq, zpow_sub₀ (by norm_num : (2 : ℚ) ≠ 0), mul_div_assoc]

/-- A number with at most `p` significant bits is represented exactly. -/
theorem round_exact {p emin emax k z : ℤ} (hk : emin ≤ k) (hp : 1 ≤ p + k ∨ z ≠ 0) (hz : |(z : ℚ)| < 2 ^ p)
    (hmax : |(z : ℚ) * 2 ^ k| < 2 ^ emax) : round p emin emax ((z : ℚ) * 2 ^ k) = .fin ((z : ℚ) * 2 ^ k) := by
  have hpos := two_zpow_pos k
  have habs : |(z : ℚ) * 2 ^ k| < 2 ^ (p + k) := by
    rw [abs_mul, abs_of_pos hpos, zpow_add₀ (by norm_num)]
    exact mul_lt_mul_of_pos_right hz hpos
  have he : ulpExp p emin ((z : ℚ) * 2 ^ k) ≤ k := by
    apply ulpExp_le hk _ habs
    rcases hp with hp | hp
    · exact .inl hp
    · refine .inr (mul_ne_zero (by exact_mod_cast hp) (ne_of_gt hpos))
  unfold round
  dsimp only
  generalize ulpExp p emin ((z : ℚ) * 2 ^ k) = e at he
  obtain ⟨n, hn, _⟩ := zpow_sub_int he
  have hv : (rne ((z : ℚ) * 2 ^ k / 2 ^ e) : ℚ) * 2 ^ e = z * 2 ^ k := by
    rw [div_ulp rfl, hn, show (z : ℚ) * n = ((z * n : ℤ) : ℚ) by push_cast; rfl, rne_int]
    push_cast
    rw [← hn, mul_assoc, ← zpow_add₀ (by norm_num : (2 : ℚ) ≠ 0)]
    congr 2
    omega
  rw [hv, if_neg (not_le.2 hmax)]

/-- Rounding does not go beyond a representable bound. -/
theorem round_bound {p emin emax k m : ℤ} {q : ℚ} (hk : emin ≤ k) (hp : 1 ≤ p + k) (hm : (m : ℚ) < 2 ^ p)
    (hmax : (m : ℚ) * 2 ^ k < 2 ^ emax) (hq : |q| ≤ m * 2 ^ k) : ∃ v, round p emin emax q = .fin v ∧ |v| ≤ m * 2 ^ k := by
  have hpos := two_zpow_pos k
  have habs : |q| < 2 ^ (p + k) := by
    refine lt_of_le_of_lt hq ?_
    rw [zpow_add₀ (by norm_num)]
    exact mul_lt_mul_of_pos_right hm hpos
  have he : ulpExp p emin q ≤ k := ulpExp_le hk (.inl hp) habs
  unfold round
  dsimp only
  generalize ulpExp p emin q = e at he
  obtain ⟨n, hn, _⟩ := zpow_sub_int he
  have hpe := two_zpow_pos e
  have e1 : (m : ℚ) * 2 ^ k = (m * n : ℤ) * 2 ^ e := by
    push_cast
    rw [← hn, mul_assoc, ← zpow_add₀ (by norm_num : (2 : ℚ) ≠ 0)]
    congr 2
    omega
  have hv : |(rne (q / 2 ^ e) : ℚ) * 2 ^ e| ≤ m * 2 ^ k := by
    rw [abs_mul, abs_of_pos hpe, e1]
    apply mul_le_mul_of_nonneg_right _ hpe.le
    apply abs_rne_le
    rw [abs_div, abs_of_pos hpe, div_le_iff₀ hpe, ← e1]
    exact hq
  rw [if_neg (not_le.2 (lt_of_le_of_lt hv hmax))]
  exact ⟨_, rfl, hv⟩

theorem round_nonneg {p emin emax : ℤ} {q v : ℚ} (hq : 0 ≤ q) (h : round p emin emax q = .fin v) : 0 ≤ v := by
  unfold round at h
  dsimp only at h
  split at h
  · cases h
  · cases h
    have hpe := two_zpow_pos (ulpExp p emin q)
    have : 0 ≤ rne (q / 2 ^ ulpExp p emin q) := le_rne (n := 0) (by
      push_cast
      exact div_nonneg hq hpe.le)
    have : (0 : ℚ) ≤ rne (q / 2 ^ ulpExp p emin q) := by exact_mod_cast this
    positivity

theorem round64_pow {q : ℚ} {k : Nat} (hk : k < 1000) (hq : |q| ≤ 2 ^ k) : ∃ v, round64 q = .fin v ∧ |v| ≤ 2 ^ k := by
  have := round_bound (p := 53) (emin := -1074) (emax := 1024) (k := k) (m := 1) (q := q) (by omega) (by omega) (by norm_num)
    (by rw [Int.cast_one, one_mul]; exact zpow_lt_zpow_right₀ (by norm_num) (by omega)) (by push_cast; rw [one_mul, zpow_natCast]; exact hq)
  push_cast at this
  rw [one_mul, zpow_natCast] at this
  exact this

theorem round64_int {z : ℤ} (hz : |(z : ℚ)| < 2 ^ 53) : round64 z = .fin z := by
  have := round_exact (p := 53) (emin := -1074) (emax := 1024) (k := 0) (z := z) (by omega) (.inl (by omega)) (by exact_mod_cast hz) (by
    rw [zpow_zero, mul_one]
    exact lt_big (le_trans hz.le (by norm_num)))
  rw [zpow_zero, mul_one] at this
  exact this

theorem round64_half {z : ℤ} (hz : |(z : ℚ)| < 2 ^ 53) : round64 (z / 2) = .fin (z / 2) := by
  have := round_exact (p := 53) (emin := -1074) (emax := 1024) (k := -1) (z := z) (by omega) (.inl (by omega)) (by exact_mod_cast hz) (by
    rw [zpow_neg_one, abs_mul]
    refine lt_big ?_
    have : |(2 : ℚ)⁻¹| = 1 / 2 := by rw [abs_of_pos] <;> norm_num
    rw [this]
    have h0 := abs_nonneg (z : ℚ)
    linarith)
  rw [zpow_neg_one, ← div_eq_mul_inv] at this
  exact this

theorem round64_nat {n : Nat} (hn : n < 2 ^ 53) : round64 n = .fin n := by
  have := round64_int (z := n) (by
    push_cast
    rw [abs_of_nonneg (by positivity)]
    exact_mod_cast hn)
  exact_mod_cast this

theorem round32_pow {q : ℚ} {k : Nat} (hk : k < 100) (hq : |q| ≤ 2 ^ k) : ∃ v, round32 q = .fin v ∧ |v| ≤ 2 ^ k := by
  have := round_bound (p := 24) (emin := -149) (emax := 128) (k := k) (m := 1) (q := q) (by omega) (by omega) (by norm_num)
    (by rw [Int.cast_one, one_mul]; exact zpow_lt_zpow_right₀ (by norm_num) (by omega)) (by push_cast; rw [one_mul, zpow_natCast]; exact hq)
  push_cast at this
  rw [one_mul, zpow_natCast] at this
  exact this

/-- Just above `2^40`, binary32 rounds down to `2^40`. -/
theorem round32_absorb {q : ℚ} (hq : |q| ≤ 2 ^ 40 + 2 ^ 11) : ∃ v, round32 q = .fin v ∧ |v| ≤ 2 ^ 40 := by
  by_cases h : |q| ≤ 2 ^ 40
  · exact round32_pow (by norm_num) h
  · push Not at h
    have hpos : 0 < |q| := lt_trans (by norm_num) h
    have h1 : Int.log 2 |q| = 40 := by
      apply le_antisymm
      · have : Int.log 2 |q| < 41 := (Int.lt_zpow_iff_log_lt (R := ℚ) (by norm_num) hpos).1 (by
          refine lt_of_le_of_lt hq ?_
          norm_num)
        omega
      · refine (Int.zpow_le_iff_le_log (R := ℚ) (by norm_num) hpos).1 (le_trans ?_ h.le)
        norm_num
    have he : ulpExp 24 (-149) q = 17 := by unfold ulpExp; rw [h1]; norm_num
    unfold round32 round
    dsimp only
    rw [he]
    have hb : |(rne (q / 2 ^ (17 : ℤ)) : ℚ)| ≤ (2 ^ 23 : ℤ) := by
      have herr := rne_error (q / 2 ^ (17 : ℤ))
      have hx : |q / 2 ^ (17 : ℤ)| ≤ 2 ^ 23 + 1 / 4 := by
        rw [abs_div, abs_of_pos (two_zpow_pos 17), div_le_iff₀ (two_zpow_pos 17)]
        refine le_trans hq ?_
        norm_num
      rw [abs_le] at herr hx
      rw [abs_le]
      constructor
      · have : (-(2 ^ 23 : ℤ)) ≤ rne (q / 2 ^ (17 : ℤ)) := by
          by_contra hc
          push Not at hc
          have : (rne (q / 2 ^ (17 : ℤ)) : ℚ) + 1 ≤ -(2 ^ 23 : ℤ) := by exact_mod_cast hc
          push_cast at this
          linarith
        exact_mod_cast this
      · have : rne (q / 2 ^ (17 : ℤ)) ≤ 2 ^ 23 := by
          by_contra hc
          push Not at hc
          have : ((2 ^ 23 : ℤ) : ℚ) + 1 ≤ rne (q / 2 ^ (17 : ℤ)) := by exact_mod_cast hc
          push_cast at this
          linarith
        exact_mod_cast this
    have hv : |(rne (q / 2 ^ (17 : ℤ)) : ℚ) * 2 ^ (17 : ℤ)| ≤ 2 ^ 40 := by
      rw [abs_mul, abs_of_pos (two_zpow_pos 17)]
      refine le_trans (mul_le_mul_of_nonneg_right hb (two_zpow_pos 17).le) ?_
      norm_num
    rw [if_neg]
    · exact ⟨_, rfl, hv⟩
    · rw [not_le]
      refine lt_of_le_of_lt hv ?_
      norm_num

end Fp

open Fp

theorem ieee_ofUsize (log2 : Fp → Fp) (n : Nat) : (ieee log2).ofUsize n = round64 ((n % 2 ^ 64 : Nat) : ℚ) := rfl

theorem ieee_ofUsize_small (log2 : Fp → Fp) {n : Nat} (h : n < 2 ^ 53) : (ieee log2).ofUsize n = .fin n := by
  rw [ieee_ofUsize, Nat.mod_eq_of_lt (by omega), round64_nat h]

theorem ieee_ofUsize_fin (log2 : Fp → Fp) (n : Nat) : ∃ v, (ieee log2).ofUsize n = .fin v ∧ |v| ≤ 2 ^ 64 := by
  rw [ieee_ofUsize]
  apply round64_pow (by norm_num)
  rw [abs_of_nonneg (by positivity)]
  have : n % 2 ^ 64 ≤ 2 ^ 64 := (Nat.mod_lt _ (by norm_num)).le
  exact_mod_cast this

theorem ieee_add_fin (log2 : Fp → Fp) {a b : ℚ} {k : Nat} (hk : k < 1000) (h : |a| + |b| ≤ 2 ^ k) :
    ∃ v, (ieee log2).add (.fin a) (.fin b) = .fin v ∧ |v| ≤ 2 ^ k :=
  round64_pow hk (le_trans (abs_add_le a b) h)

/-- IEEE 754 arithmetic satisfies the laws. -/
def ieeeLaws {log2 : Fp → Fp} (hlog : Log2Ok log2) : FloatLaws (ieee log2) where
  lim := 2 ^ 47
  lim_ge := by norm_num
  lim_le := le_refl _
  Sym c := ∃ q, c = Fp.fin q ∧ |q| ≤ 2 ^ 10
  Acc c := ∃ q, c = Fp.fin q ∧ |q| ≤ 2 ^ 40
  Ent c := ∃ q, c = Fp.fin q ∧ |q| ≤ 2 ^ 7
  size_lt_inf a b := by
    obtain ⟨x, ha, hx⟩ := ieee_ofUsize_fin log2 a
    obtain ⟨y, hb, hy⟩ := ieee_ofUsize_fin log2 b
    obtain ⟨v, hv, _⟩ := ieee_add_fin log2 (a := x) (b := y) (k := 65) (by norm_num) (by linarith)
    rw [ha, hb, hv]
    rfl
  sym_lt_inf c := by rintro ⟨q, rfl, _⟩; rfl
  acc_zero := ⟨0, rfl, by norm_num⟩
  acc_step c x := by
    rintro ⟨q, rfl, hq⟩ ⟨y, rfl, hy⟩
    have h1 : |q + y| ≤ (2 ^ 30 + 1 : ℤ) * 2 ^ (10 : ℤ) := by
      refine le_trans (abs_add_le q y) ?_
      norm_num
      linarith
    obtain ⟨v, hv, hv'⟩ := round_bound (p := 53) (emin := -1074) (emax := 1024) (k := 10) (m := 2 ^ 30 + 1) (q := q + y) (by norm_num) (by norm_num)
      (by norm_num) (lt_big (by norm_num)) h1
    obtain ⟨w, hw, hw'⟩ := round32_absorb (q := v) (by
      refine le_trans hv' ?_
      norm_num)
    refine ⟨w, ?_, hw'⟩
    show toF32 (round64 (q + y)) = _
    rw [show round64 (q + y) = .fin v from hv]
    exact hw
  acc_step32 c x := by
    rintro ⟨q, rfl, hq⟩ ⟨y, rfl, hy⟩
    obtain ⟨v, hv, hv'⟩ := round32_pow (k := 10) (by norm_num) hq
    obtain ⟨w, hw, hw'⟩ := round32_absorb (q := y + v) (by
      refine le_trans (abs_add_le y v) ?_
      linarith)
    refine ⟨w, ?_, hw'⟩
    show addWith round32 (.fin y) (round32 q) = _
    rw [hv]
    exact hw
  lt_inf32 c x := by
    rintro ⟨q, rfl, hq⟩ ⟨y, rfl, hy⟩
    obtain ⟨v, hv, _⟩ := ieee_add_fin log2 (a := q) (b := y) (k := 41) (by norm_num) (by linarith)
    show (ieee log2).lt ((ieee log2).add (.fin q) (.fin y)) _ = true
    rw [hv]
    rfl
  not_le_inf32 c x := by
    rintro ⟨q, rfl, hq⟩ ⟨y, rfl, hy⟩
    obtain ⟨v, hv, _⟩ := ieee_add_fin log2 (a := q) (b := y) (k := 41) (by norm_num) (by linarith)
    show (ieee log2).le _ ((ieee log2).add (.fin q) (.fin y)) = false
    rw [hv]
    rfl
  sym_nat n hn := by
    refine ⟨n, ieee_ofUsize_small log2 (by omega), ?_⟩
    rw [abs_of_nonneg (by positivity)]
    have : n ≤ 2 ^ 10 := by omega
    exact_mod_cast this
  sym_ent c := by
    rintro ⟨q, rfl, hq⟩
    exact ⟨q, rfl, by linarith⟩
  sym_match a b l d ha hb := by
    rintro ⟨x, rfl, hx⟩ ⟨y, rfl, hy⟩
    rw [ieee_ofUsize_small log2 (by omega), ieee_ofUsize_small log2 (by omega)]
    have ha' : |(a : ℚ)| ≤ 5 := by rw [abs_of_nonneg (by positivity)]; exact_mod_cast ha
    have hb' : |(b : ℚ)| ≤ 14 := by rw [abs_of_nonneg (by positivity)]; exact_mod_cast hb
    obtain ⟨v1, h1, g1⟩ := ieee_add_fin log2 (a := a) (b := b) (k := 5) (by norm_num) (by linarith)
    rw [h1]
    obtain ⟨v2, h2, g2⟩ := ieee_add_fin log2 (a := v1) (b := x) (k := 8) (by norm_num) (by linarith)
    rw [h2]
    obtain ⟨v3, h3, g3⟩ := ieee_add_fin log2 (a := v2) (b := y) (k := 9) (by norm_num) (by linarith)
    rw [h3]
    exact ⟨v3, rfl, by linarith⟩
  ent_log s h1 h2 := by
    obtain ⟨q, e, g1, g2⟩ := hlog s h1 (by omega)
    refine ⟨q, ?_, by rw [abs_of_nonneg g1]; linarith⟩
    rw [ieee_ofUsize, Nat.mod_eq_of_lt (by omega)]
    exact e
  cost_ok _ _ _ _ := rfl
  acc_ok _ _ := rfl
  acc_lt_inf x := by rintro ⟨q, rfl, _⟩; rfl
  ent_sub s c h1 h2 h3 := by
    obtain ⟨q, e, g1, g2⟩ := hlog s (by omega) (by omega)
    obtain ⟨q', e', g1', g2'⟩ := hlog c h1 (by omega)
    rw [ieee_ofUsize, ieee_ofUsize, Nat.mod_eq_of_lt (by omega), Nat.mod_eq_of_lt (by omega)]
    show ∃ v, addWith round64 (log2 (round64 (s : ℚ))) (neg (log2 (round64 (c : ℚ)))) = _ ∧ _
    rw [e, e']
    obtain ⟨v, hv, hv'⟩ := ieee_add_fin log2 (a := q) (b := -q') (k := 7) (by norm_num) (by
      rw [abs_neg, abs_of_nonneg g1, abs_of_nonneg g1']
      linarith)
    exact ⟨v, hv, hv'⟩
  weight_le a b ha hb := by
    rw [ieee_ofUsize_small log2 (by omega), ieee_ofUsize_small log2 (by omega), ieee_ofUsize_small log2 (by omega)]
    have e1 : (ieee log2).mul (.fin a) (.fin (1 : ℕ)) = .fin a := by
      show round64 _ = _
      rw [Nat.cast_one, mul_one, round64_nat (by omega)]
    have e2 : (ieee log2).mul (.fin b) (ieee log2).half = .fin (b / 2) := by
      show round64 ((b : ℚ) * (1 / 2)) = _
      have := round64_half (z := b) (by
        push_cast
        rw [abs_of_nonneg (by positivity)]
        have : b < 2 ^ 53 := by omega
        exact_mod_cast this)
      push_cast at this
      rw [show (b : ℚ) * (1 / 2) = b / 2 by ring]
      exact this
    have e3 : (ieee log2).add (.fin a) (.fin (b / 2)) = .fin (((2 * a + b : ℕ) : ℚ) / 2) := by
      show round64 ((a : ℚ) + b / 2) = _
      have := round64_half (z := (2 * a + b : ℕ)) (by
        push_cast
        rw [abs_of_nonneg (by positivity)]
        have : 2 * a + b < 2 ^ 53 := by omega
        exact_mod_cast this)
      push_cast at this ⊢
      rw [show (a : ℚ) + b / 2 = (2 * a + b) / 2 by ring]
      exact this
    rw [e1, e2, e3]
    show Nat.min ⌊((2 * a + b : ℕ) : ℚ) / 2⌋.toNat _ ≤ _
    refine le_trans (Nat.min_le_left _ _) ?_
    have : ⌊((2 * a + b : ℕ) : ℚ) / 2⌋ = ((a + b / 2 : ℕ) : ℤ) := by
      have h2 : ((2 * a + b : ℕ) : ℚ) / 2 = (((2 * a + b : ℕ) : ℤ) : ℚ) / ((2 : ℕ) : ℚ) := by push_cast; rfl
      rw [h2, Rat.floor_intCast_div_natCast]
      omega
    rw [this]
    simp

/-- A logarithm that satisfies the assumption: the integer part of the true logarithm. -/
def floorLog2 : Fp → Fp
  | .fin q => .fin (Int.log 2 q)
  | x => x

theorem ieeeLaws_lim {log2 : Fp → Fp} (hlog : Log2Ok log2) : (ieeeLaws hlog).lim = 2 ^ 47 := rfl

theorem ieee_size {log2 : Fp → Fp} (hlog : Log2Ok log2) {n : Nat} (h : n < 2 ^ 48) : n < 2 * (ieeeLaws hlog).lim := by
  rw [ieeeLaws_lim]
  omega


theorem floorLog2_ok : Log2Ok floorLog2 := by
  intro n h1 h2
  have hn : |(n : ℚ)| ≤ 2 ^ 60 := by
    rw [abs_of_nonneg (by positivity)]
    exact_mod_cast h2.le
  obtain ⟨v, hv, hv'⟩ := round64_pow (k := 60) (by norm_num) hn
  have hv0 : 1 ≤ v := by
    have : round64 (n : ℚ) = .fin v := hv
    unfold round64 Fp.round at this
    dsimp only at this
    split at this
    · cases this
    · cases this
      have hnpos : (0 : ℚ) < n := by exact_mod_cast h1
      have he0 : ∃ e : ℤ, ulpExp 53 (-1074) (n : ℚ) = e ∧ (2 : ℚ) ^ (e + 52) ≤ n ∨ ulpExp 53 (-1074) (n : ℚ) = -1074 := by
        refine ⟨ulpExp 53 (-1074) (n : ℚ), ?_⟩
        by_cases h : ulpExp 53 (-1074) (n : ℚ) = -1074
        · exact .inr h
        · left
          refine ⟨rfl, ?_⟩
          unfold ulpExp at h ⊢
          have : max (Int.log 2 |(n : ℚ)| + 1 - 53) (-1074) = Int.log 2 |(n : ℚ)| + 1 - 53 := by
            rcases max_choice (Int.log 2 |(n : ℚ)| + 1 - 53) (-1074) with h' | h'
            · exact h'
            · exact absurd h' h
          rw [this, show Int.log 2 |(n : ℚ)| + 1 - 53 + 52 = Int.log 2 |(n : ℚ)| by omega, abs_of_pos hnpos]
          exact_mod_cast Int.zpow_log_le_self (R := ℚ) (by norm_num) hnpos
      generalize hE : ulpExp 53 (-1074) (n : ℚ) = e at *
      have hpe := two_zpow_pos e
      by_cases hle : e ≤ 0
      · obtain ⟨m, hm, hm0⟩ := zpow_sub_int (e := e) (k := 0) hle
        have h3 : m ≤ rne ((n : ℚ) / 2 ^ e) := by
          apply le_rne
          rw [le_div_iff₀ hpe, ← hm, ← zpow_add₀ (by norm_num : (2 : ℚ) ≠ 0), show 0 - e + e = 0 by omega, zpow_zero]
          exact_mod_cast h1
        have h4 : (m : ℚ) ≤ rne ((n : ℚ) / 2 ^ e) := by exact_mod_cast h3
        calc (1 : ℚ) = m * 2 ^ e := by rw [← hm, ← zpow_add₀ (by norm_num : (2 : ℚ) ≠ 0), show 0 - e + e = 0 by omega, zpow_zero]
          _ ≤ _ := mul_le_mul_of_nonneg_right h4 hpe.le
      · push Not at hle
        have h3 : 1 ≤ rne ((n : ℚ) / 2 ^ e) := by
          apply le_rne
          obtain ⟨e', he' | he'⟩ := he0
          · rw [← he'.1] at he'
            rw [le_div_iff₀ hpe]
            push_cast
            rw [one_mul]
            refine le_trans ?_ he'.2
            exact zpow_le_zpow_right₀ (by norm_num) (by omega)
          · omega
        have h4 : (1 : ℚ) ≤ rne ((n : ℚ) / 2 ^ e) := by exact_mod_cast h3
        calc (1 : ℚ) = 1 * 1 := by norm_num
          _ ≤ _ := mul_le_mul h4 (one_le_zpow₀ (by norm_num) hle.le) (by norm_num) (by linarith)
  have hvpos : 0 < v := by linarith
  refine ⟨Int.log 2 v, by rw [hv]; rfl, ?_, ?_⟩
  · have : (0 : ℤ) ≤ Int.log 2 v := (Int.zpow_le_iff_le_log (R := ℚ) (by norm_num) hvpos).1 (by simpa using hv0)
    exact_mod_cast this
  · have : Int.log 2 v < 61 := (Int.lt_zpow_iff_log_lt (R := ℚ) (by norm_num) hvpos).1 (by
      rw [abs_of_pos hvpos] at hv'
      refine lt_of_le_of_lt hv' ?_
      norm_num)
    have : Int.log 2 v ≤ 64 := by omega
    exact_mod_cast this

end Zopfli
