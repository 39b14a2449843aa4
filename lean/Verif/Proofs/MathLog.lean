import Verif.Proofs.MathSplit
import Verif.Proofs.MathPoly
/-!
# How near `log2` of `no_std` builds is to the logarithm
-/

namespace Zopfli
namespace Fp

/-- A computed number, of size at most `B`, within `e` of the ideal value `t`. -/
def Ap (x : Fp) (t B e : ℚ) : Prop := ∃ v, x = .fin v ∧ |v - t| ≤ e ∧ |v| ≤ B

theorem Ap.exact {q B : ℚ} (h : |q| ≤ B) : Ap (.fin q) q B 0 := ⟨q, rfl, by rw [sub_self, abs_zero], h⟩

theorem Ap.round {x t A e : ℚ} {j : ℤ} {B' e' : ℚ} (hj1 : -1000 ≤ j) (hj2 : j ≤ 1000) (h : |x - t| ≤ e) (hA : |x| ≤ A)
    (hA' : A ≤ 2 ^ j) (hB' : A + 2 ^ (j - 54) ≤ B') (he' : e + 2 ^ (j - 54) ≤ e') : Ap (round64 x) t B' e' := by
  obtain ⟨v, h1, h2, _⟩ := round64_err hj1 hj2 (le_trans hA hA')
  refine ⟨v, h1, ?_, ?_⟩
  · have := abs_sub_le v x t
    linarith
  · have := abs_sub_abs_le_abs_sub v x
    linarith

theorem Ap.add {x y : Fp} {s t A B d e : ℚ} (hx : Ap x s A d) (hy : Ap y t B e) {j : ℤ} {B' e' : ℚ} (hj1 : -1000 ≤ j) (hj2 : j ≤ 1000)
    (hA' : A + B ≤ 2 ^ j) (hB' : A + B + 2 ^ (j - 54) ≤ B') (he' : d + e + 2 ^ (j - 54) ≤ e') : Ap (add64 x y) (s + t) B' e' := by
  obtain ⟨v, rfl, h1, h2⟩ := hx
  obtain ⟨w, rfl, h3, h4⟩ := hy
  refine Ap.round hj1 hj2 ?_ ?_ hA' hB' he'
  · have : v + w - (s + t) = (v - s) + (w - t) := by ring
    rw [this]
    exact le_trans (abs_add_le _ _) (add_le_add h1 h3)
  · exact le_trans (abs_add_le _ _) (add_le_add h2 h4)

theorem Ap.neg {x : Fp} {s A d : ℚ} (hx : Ap x s A d) : Ap x.neg (-s) A d := by
  obtain ⟨v, rfl, h1, h2⟩ := hx
  refine ⟨-v, rfl, ?_, by rwa [abs_neg]⟩
  rw [← abs_neg]
  convert h1 using 2
  ring

theorem Ap.sub {x y : Fp} {s t A B d e : ℚ} (hx : Ap x s A d) (hy : Ap y t B e) {j : ℤ} {B' e' : ℚ} (hj1 : -1000 ≤ j) (hj2 : j ≤ 1000)
    (hA' : A + B ≤ 2 ^ j) (hB' : A + B + 2 ^ (j - 54) ≤ B') (he' : d + e + 2 ^ (j - 54) ≤ e') : Ap (sub64 x y) (s - t) B' e' := by
  rw [sub_eq_add_neg]
  exact hx.add hy.neg hj1 hj2 hA' hB' he'

theorem Ap.mul {x y : Fp} {s t A B d e : ℚ} (hx : Ap x s A d) (hy : Ap y t B e) {j : ℤ} {B' e' : ℚ} (hj1 : -1000 ≤ j) (hj2 : j ≤ 1000)
    (hA' : A * B ≤ 2 ^ j) (hB' : A * B + 2 ^ (j - 54) ≤ B') (he' : A * e + (B + e) * d + 2 ^ (j - 54) ≤ e') :
    Ap (mul64 x y) (s * t) B' e' := by
  obtain ⟨v, rfl, h1, h2⟩ := hx
  obtain ⟨w, rfl, h3, h4⟩ := hy
  have hA0 := le_trans (abs_nonneg _) h2
  refine Ap.round hj1 hj2 ?_ ?_ hA' hB' he'
  · have e1 : v * w - s * t = v * (w - t) + t * (v - s) := by ring
    have ht : |t| ≤ B + e := by
      have := abs_sub_abs_le_abs_sub t w
      rw [abs_sub_comm] at this
      linarith
    rw [e1]
    refine le_trans (abs_add_le _ _) ?_
    rw [abs_mul, abs_mul]
    exact add_le_add (mul_le_mul h2 h3 (abs_nonneg _) hA0) (mul_le_mul ht h1 (abs_nonneg _) (le_trans (abs_nonneg _) ht))
  · rw [abs_mul]
    exact mul_le_mul h2 h4 (abs_nonneg _) hA0

theorem lg1_eq : LG1 = .fin (6004799503160723 / 2 ^ 53) := by decide +kernel
theorem lg2_eq : LG2 = .fin (1801439850921601 / 2 ^ 52) := by decide +kernel
theorem lg3_eq : LG3 = .fin (5146971033736025 / 2 ^ 54) := by decide +kernel
theorem lg4_eq : LG4 = .fin (8006390766270639 / 2 ^ 55) := by decide +kernel
theorem lg5_eq : LG5 = .fin (3275661152453103 / 2 ^ 54) := by decide +kernel
theorem lg6_eq : LG6 = .fin (5517391500461727 / 2 ^ 55) := by decide +kernel
theorem lg7_eq : LG7 = .fin (1332903234475153 / 2 ^ 53) := by decide +kernel
theorem ivln2hi_eq : IVLN2HI = .fin (3098164009 / 2 ^ 31) := by decide +kernel
theorem ivln2lo_eq : IVLN2LO = .fin (12657236604881 / 2 ^ 76) := by decide +kernel

theorem Ap.const {x : Fp} {q B : ℚ} (hx : x = .fin q) (h0 : 0 ≤ q) (h : q ≤ B) : Ap x q B 0 := by
  rw [hx]
  exact Ap.exact (by rwa [abs_of_nonneg h0])

/-- Rounding error relative to the number. -/
theorem round64_rel {x v : ℚ} (h : round64 x = .fin v) : |v - x| ≤ |x| / 2 ^ 53 + 1 / 2 ^ 1000 := by
  by_cases h0 : x = 0
  · subst h0
    have := round64_int (z := 0) (by norm_num)
    have hv : round64 0 = .fin 0 := by exact_mod_cast this
    rw [h] at hv
    cases hv
    rw [sub_zero, abs_zero]
    positivity
  · refine le_trans (round64_ulp h) ?_
    have hx : 0 < |x| := abs_pos.2 h0
    have hlow : (2 : ℚ) ^ (Int.log 2 |x|) ≤ |x| := by exact_mod_cast Int.zpow_log_le_self (b := 2) (by norm_num) hx
    unfold ulpExp
    rcases le_total (Int.log 2 |x| + 1 - 53) (-1074) with hc | hc
    · rw [max_eq_right hc]
      have : (2 : ℚ) ^ (-1074 - 1 : ℤ) ≤ 2 ^ (-1000 : ℤ) := zpow_le_zpow_right₀ (by norm_num) (by norm_num)
      have e1 : (2 : ℚ) ^ (-1000 : ℤ) = 1 / 2 ^ 1000 := by rw [zpow_neg, one_div]; rfl
      have h3 : 0 ≤ |x| / 2 ^ 53 := by positivity
      rw [e1] at this
      exact le_trans this (le_add_of_nonneg_left h3)
    · rw [max_eq_left hc]
      have e1 : (2 : ℚ) ^ (Int.log 2 |x| + 1 - 53 - 1) = 2 ^ (Int.log 2 |x|) / 2 ^ 53 := by
        rw [show Int.log 2 |x| + 1 - 53 - 1 = Int.log 2 |x| - 53 by ring, zpow_sub₀ (by norm_num)]
        rfl
      rw [e1]
      have h1 := div_le_div_of_nonneg_right hlow (show (0 : ℚ) ≤ 2 ^ 53 by norm_num)
      have h2 : (0 : ℚ) ≤ 1 / 2 ^ 1000 := by positivity
      exact le_trans h1 (le_add_of_nonneg_right h2)

/-- The ideal values of the reduced number. -/
theorem lgValue_eq {F S : ℚ} (hF : 0 < 2 + F) (hS : S = F / (2 + F)) :
    F - 1 / 2 * F * F + S * (1 / 2 * F * F + S * S * pev lgCoeff (S * S)) = lgValue S := by
  unfold lgValue
  have h1 : F = S * (2 + F) := by rw [hS, div_mul_cancel₀ _ hF.ne']
  have h2 : F - 1 / 2 * F * F + S * (1 / 2 * F * F) = 2 * S := by
    have h3 : S * (2 + F) - F = 0 := by linarith
    have h4 : (F - 1 / 2 * F * F + S * (1 / 2 * F * F) - 2 * S) = (S * (2 + F) - F) * (F / 2 - 1) := by ring
    rw [h3, zero_mul] at h4
    linarith
  rw [mul_add, ← add_assoc, h2]

/-- The computation on the reduced number. -/
theorem log2Reduced_near {x : ℚ} (hx : Mid x) {k : ℤ} (hk1 : -1080 ≤ k) (hk2 : k ≤ 1024) :
    ∃ v, log2Reduced (.fin x) k = .fin v ∧
      |v - (k + ivln2 * lgValue ((x - 1) / (2 + (x - 1))))| ≤
        |k + ivln2 * lgValue ((x - 1) / (2 + (x - 1)))| / 2 ^ 53 + 3 / 2 ^ 51 := by
  obtain ⟨N, hN⟩ := hx.int
  have hle := hx.le
  have hlt := hx.lt
  norm_num at hle hlt
  obtain ⟨F, hF⟩ : ∃ F, F = x - 1 := ⟨_, rfl⟩
  rw [← hF]
  have hFb : |F| ≤ 41422 / 100000 := by rw [hF, abs_le]; constructor <;> linarith
  have hF2 : 17 / 10 ≤ 2 + F := by rw [hF]; linarith
  obtain ⟨S, hS⟩ : ∃ S, S = F / (2 + F) := ⟨_, rfl⟩
  rw [← hS]
  have hSb : |S| ≤ 1716 / 10000 := by
    rw [hS, abs_le]
    constructor
    · rw [le_div_iff₀ (by linarith)]
      linarith
    · rw [div_le_iff₀ (by linarith)]
      linarith
  have hf : sub64 (.fin x) (.fin 1) = .fin F := by
    show round64 (x + -1) = _
    have e1 : x + -1 = ((N - 2 ^ 53 : ℤ) : ℚ) * 2 ^ (-53 : ℤ) := by
      rw [hN]
      push_cast
      norm_num
      ring
    have e2 : F = ((N - 2 ^ 53 : ℤ) : ℚ) * 2 ^ (-53 : ℤ) := by rw [← e1, hF]; ring
    rw [e1, e2]
    apply isDouble_mk (by norm_num) (by norm_num)
    have e3 : ((N - 2 ^ 53 : ℤ) : ℚ) = F * 2 ^ 53 := by
      rw [e2]
      norm_num
      ring
    rw [e3, abs_mul, abs_of_pos (show (0 : ℚ) < 2 ^ 53 by norm_num)]
    have := mul_le_mul_of_nonneg_right hFb (show (0 : ℚ) ≤ 2 ^ 53 by norm_num)
    refine lt_of_le_of_lt this (by norm_num)
  unfold log2Reduced
  dsimp only
  rw [hf]
  have a_f : Ap (.fin F) F (41422 / 100000) 0 := Ap.exact hFb
  have a_half : Ap (.fin (1 / 2)) (1 / 2) (1 / 2) 0 := Ap.const rfl (by norm_num) (by norm_num)
  have a_two : Ap (.fin 2) 2 2 0 := Ap.const rfl (by norm_num) (by norm_num)
  have a_LG1 : Ap LG1 _ (66666700 / 100000000) 0 := Ap.const lg1_eq (by norm_num) (by norm_num)
  have a_LG2 : Ap LG2 _ (40000000 / 100000000) 0 := Ap.const lg2_eq (by norm_num) (by norm_num)
  have a_LG3 : Ap LG3 _ (28571500 / 100000000) 0 := Ap.const lg3_eq (by norm_num) (by norm_num)
  have a_LG4 : Ap LG4 _ (22222200 / 100000000) 0 := Ap.const lg4_eq (by norm_num) (by norm_num)
  have a_LG5 : Ap LG5 _ (18183600 / 100000000) 0 := Ap.const lg5_eq (by norm_num) (by norm_num)
  have a_LG6 : Ap LG6 _ (15313900 / 100000000) 0 := Ap.const lg6_eq (by norm_num) (by norm_num)
  have a_LG7 : Ap LG7 _ (14798200 / 100000000) 0 := Ap.const lg7_eq (by norm_num) (by norm_num)
  have a_IVLN2HI : Ap IVLN2HI _ (1442696 / 1000000) 0 := Ap.const ivln2hi_eq (by norm_num) (by norm_num)
  have a_IVLN2LO : Ap IVLN2LO _ (2 / 10 ^ 10) 0 := Ap.const ivln2lo_eq (by norm_num) (by norm_num)
  have a_hf := a_half.mul a_f (j := -2) (B' := (207111 / 1000000)) (e' := (1000 / (1000 * 2 ^ 56))) (by norm_num) (by norm_num) (by norm_num) (by norm_num) (by norm_num)
  have a_hfsq := a_hf.mul a_f (j := -3) (B' := (8579 / 100000)) (e' := (915 / (1000 * 2 ^ 56))) (by norm_num) (by norm_num) (by norm_num) (by norm_num) (by norm_num)
  have a_two_f := a_two.add a_f (j := 2) (B' := (2414221 / 1000000)) (e' := (16000 / (1000 * 2 ^ 56))) (by norm_num) (by norm_num) (by norm_num) (by norm_num) (by norm_num)
  have a_s : Ap (div64 (.fin F) (add64 (.fin 2) (.fin F))) S (1717 / 10000) (2625 / (1000 * 2 ^ 56)) := by
    obtain ⟨d, h1, h2, h3⟩ := a_two_f
    rw [h1]
    have hd : 169 / 100 ≤ d := by
      rw [abs_le] at h2
      norm_num at h2
      linarith [h2.1]
    have hd0 : d ≠ 0 := by linarith
    show Ap (if d = 0 then _ else round64 (F / d)) _ _ _
    rw [if_neg hd0]
    have hdiff : |F / d - S| ≤ 1716 / 10000 * (16000 / (1000 * 2 ^ 56)) / (169 / 100) := by
      have e1 : F / d - S = S * ((2 + F) - d) / d := by
        rw [hS]
        field_simp
      rw [e1, abs_div, abs_mul, abs_of_pos (show 0 < d by linarith), abs_sub_comm]
      apply div_le_div₀ (by norm_num) _ (by norm_num) hd
      exact mul_le_mul hSb h2 (abs_nonneg _) (by norm_num)
    refine Ap.round (A := 17165 / 100000) (j := -2) (by norm_num) (by norm_num) hdiff ?_ (by norm_num) (by norm_num) (by norm_num)
    have := abs_sub_abs_le_abs_sub (F / d) S
    norm_num at hdiff ⊢
    linarith
  have a_z := a_s.mul a_s (j := -5) (B' := (29481 / 1000000)) (e' := (1027 / (1000 * 2 ^ 56))) (by norm_num) (by norm_num) (by norm_num) (by norm_num) (by norm_num)
  have a_w := a_z.mul a_z (j := -10) (B' := (87 / 100000)) (e' := (65 / (1000 * 2 ^ 56))) (by norm_num) (by norm_num) (by norm_num) (by norm_num) (by norm_num)
  have a_p1 := a_w.mul a_LG6 (j := -12) (B' := (67 / 500000)) (e' := (11 / (1000 * 2 ^ 56))) (by norm_num) (by norm_num) (by norm_num) (by norm_num) (by norm_num)
  have a_p2 := a_LG4.add a_p1 (j := -2) (B' := (222357 / 1000000)) (e' := (1011 / (1000 * 2 ^ 56))) (by norm_num) (by norm_num) (by norm_num) (by norm_num) (by norm_num)
  have a_p3 := a_w.mul a_p2 (j := -12) (B' := (97 / 500000)) (e' := (17 / (1000 * 2 ^ 56))) (by norm_num) (by norm_num) (by norm_num) (by norm_num) (by norm_num)
  have a_p4 := a_LG2.add a_p3 (j := -1) (B' := (80039 / 200000)) (e' := (2017 / (1000 * 2 ^ 56))) (by norm_num) (by norm_num) (by norm_num) (by norm_num) (by norm_num)
  have a_t1 := a_w.mul a_p4 (j := -11) (B' := (349 / 1000000)) (e' := (30 / (1000 * 2 ^ 56))) (by norm_num) (by norm_num) (by norm_num) (by norm_num) (by norm_num)
  have a_q1 := a_w.mul a_LG7 (j := -12) (B' := (129 / 1000000)) (e' := (11 / (1000 * 2 ^ 56))) (by norm_num) (by norm_num) (by norm_num) (by norm_num) (by norm_num)
  have a_q2 := a_LG5.add a_q1 (j := -2) (B' := (90983 / 500000)) (e' := (1011 / (1000 * 2 ^ 56))) (by norm_num) (by norm_num) (by norm_num) (by norm_num) (by norm_num)
  have a_q3 := a_w.mul a_q2 (j := -12) (B' := (159 / 1000000)) (e' := (14 / (1000 * 2 ^ 56))) (by norm_num) (by norm_num) (by norm_num) (by norm_num) (by norm_num)
  have a_q4 := a_LG3.add a_q3 (j := -1) (B' := (2287 / 8000)) (e' := (2014 / (1000 * 2 ^ 56))) (by norm_num) (by norm_num) (by norm_num) (by norm_num) (by norm_num)
  have a_q5 := a_w.mul a_q4 (j := -11) (B' := (249 / 1000000)) (e' := (23 / (1000 * 2 ^ 56))) (by norm_num) (by norm_num) (by norm_num) (by norm_num) (by norm_num)
  have a_q6 := a_LG1.add a_q5 (j := 0) (B' := (666917 / 1000000)) (e' := (4023 / (1000 * 2 ^ 56))) (by norm_num) (by norm_num) (by norm_num) (by norm_num) (by norm_num)
  have a_t2 := a_z.mul a_q6 (j := -5) (B' := (9831 / 500000)) (e' := (929 / (1000 * 2 ^ 56))) (by norm_num) (by norm_num) (by norm_num) (by norm_num) (by norm_num)
  have a_r := a_t2.add a_t1 (j := -5) (B' := (5003 / 250000)) (e' := (1084 / (1000 * 2 ^ 56))) (by norm_num) (by norm_num) (by norm_num) (by norm_num) (by norm_num)
  have a_hi0 := a_f.sub a_hfsq (j := 0) (B' := (500011 / 1000000)) (e' := (4915 / (1000 * 2 ^ 56))) (by norm_num) (by norm_num) (by norm_num) (by norm_num) (by norm_num)
  obtain ⟨h0, e_h0, _, b_h0⟩ := a_hi0
  rw [e_h0]
  have hdbl : IsDouble h0 := by
    obtain ⟨hq, e_hq, _, _⟩ := a_hfsq
    rw [e_hq] at e_h0
    exact round64_isDouble e_h0
  obtain ⟨h, e_h, b_h⟩ := trunc_bits hdbl (le_trans b_h0 (by norm_num))
  rw [e_h]
  have a_hi : Ap (.fin h) h (51 / 100) 0 := Ap.exact (le_trans b_h (le_trans b_h0 (by norm_num)))
  have a_g1 := a_f.sub a_hi (j := 0) (B' := (924221 / 1000000)) (e' := (4000 / (1000 * 2 ^ 56))) (by norm_num) (by norm_num) (by norm_num) (by norm_num) (by norm_num)
  have a_g2 := a_g1.sub a_hfsq (j := 1) (B' := (252503 / 250000)) (e' := (12915 / (1000 * 2 ^ 56))) (by norm_num) (by norm_num) (by norm_num) (by norm_num) (by norm_num)
  have a_g3 := a_hfsq.add a_r (j := -3) (B' := (105803 / 1000000)) (e' := (2499 / (1000 * 2 ^ 56))) (by norm_num) (by norm_num) (by norm_num) (by norm_num) (by norm_num)
  have a_g4 := a_s.mul a_g3 (j := -5) (B' := (18167 / 1000000)) (e' := (832 / (1000 * 2 ^ 56))) (by norm_num) (by norm_num) (by norm_num) (by norm_num) (by norm_num)
  have a_lo := a_g2.add a_g4 (j := 1) (B' := (51409 / 50000)) (e' := (21747 / (1000 * 2 ^ 56))) (by norm_num) (by norm_num) (by norm_num) (by norm_num) (by norm_num)
  have a_vh := a_hi.mul a_IVLN2HI (j := 0) (B' := (29431 / 40000)) (e' := (4000 / (1000 * 2 ^ 56))) (by norm_num) (by norm_num) (by norm_num) (by norm_num) (by norm_num)
  have a_l1 := a_lo.add a_hi (j := 1) (B' := (1538181 / 1000000)) (e' := (29747 / (1000 * 2 ^ 56))) (by norm_num) (by norm_num) (by norm_num) (by norm_num) (by norm_num)
  have a_l2 := a_l1.mul a_IVLN2LO (j := -31) (B' := (1 / 1000000)) (e' := (1 / (1000 * 2 ^ 56))) (by norm_num) (by norm_num) (by norm_num) (by norm_num) (by norm_num)
  have a_l3 := a_lo.mul a_IVLN2HI (j := 1) (B' := (185419 / 125000)) (e' := (39375 / (1000 * 2 ^ 56))) (by norm_num) (by norm_num) (by norm_num) (by norm_num) (by norm_num)
  have a_vl := a_l2.add a_l3 (j := 1) (B' := (741677 / 500000)) (e' := (47376 / (1000 * 2 ^ 56))) (by norm_num) (by norm_num) (by norm_num) (by norm_num) (by norm_num)
  have hkq1 : (-1080 : ℚ) ≤ k := by exact_mod_cast hk1
  have hkq2 : (k : ℚ) ≤ 1024 := by exact_mod_cast hk2
  obtain ⟨ω, e_w, b_w⟩ : ∃ ω, add64 (.fin k) (mul64 (.fin h) IVLN2HI) = .fin ω ∧ |k - ω| ≤ 75 / 100 := by
    obtain ⟨q, h1, h2, h3⟩ := a_vh
    rw [h1]
    have hsum : |(k : ℚ) + q| ≤ 2 ^ (11 : ℤ) := by
      rw [abs_le] at h3 ⊢
      norm_num at h3 ⊢
      constructor <;> linarith [h3.1, h3.2]
    obtain ⟨ω, h4, h5, _⟩ := round64_err (j := 11) (by norm_num) (by norm_num) hsum
    refine ⟨ω, h4, ?_⟩
    rw [abs_le] at h3 h5 ⊢
    norm_num at h3 h5 ⊢
    constructor <;> linarith [h3.1, h3.2, h5.1, h5.2]
  rw [e_w]
  have a_yw : Ap (sub64 (.fin k) (.fin ω)) (k - ω) (75001 / 100000) (1 / 2 ^ 54) := by
    show Ap (round64 (k + -ω)) _ _ _
    rw [← sub_eq_add_neg]
    refine Ap.round (e := 0) (j := 0) (by norm_num) (by norm_num) ?_ b_w (by norm_num) (by norm_num) (by norm_num)
    rw [sub_self, abs_zero]
  have a_m1 := a_yw.add a_vh (j := 1) (B' := (742893 / 500000)) (e' := (16000 / (1000 * 2 ^ 56))) (by norm_num) (by norm_num) (by norm_num) (by norm_num) (by norm_num)
  have a_vl2 := a_vl.add a_m1 (j := 2) (B' := (2969141 / 1000000)) (e' := (79376 / (1000 * 2 ^ 56))) (by norm_num) (by norm_num) (by norm_num) (by norm_num) (by norm_num)
  obtain ⟨q, e_q, d_q, b_q⟩ := a_vl2
  rw [e_q]
  have hfin : |q + ω| ≤ 2 ^ (11 : ℤ) := by
    rw [abs_le] at b_q b_w ⊢
    norm_num at b_q b_w ⊢
    constructor <;> linarith [b_q.1, b_q.2, b_w.1, b_w.2]
  obtain ⟨v, e_v, _, _⟩ := round64_err (j := 11) (by norm_num) (by norm_num) hfin
  refine ⟨v, e_v, ?_⟩
  have hrel := round64_rel e_v
  have hval := lgValue_eq (by linarith) hS
  have hpev : S * S * (S * S) * (1801439850921601 / 2 ^ 52 + S * S * (S * S) * (8006390766270639 / 2 ^ 55 + S * S * (S * S) * (5517391500461727 / 2 ^ 55))) =
      S * S * pev lgCoeff (S * S) - S * S * (6004799503160723 / 2 ^ 53 + S * S * (S * S) * (5146971033736025 / 2 ^ 54 +
        S * S * (S * S) * (3275661152453103 / 2 ^ 54 + S * S * (S * S) * (1332903234475153 / 2 ^ 53)))) := by
    simp only [lgCoeff, pev]
    ring
  have hid : |q + ω - (k + ivln2 * lgValue S)| ≤ (79376 / (1000 * 2 ^ 56)) := by
    convert d_q using 2
    rw [hpev, ← hval]
    unfold ivln2
    ring
  generalize ((k : ℚ) + ivln2 * lgValue S) = T at *
  have h1 := abs_sub_le v (q + ω) T
  have h2 := abs_sub_abs_le_abs_sub (q + ω) T
  have h3 : (1 : ℚ) / 2 ^ 1000 ≤ 1 / 2 ^ 60 := by
    apply one_div_le_one_div_of_le (by norm_num)
    exact pow_le_pow_right₀ (by norm_num) (by norm_num)
  generalize (1 : ℚ) / 2 ^ 1000 = tiny at *
  norm_num at h3 hid hrel ⊢
  linarith

/-- **The logarithm of `no_std` builds** is within `2^-49 + 2^-53 |log2 q|` of the logarithm. -/
theorem log2NoStd_near {q : ℚ} (h : IsDouble q) (hq : 0 < q) :
    ∃ v, log2NoStd (.fin q) = .fin v ∧ |(v : ℝ) - Real.logb 2 q| ≤ 1 / 2 ^ 49 + |Real.logb 2 q| / 2 ^ 53 := by
  by_cases h1 : q = 1
  · subst h1
    refine ⟨0, by decide +kernel, ?_⟩
    rw [Rat.cast_one, Real.logb_one, Rat.cast_zero, sub_zero, abs_zero]
    norm_num
  obtain ⟨x, κ, e1, hx, e2, hk1, hk2⟩ := log2NoStd_split h hq h1
  obtain ⟨v, e3, e4⟩ := log2Reduced_near hx hk1 hk2
  refine ⟨v, e1.trans e3, ?_⟩
  have hle := hx.le
  have hlt := hx.lt
  norm_num at hle hlt
  obtain ⟨S, hS⟩ : ∃ S, S = (x - 1) / (2 + (x - 1)) := ⟨_, rfl⟩
  rw [← hS] at e4
  have hSb : |S| ≤ 1716 / 10000 := by
    rw [hS, abs_le]
    constructor
    · rw [le_div_iff₀ (by linarith)]
      linarith
    · rw [div_le_iff₀ (by linarith)]
      linarith
  have hSr : |(S : ℝ)| ≤ 1716 / 10000 := le_trans (abs_cast_le hSb) (by norm_num)
  rw [abs_le] at hSr
  have hn := lgValue_near hSb
  obtain ⟨hi1, hi2⟩ := ivln2_near
  have hxS : x * (1 - S) = 1 + S := by
    rw [hS]
    have : (2 + (x - 1)) ≠ 0 := by linarith
    field_simp
    ring
  have hx0 : (0 : ℝ) < x := by
    have : (0 : ℚ) < x := by linarith
    exact_mod_cast this
  have hlogx : Real.log x = Real.log (1 + S) - Real.log (1 - S) := by
    have e : (1 + (S : ℝ)) = x * (1 - S) := by
      have := congrArg (Rat.cast (K := ℝ)) hxS
      push_cast at this
      exact this.symm
    rw [e, Real.log_mul hx0.ne' (by linarith [hSr.2])]
    ring
  have hl2 : 0 < Real.log 2 := by linarith
  have hlogq : Real.logb 2 q = κ + Real.log x / Real.log 2 := by
    have e : (q : ℝ) = x * 2 ^ κ := by
      rw [← e2]
      push_cast
      rfl
    rw [Real.logb, e, Real.log_mul hx0.ne' (by positivity), Real.log_zpow]
    field_simp
    ring
  rw [← hlogx] at hn
  -- the ideal value is near the logarithm
  have hlogx_b : |Real.log x| ≤ 1 := by
    have hx2 : (x : ℝ) ≤ 2 := by
      have : x ≤ 2 := by linarith
      exact_mod_cast this
    have hx1 : (1 / 2 : ℝ) ≤ x := by
      have : 1 / 2 ≤ x := by linarith
      have := (Rat.cast_le (K := ℝ)).2 this
      push_cast at this
      linarith
    rw [abs_le]
    constructor
    · have := Real.one_sub_inv_le_log_of_pos hx0
      have h3 : (x : ℝ)⁻¹ ≤ 2 := by
        rw [inv_le_comm₀ hx0 (by norm_num)]
        linarith
      linarith
    · have := Real.log_le_sub_one_of_pos hx0
      linarith
  have hT : |((κ + ivln2 * lgValue S : ℚ) : ℝ) - Real.logb 2 q| ≤ 1 / 2 ^ 57 := by
    rw [hlogq]
    push_cast
    have e : (κ : ℝ) + (ivln2 : ℝ) * (lgValue S : ℝ) - (κ + Real.log x / Real.log 2) =
        (ivln2 : ℝ) * ((lgValue S : ℝ) - Real.log x) + Real.log x * ((ivln2 : ℝ) * Real.log 2 - 1) / Real.log 2 := by
      field_simp
      ring
    rw [e]
    refine le_trans (abs_add_le _ _) ?_
    have hiv : |(ivln2 : ℝ)| ≤ 3 / 2 := by
      have : |ivln2| ≤ 3 / 2 := by
        unfold ivln2
        rw [abs_of_pos] <;> norm_num
      exact le_trans (abs_cast_le this) (by norm_num)
    have p1 : |(ivln2 : ℝ) * ((lgValue S : ℝ) - Real.log x)| ≤ 3 / 2 * (1 / 2 ^ 59) := by
      rw [abs_mul, abs_sub_comm]
      exact mul_le_mul hiv hn (abs_nonneg _) (by norm_num)
    have p2 : |Real.log x * ((ivln2 : ℝ) * Real.log 2 - 1) / Real.log 2| ≤ 1 * (1 / 2 ^ 62) / (69 / 100) := by
      rw [abs_div, abs_mul, abs_of_pos hl2]
      apply div_le_div₀ (by norm_num) _ (by norm_num) hi2
      exact mul_le_mul hlogx_b hi1 (abs_nonneg _) (by norm_num)
    norm_num at p1 p2 ⊢
    linarith
  have e5 := abs_cast_le e4
  have e6 : |((κ + ivln2 * lgValue S : ℚ) : ℝ)| ≤ |Real.logb 2 q| + 1 / 2 ^ 57 := by
    have := abs_sub_abs_le_abs_sub ((κ + ivln2 * lgValue S : ℚ) : ℝ) (Real.logb 2 q)
    linarith
  have e7 : (((|κ + ivln2 * lgValue S| / 2 ^ 53 + 3 / 2 ^ 51 : ℚ)) : ℝ) = |((κ + ivln2 * lgValue S : ℚ) : ℝ)| / 2 ^ 53 + 3 / 2 ^ 51 := by
    push_cast
    rfl
  rw [e7, Rat.cast_sub] at e5
  generalize ((κ + ivln2 * lgValue S : ℚ) : ℝ) = T at *
  have e8 := abs_sub_le (v : ℝ) T (Real.logb 2 q)
  generalize Real.logb 2 q = L at *
  norm_num at e5 e6 hT ⊢
  linarith

end Fp
end Zopfli
