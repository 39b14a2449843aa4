import Verif.Proofs.Ieee
import Mathlib.Analysis.SpecialFunctions.Log.Deriv
import Mathlib.Analysis.SpecialFunctions.Log.Base
/-!
# The polynomial of `log2`, and the series of the logarithm
-/

namespace Zopfli
namespace Fp

/-- The value of a polynomial, constant coefficient first. -/
def pev : List ℚ → ℚ → ℚ
  | [], _ => 0
  | c :: p, x => c + x * pev p x

/-- Sum of polynomials. -/
def padd : List ℚ → List ℚ → List ℚ
  | [], q => q
  | p, [] => p
  | a :: p, b :: q => (a + b) :: padd p q

/-- The polynomial of `u` that is `p` at `m + u`. -/
def pshift (m : ℚ) : List ℚ → List ℚ
  | [] => []
  | c :: p => let q := pshift m p; padd [c] (padd (q.map (m * ·)) (0 :: q))

/-- A bound on a polynomial at numbers of size at most `r`. -/
def pbound (r : ℚ) : List ℚ → ℚ
  | [] => 0
  | c :: p => |c| + r * pbound r p

theorem pev_padd (p q : List ℚ) (x : ℚ) : pev (padd p q) x = pev p x + pev q x := by
  induction p generalizing q with
  | nil => simp [padd, pev]
  | cons a p ih =>
    cases q with
    | nil => simp [padd, pev]
    | cons b q =>
      simp only [padd, pev, ih]
      ring

theorem pev_map (m : ℚ) (p : List ℚ) (x : ℚ) : pev (p.map (m * ·)) x = m * pev p x := by
  induction p with
  | nil => simp [pev]
  | cons a p ih =>
    simp only [List.map_cons, pev, ih]
    ring

theorem pev_pshift (m : ℚ) (p : List ℚ) (u : ℚ) : pev (pshift m p) u = pev p (m + u) := by
  induction p with
  | nil => rfl
  | cons c p ih =>
    simp only [pshift, pev_padd, pev_map, pev, ih]
    ring

theorem abs_pev_le {r u : ℚ} (hu : |u| ≤ r) (p : List ℚ) : |pev p u| ≤ pbound r p ∧ 0 ≤ pbound r p := by
  have hr : 0 ≤ r := le_trans (abs_nonneg u) hu
  induction p with
  | nil => simp [pev, pbound]
  | cons c p ih =>
    obtain ⟨ih1, ih2⟩ := ih
    constructor
    · simp only [pev, pbound]
      refine le_trans (abs_add_le _ _) ?_
      have : |u * pev p u| ≤ r * pbound r p := by
        rw [abs_mul]
        exact mul_le_mul hu ih1 (abs_nonneg _) hr
      linarith
    · simp only [pbound]
      have := abs_nonneg c
      positivity

/-- Check a bound on an interval divided into pieces of width `2 * r`, starting at `a`. -/
def pcheck (p : List ℚ) (B r : ℚ) : ℕ → ℚ → Bool
  | 0, _ => true
  | n + 1, a => decide (pbound r (pshift (a + r) p) ≤ B) && pcheck p B r n (a + 2 * r)

theorem pcheck_sound {p : List ℚ} {B r : ℚ} (hr : 0 < r) {n : ℕ} {a x : ℚ} (h : pcheck p B r n a = true) (h1 : a ≤ x)
    (h2 : x < a + 2 * r * n) : |pev p x| ≤ B := by
  induction n generalizing a with
  | zero =>
    simp at h2
    linarith
  | succ n ih =>
    simp only [pcheck, Bool.and_eq_true, decide_eq_true_eq] at h
    by_cases hx : x < a + 2 * r
    · have hu : |x - (a + r)| ≤ r := by rw [abs_le]; constructor <;> linarith
      have h3 := (abs_pev_le hu (pshift (a + r) p)).1
      rw [pev_pshift, add_sub_cancel] at h3
      exact le_trans h3 h.1
    · apply ih h.2 (not_lt.1 hx)
      push_cast at h2
      linarith

/-- The exact values of the coefficients. -/
def lgCoeff : List ℚ :=
  [6004799503160723 / 2 ^ 53, 1801439850921601 / 2 ^ 52, 5146971033736025 / 2 ^ 54, 8006390766270639 / 2 ^ 55,
    3275661152453103 / 2 ^ 54, 5517391500461727 / 2 ^ 55, 1332903234475153 / 2 ^ 53]

/-- The difference of the polynomial and the beginning of the series `2/3 z + 2/5 z^2 + ...`, divided by `z`. -/
def lgDiff : List ℚ :=
  padd lgCoeff ((List.range 12).map fun i : ℕ => -(2 / (2 * (i : ℚ) + 3)))

/-- The polynomial is near the series. -/
theorem lgDiff_bound {z : ℚ} (h0 : 0 ≤ z) (h1 : z < 2945 / 100000) : |pev (0 :: lgDiff) z| ≤ 1 / 2 ^ 57 := by
  have hc : pcheck (0 :: lgDiff) (1 / 2 ^ 57) (2945 / 100000 / 64) 32 0 = true := by decide +kernel
  exact pcheck_sound (by norm_num) hc h0 (by norm_num; linarith)

open Real in
/-- The series of `log(1+s) - log(1-s)`. -/
theorem log_series {s : ℝ} (hs : |s| < 1) (n : ℕ) :
    |(Real.log (1 + s) - Real.log (1 - s)) - ∑ i ∈ Finset.range n, (s ^ (i + 1) - (-s) ^ (i + 1)) / (i + 1)| ≤
      2 * (|s| ^ (n + 1) / (1 - |s|)) := by
  have h1 := Real.abs_log_sub_add_sum_range_le hs n
  have h2 := Real.abs_log_sub_add_sum_range_le (x := -s) (by rwa [abs_neg]) n
  rw [abs_neg, sub_neg_eq_add] at h2
  have e : (Real.log (1 + s) - Real.log (1 - s)) - ∑ i ∈ Finset.range n, (s ^ (i + 1) - (-s) ^ (i + 1)) / (i + 1) =
      ((∑ i ∈ Finset.range n, (-s) ^ (i + 1) / (i + 1)) + Real.log (1 + s)) -
      ((∑ i ∈ Finset.range n, s ^ (i + 1) / (i + 1)) + Real.log (1 - s)) := by
    simp only [sub_div, Finset.sum_sub_distrib]
    ring
  rw [e]
  refine le_trans (abs_sub _ _) ?_
  linarith

theorem abs_cast_le {x B : ℚ} (h : |x| ≤ B) : |(x : ℝ)| ≤ (B : ℚ) := by
  rw [← Rat.cast_abs]
  exact Rat.cast_le.2 h

/-- The exact value of `2*log2`'s polynomial: `2 s + s * R(s^2)`. -/
def lgValue (s : ℚ) : ℚ := 2 * s + s * (s * s * pev lgCoeff (s * s))

/-- `2 s + s * R(s^2)` is near `log((1 + s) / (1 - s))`. -/
theorem lgValue_near {s : ℚ} (hs : |s| ≤ 1716 / 10000) :
    |(Real.log (1 + s) - Real.log (1 - s)) - (lgValue s : ℚ)| ≤ 1 / 2 ^ 59 := by
  have hs0 := abs_nonneg s
  have hz : s * s < 2945 / 100000 := by
    rw [← abs_mul_abs_self]
    nlinarith
  have hd := lgDiff_bound (mul_self_nonneg s) hz
  have hsr : |(s : ℝ)| ≤ 1716 / 10000 := le_trans (abs_cast_le hs) (by norm_num)
  have h1 := log_series (s := (s : ℝ)) (lt_of_le_of_lt hsr (by norm_num)) 26
  have hb : 2 * (|(s : ℝ)| ^ (26 + 1) / (1 - |(s : ℝ)|)) ≤ 1 / 2 ^ 66 := by
    have hp : |(s : ℝ)| ^ (26 + 1) ≤ (1716 / 10000) ^ 27 := pow_le_pow_left₀ (abs_nonneg _) hsr 27
    have hden : (8284 / 10000 : ℝ) ≤ 1 - |(s : ℝ)| := by linarith
    calc 2 * (|(s : ℝ)| ^ (26 + 1) / (1 - |(s : ℝ)|)) ≤ 2 * ((1716 / 10000) ^ 27 / (8284 / 10000)) := by
          apply mul_le_mul_of_nonneg_left _ (by norm_num)
          apply div_le_div₀ (by norm_num) hp (by norm_num) hden
      _ ≤ 1 / 2 ^ 66 := by norm_num
  have e : (∑ i ∈ Finset.range 26, ((s : ℝ) ^ (i + 1) - (-(s : ℝ)) ^ (i + 1)) / (i + 1)) =
      ((lgValue s - s * pev (0 :: lgDiff) (s * s) : ℚ) : ℝ) := by
    simp only [Finset.sum_range_succ, Finset.sum_range_zero, lgValue, lgDiff, pev_padd, lgCoeff, pev, List.range, List.range.loop, List.map]
    push_cast
    ring
  rw [e] at h1
  have hd' : |((s * pev (0 :: lgDiff) (s * s) : ℚ) : ℝ)| ≤ 1716 / 10000 * (1 / 2 ^ 57) := by
    have : |s * pev (0 :: lgDiff) (s * s)| ≤ 1716 / 10000 * (1 / 2 ^ 57) := by
      rw [abs_mul]
      exact mul_le_mul hs hd (abs_nonneg _) (by norm_num)
    exact le_trans (abs_cast_le this) (by norm_num)
  rw [Rat.cast_sub] at h1
  generalize ((s * pev (0 :: lgDiff) (s * s) : ℚ) : ℝ) = d at *
  generalize (2 * (|(s : ℝ)| ^ (26 + 1) / (1 - |(s : ℝ)|))) = c at *
  rw [abs_le] at h1 hd' ⊢
  obtain ⟨h2, h3⟩ := h1
  obtain ⟨h4, h5⟩ := hd'
  norm_num at hb h4 h5 ⊢
  constructor <;> linarith

/-- The factor of `log2`. -/
def ivln2 : ℚ := 3098164009 / 2 ^ 31 + 12657236604881 / 2 ^ 76

/-- The factor is the inverse of the natural logarithm of two. -/
theorem ivln2_near : |(ivln2 : ℝ) * Real.log 2 - 1| ≤ 1 / 2 ^ 62 ∧ 69 / 100 ≤ Real.log 2 := by
  have h1 := log_series (s := (1 / 3 : ℝ)) (by rw [abs_of_pos] <;> norm_num) 46
  have e1 : Real.log (1 + 1 / 3) - Real.log (1 - 1 / 3) = Real.log 2 := by
    rw [← Real.log_div (by norm_num) (by norm_num)]
    norm_num
  rw [e1] at h1
  have hb : 2 * (|(1 / 3 : ℝ)| ^ (46 + 1) / (1 - |(1 / 3 : ℝ)|)) ≤ 1 / 2 ^ 70 := by
    rw [abs_of_pos (by norm_num)]
    norm_num
  have h2 := le_trans h1 hb
  simp only [Finset.sum_range_succ, Finset.sum_range_zero] at h2
  norm_num at h2
  rw [abs_le] at h2
  unfold ivln2
  push_cast
  constructor
  · rw [abs_le]
    constructor
    · norm_num
      linarith [h2.1, h2.2]
    · norm_num
      linarith [h2.1, h2.2]
  · norm_num
    linarith [h2.1, h2.2]

end Fp
end Zopfli
