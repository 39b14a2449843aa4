import Verif.Spec.Damage
import Mathlib.Data.ZMod.Basic
import Mathlib.Tactic.NormNum.Prime
import Mathlib.Tactic.Ring
import Mathlib.Tactic.LinearCombination
import Mathlib.Algebra.Field.ZMod
/-! # Adler-32 of changed data -/

namespace Rfc

abbrev Z := ZMod 65521

instance : Fact (Nat.Prime 65521) := ⟨by norm_num⟩

/-- The two sums as residues. -/
def res (st : Nat × Nat) : Z × Z := (st.1, st.2)

theorem res_step (st : Nat × Nat) (b : UInt8) : res (adlerStep st b) = ((res st).1 + (b.toNat : Z), (res st).2 + ((res st).1 + (b.toNat : Z))) := by
  unfold res adlerStep
  dsimp only
  simp [ZMod.natCast_mod]

/-- How a difference of the sums is carried on. -/
theorem res_same : ∀ (l : List UInt8) (s t : Nat × Nat), (res (l.foldl adlerStep s)).1 - (res (l.foldl adlerStep t)).1 = (res s).1 - (res t).1 ∧
    (res (l.foldl adlerStep s)).2 - (res (l.foldl adlerStep t)).2 = (res s).2 - (res t).2 + l.length * ((res s).1 - (res t).1)
  | [], s, t => by simp
  | b :: l, s, t => by
    obtain ⟨h1, h2⟩ := res_same l (adlerStep s b) (adlerStep t b)
    rw [res_step, res_step] at h1 h2
    dsimp only at h1 h2
    constructor
    · rw [List.foldl_cons, List.foldl_cons, h1]; ring
    · rw [List.foldl_cons, List.foldl_cons, h2, List.length_cons, Nat.cast_succ]; ring

theorem adler_lt : ∀ (l : List UInt8) (s : Nat × Nat), s.1 < 65521 → (l.foldl adlerStep s).1 < 65521
  | [], _, h => h
  | b :: l, s, _ => adler_lt l (adlerStep s b) (Nat.mod_lt _ (by decide))

theorem adler_inj {x y : List UInt8} (h : adler32 x = adler32 y) : res (x.foldl adlerStep (1, 0)) = res (y.foldl adlerStep (1, 0)) := by
  have hx := adler_lt x (1, 0) (by decide)
  have hy := adler_lt y (1, 0) (by decide)
  have h : (x.foldl adlerStep (1, 0)).2 * 65536 + (x.foldl adlerStep (1, 0)).1 = (y.foldl adlerStep (1, 0)).2 * 65536 + (y.foldl adlerStep (1, 0)).1 := h
  have h1 : (x.foldl adlerStep (1, 0)).1 = (y.foldl adlerStep (1, 0)).1 := by omega
  have h2 : (x.foldl adlerStep (1, 0)).2 = (y.foldl adlerStep (1, 0)).2 := by omega
  rw [Prod.ext h1 h2]

theorem byte_inj {a b : UInt8} (h : (a.toNat : Z) = b.toNat) : a = b := by
  rw [ZMod.natCast_eq_natCast_iff] at h
  have ha := a.toNat_lt
  have hb := b.toNat_lt
  have := Nat.ModEq.eq_of_lt_of_lt h (by omega) (by omega)
  exact UInt8.toNat.inj this

theorem adler_one {x y : List UInt8} (h : Zopfli.OneByte x y) : adler32 x ≠ adler32 y := by
  obtain ⟨pre, a, b, post, rfl, rfl, hne⟩ := h
  intro e
  have e := adler_inj e
  rw [List.foldl_append, List.foldl_append, List.foldl_cons, List.foldl_cons] at e
  obtain ⟨h1, -⟩ := res_same post (adlerStep (pre.foldl adlerStep (1, 0)) a) (adlerStep (pre.foldl adlerStep (1, 0)) b)
  rw [e, sub_self, res_step, res_step] at h1
  dsimp only at h1
  exact hne (byte_inj (by linear_combination -h1))

theorem adler_two {x y : List UInt8} (h : Zopfli.TwoBytes x y) : adler32 x ≠ adler32 y := by
  obtain ⟨pre, a, a', mid, b, b', post, rfl, rfl, hl, hne⟩ := h
  intro e
  have e := adler_inj e
  simp only [List.foldl_append, List.foldl_cons] at e
  generalize pre.foldl adlerStep (1, 0) = s at e
  obtain ⟨h1, h2⟩ := res_same mid (adlerStep s a) (adlerStep s a')
  generalize mid.foldl adlerStep (adlerStep s a) = t at *
  generalize mid.foldl adlerStep (adlerStep s a') = t' at *
  obtain ⟨k1, k2⟩ := res_same post (adlerStep t b) (adlerStep t' b')
  rw [e, sub_self, res_step, res_step] at k1 k2
  rw [res_step, res_step] at h1 h2
  dsimp only at h1 h2 k1 k2
  have d1 : ((a.toNat : Z) - a'.toNat) + ((b.toNat : Z) - b'.toNat) = 0 := by linear_combination -k1 - h1
  have d2 : ((mid.length + 1 : Nat) : Z) * ((a.toNat : Z) - a'.toNat) = 0 := by
    rw [Nat.cast_succ]
    linear_combination -k2 - h2 + (1 + (post.length : Z)) * k1
  have d3 : (a.toNat : Z) - a'.toNat = 0 := by
    rcases mul_eq_zero.mp d2 with h | h
    · rw [ZMod.natCast_eq_zero_iff] at h
      exact absurd (Nat.le_of_dvd (by omega) h) (by omega)
    · exact h
  rw [d3, zero_add] at d1
  rcases hne with h | h
  · exact h (byte_inj (by linear_combination d3))
  · exact h (byte_inj (by linear_combination d1))

end Rfc
