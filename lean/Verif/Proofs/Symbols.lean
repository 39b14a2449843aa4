import Verif.Model.Symbols
import Verif.Spec.Inflate
/-! # Length and distance symbols -/

namespace Zopfli

/-- Everything about one length, as a Boolean test. -/
def lengthOkB (len : Nat) : Bool :=
  match getLengthSymbol len, getLengthExtraBits len, getLengthExtraBitsValue len with
  | some s, some eb, some v =>
    decide (257 ≤ s) && decide (s ≤ 285) && (getLengthSymbolExtraBits s == some eb) &&
    (Rfc.lengthExtra[s - 257]? == some eb) && decide (v < 2 ^ eb) && decide (v ≤ len) && decide (eb ≤ 5) &&
    (Rfc.lengthBase[s - 257]? == some (len - v))
  | _, _, _ => false

theorem lengthOkB_all : ∀ len, len < 256 → lengthOkB (len + 3) = true := by decide +kernel

theorem length_spec {len : Nat} (h3 : 3 ≤ len) (h258 : len ≤ 258) :
    ∃ s eb v, getLengthSymbol len = some s ∧ getLengthExtraBits len = some eb ∧ getLengthExtraBitsValue len = some v ∧
      257 ≤ s ∧ s ≤ 285 ∧ getLengthSymbolExtraBits s = some eb ∧ Rfc.lengthExtra[s - 257]? = some eb ∧
      v < 2 ^ eb ∧ v ≤ len ∧ eb ≤ 5 ∧ Rfc.lengthBase[s - 257]? = some (len - v) := by
  have h := lengthOkB_all (len - 3) (by omega)
  rw [show len - 3 + 3 = len by omega] at h
  unfold lengthOkB at h
  split at h
  · rename_i s eb v h1 h2 h4
    simp only [Bool.and_eq_true, decide_eq_true_eq, beq_iff_eq] at h
    obtain ⟨⟨⟨⟨⟨⟨⟨a, b⟩, c⟩, d⟩, e⟩, f⟩, g⟩, i⟩ := h
    exact ⟨s, eb, v, h1, h2, h4, a, b, c, d, e, f, g, i⟩
  · cases h

theorem lengthSymbol_total {len : Nat} (h : len ≤ 258) : ∃ s, getLengthSymbol len = some s ∧ s < 288 := by
  have : ∀ len, len < 259 → ((getLengthSymbol len).map fun s => decide (s < 288)) = some true := by decide +kernel
  have h' := this len (by omega)
  cases e : getLengthSymbol len with
  | none => rw [e] at h'; cases h'
  | some s => rw [e] at h'; exact ⟨s, rfl, by simpa using h'⟩

theorem lengthExtraBits_total {len : Nat} (h : len ≤ 258) : ∃ b, getLengthExtraBits len = some b ∧ b ≤ 5 := by
  have : ∀ len, len < 259 → ((getLengthExtraBits len).map fun s => decide (s ≤ 5)) = some true := by decide +kernel
  have h' := this len (by omega)
  cases e : getLengthExtraBits len with
  | none => rw [e] at h'; cases h'
  | some s => rw [e] at h'; exact ⟨s, rfl, by simpa using h'⟩

theorem log2_bounds {n : Nat} (h : n ≠ 0) : 2 ^ Nat.log2 n ≤ n ∧ n < 2 ^ (Nat.log2 n + 1) :=
  ⟨Nat.log2_self_le h, Nat.lt_log2_self⟩

theorem log2_lt_of_lt {n k : Nat} (h : n ≠ 0) (hk : n < 2 ^ k) : Nat.log2 n < k := (Nat.log2_lt h).2 hk

theorem log2_ge_of_le {n k : Nat} (h : n ≠ 0) (hk : 2 ^ k ≤ n) : k ≤ Nat.log2 n := (Nat.le_log2 h).2 hk

theorem dist_spec {dist : Nat} (h1 : 1 ≤ dist) (h2 : dist ≤ 32768) :
    getDistSymbol dist < 30 ∧ getDistSymbolExtraBits (getDistSymbol dist) = some (getDistExtraBits dist) ∧
      Rfc.distExtra[getDistSymbol dist]? = some (getDistExtraBits dist) ∧
      getDistExtraBitsValue dist < 2 ^ getDistExtraBits dist ∧ getDistExtraBitsValue dist ≤ dist ∧
      getDistExtraBits dist ≤ 13 ∧
      Rfc.distBase[getDistSymbol dist]? = some (dist - getDistExtraBitsValue dist) := by
  by_cases h5 : dist < 5
  · have : dist = 1 ∨ dist = 2 ∨ dist = 3 ∨ dist = 4 := by omega
    rcases this with rfl | rfl | rfl | rfl <;> decide
  · simp only [getDistSymbol, getDistExtraBits, getDistExtraBitsValue, if_neg h5]
    have hne : dist - 1 ≠ 0 := by omega
    obtain ⟨hlo, hhi⟩ := log2_bounds hne
    have hl2 : 2 ≤ Nat.log2 (dist - 1) := log2_ge_of_le hne (by omega)
    have hl14 : Nat.log2 (dist - 1) < 15 := log2_lt_of_lt hne (by omega)
    generalize Nat.log2 (dist - 1) = l at *
    simp only [Nat.shiftLeft_eq, Nat.shiftRight_eq_div_pow, Nat.one_mul, Nat.and_two_pow_sub_one_eq_mod,
      show ∀ x, x &&& 1 = x % 2 from fun x => Nat.and_one_is_mod x]
    have hl : l = 2 ∨ l = 3 ∨ l = 4 ∨ l = 5 ∨ l = 6 ∨ l = 7 ∨ l = 8 ∨ l = 9 ∨ l = 10 ∨ l = 11 ∨ l = 12 ∨ l = 13 ∨
        l = 14 := by omega
    rcases hl with rfl | rfl | rfl | rfl | rfl | rfl | rfl | rfl | rfl | rfl | rfl | rfl | rfl <;>
    · simp only [Nat.reducePow, Nat.reduceAdd, Nat.reduceSub, Nat.reduceMul] at hlo hhi ⊢
      generalize hq : (dist - 1) / _ = q
      rcases Nat.mod_two_eq_zero_or_one q with hr | hr <;> rw [hr] <;>
      · refine ⟨by decide, by decide, by decide, by omega, by omega, by omega, ?_⟩
        simp only [Rfc.distBase, List.getElem?_cons_succ, List.getElem?_cons_zero, Nat.reduceAdd, Option.some.injEq]
        omega

/-- Any 16-bit distance has a symbol below 32. -/
theorem distSymbol_lt {dist : Nat} (h1 : 1 ≤ dist) (h2 : dist ≤ 65535) : getDistSymbol dist < 32 := by
  by_cases h5 : dist < 5
  · simp only [getDistSymbol, if_pos h5]; omega
  · simp only [getDistSymbol, if_neg h5]
    have hne : dist - 1 ≠ 0 := by omega
    have hl14 : Nat.log2 (dist - 1) < 16 := log2_lt_of_lt hne (by omega)
    have : (dist - 1) >>> (Nat.log2 (dist - 1) - 1) &&& 1 ≤ 1 := Nat.and_le_right
    omega

theorem distExtraBits_le {dist : Nat} (h2 : dist ≤ 65535) : getDistExtraBits dist ≤ 14 := by
  by_cases h5 : dist < 5
  · simp [getDistExtraBits, if_pos h5]
  · simp only [getDistExtraBits, if_neg h5]
    have hne : dist - 1 ≠ 0 := by omega
    have hl14 : Nat.log2 (dist - 1) < 16 := log2_lt_of_lt hne (by omega)
    omega

end Zopfli
