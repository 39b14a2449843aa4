import Verif.Model.Lz77
import Verif.Proofs.Basic
/-! # Comparing sixteen bytes at a time finds the longest common prefix -/

namespace Zopfli

/-- `m` is the length of the longest common prefix, cut at `limit`, of what starts at `i` in `a` and at `j` in `b`. -/
structure IsLcp (a b : Array UInt8) (i j limit m : Nat) : Prop where
  le : m ≤ limit
  eq : ∀ k, k < m → a[i + k]? = b[j + k]?
  ne : m < limit → a[i + m]? ≠ b[j + m]?

theorem IsLcp.unique {a b : Array UInt8} {i j limit m m' : Nat} (h : IsLcp a b i j limit m) (h' : IsLcp a b i j limit m') :
    m = m' := by
  rcases Nat.lt_trichotomy m m' with hlt | rfl | hlt
  · exact absurd (h'.eq m hlt) (h.ne (by have := h'.le; omega))
  · rfl
  · exact absurd (h.eq m' hlt) (h'.ne (by have := h.le; omega))

theorem leBytes_spec {a : Array UInt8} : ∀ (n i : Nat), i + n ≤ a.size →
    ∃ v, leBytes a i n = some v ∧ v < 2 ^ (8 * n) ∧
      ∀ j k, j < n → k < 8 → ∀ h : i + j < a.size, v.testBit (8 * j + k) = a[i + j].toNat.testBit k
  | 0, i, _ => ⟨0, rfl, by simp, by intros; omega⟩
  | n + 1, i, hi => by
    obtain ⟨v, e, hv, ht⟩ := leBytes_spec (a := a) n (i + 1) (by omega)
    have hb : a[i].toNat < 2 ^ 8 := a[i].toNat_lt
    refine ⟨a[i].toNat + 256 * v, ?_, ?_, ?_⟩
    · unfold leBytes
      rw [Array.getElem?_eq_getElem (by omega), some_bind, e, some_bind]
      rfl
    · have : 2 ^ (8 * (n + 1)) = 256 * 2 ^ (8 * n) := by rw [Nat.mul_add, Nat.pow_add]; omega
      rw [this]
      have : a[i].toNat + 256 * v < 256 * (v + 1) := by omega
      exact Nat.lt_of_lt_of_le this (Nat.mul_le_mul_left _ hv)
    · intro j k hj hk hh
      rw [show a[i].toNat + 256 * v = 2 ^ 8 * v + a[i].toNat by omega, Nat.testBit_two_pow_mul_add _ hb]
      cases j with
      | zero => simp [hk]
      | succ j =>
        rw [if_neg (by omega), show 8 * (j + 1) + k - 8 = 8 * j + k by omega, ht j k (by omega) hk (by omega)]
        simp only [show i + 1 + j = i + (j + 1) by omega]

theorem trailingZeros_spec : ∀ (fuel n : Nat), n ≠ 0 → n < 2 ^ fuel →
    n.testBit (trailingZeros fuel n) = true ∧ ∀ i, i < trailingZeros fuel n → n.testBit i = false
  | 0, n, h0, h => by simp at h; omega
  | fuel + 1, n, h0, h => by
    unfold trailingZeros
    split
    · rename_i h1
      exact ⟨by simp [Nat.testBit_zero, h1], by intros; omega⟩
    · rename_i h1
      have hp : 2 ^ (fuel + 1) = 2 * 2 ^ fuel := by rw [Nat.pow_succ]; omega
      obtain ⟨h2, h3⟩ := trailingZeros_spec fuel (n / 2) (by omega) (by omega)
      refine ⟨by rw [Nat.testBit_succ]; exact h2, fun i hi => ?_⟩
      cases i with
      | zero => simp [Nat.testBit_zero, h1]
      | succ i => rw [Nat.testBit_succ]; exact h3 i (by omega)

theorem getMatchTail_spec {a b : Array UInt8} : ∀ (m j : Nat), min a.size b.size - j = m → j ≤ min a.size b.size →
    (∀ k, k < j → a[k]? = b[k]?) →
    Ret (getMatchTail a b (min a.size b.size) j) fun r => IsLcp a b 0 0 (min a.size b.size) r := by
  intro m
  induction m with
  | zero =>
    intro j hm hj he
    rw [getMatchTail, if_neg (by omega)]
    refine Ret.pure ⟨by omega, fun k hk => ?_, by omega⟩
    rw [Nat.zero_add]; exact he k (by omega)
  | succ m ih =>
    intro j hm hj he
    rw [getMatchTail, if_pos (by omega), Array.getElem?_eq_getElem (by omega), some_bind, Array.getElem?_eq_getElem (by omega), some_bind]
    split
    · rename_i hne
      refine Ret.pure ⟨by omega, fun k hk => ?_, fun _ => ?_⟩
      · rw [Nat.zero_add]; exact he k hk
      · rw [Nat.zero_add, Array.getElem?_eq_getElem (by omega), Array.getElem?_eq_getElem (by omega)]
        simpa using hne
    · rename_i heq
      refine ih (j + 1) (by omega) (by omega) fun k hk => ?_
      by_cases h : k = j
      · subst h
        rw [Array.getElem?_eq_getElem (by omega), Array.getElem?_eq_getElem (by omega)]
        simpa using heq
      · exact he k (by omega)

theorem getMatchLoop_spec {a b : Array UInt8} : ∀ (m i : Nat), min a.size b.size - i = m → i ≤ min a.size b.size →
    (∀ k, k < i → a[k]? = b[k]?) →
    Ret (getMatchLoop a b (min a.size b.size) i) fun r => IsLcp a b 0 0 (min a.size b.size) r := by
  intro m
  induction m using Nat.strongRecOn with
  | ind m ih =>
    intro i hm hi he
    rw [getMatchLoop]
    split
    · rename_i hlt
      obtain ⟨x, ex, hx, htx⟩ := leBytes_spec (a := a) 16 i (by omega)
      obtain ⟨y, ey, hy, hty⟩ := leBytes_spec (a := b) 16 i (by omega)
      rw [ex, some_bind, ey, some_bind]
      have hbyte : ∀ j, j < 16 → (∀ k, k < 8 → (x ^^^ y).testBit (8 * j + k) = false) → a[i + j]? = b[i + j]? := by
        intro j hj hall
        rw [Array.getElem?_eq_getElem (by omega), Array.getElem?_eq_getElem (by omega), Option.some.injEq]
        apply UInt8.toNat_inj.mp
        apply Nat.eq_of_testBit_eq
        intro k
        by_cases hk : k < 8
        · have := hall k hk
          rw [Nat.testBit_xor, htx j k hj hk (by omega), hty j k hj hk (by omega)] at this
          simpa using this
        · rw [Nat.testBit_lt_two_pow, Nat.testBit_lt_two_pow]
          · exact Nat.lt_of_lt_of_le b[i + j].toNat_lt (Nat.pow_le_pow_right (by omega) (by omega : 8 ≤ k))
          · exact Nat.lt_of_lt_of_le a[i + j].toNat_lt (Nat.pow_le_pow_right (by omega) (by omega : 8 ≤ k))
      dsimp only
      split
      · rename_i hne
        have hxy : x ^^^ y < 2 ^ 128 := Nat.xor_lt_two_pow hx hy
        obtain ⟨h1, h2⟩ := trailingZeros_spec 128 _ hne hxy
        generalize trailingZeros 128 (x ^^^ y) = t at h1 h2
        have ht : t < 128 := by
          rcases Nat.lt_or_ge t 128 with h | h
          · exact h
          · rw [Nat.testBit_lt_two_pow (Nat.lt_of_lt_of_le hxy (Nat.pow_le_pow_right (by omega) h))] at h1
            cases h1
        refine Ret.pure ⟨by omega, fun k hk => ?_, fun _ => ?_⟩
        · rw [Nat.zero_add]
          by_cases hki : k < i
          · exact he k hki
          · have := hbyte (k - i) (by omega) fun l hl => h2 _ (by omega)
            rwa [show i + (k - i) = k by omega] at this
        · rw [Nat.zero_add, Array.getElem?_eq_getElem (by omega), Array.getElem?_eq_getElem (by omega)]
          intro heq
          have heq := Option.some.inj heq
          rw [show t = 8 * (t / 8) + t % 8 by omega, Nat.testBit_xor, htx (t / 8) (t % 8) (by omega) (by omega) (by omega),
            hty (t / 8) (t % 8) (by omega) (by omega) (by omega), heq] at h1
          simp at h1
      · rename_i h0
        have h0 : x ^^^ y = 0 := by simpa using h0
        refine ih (min a.size b.size - (i + 16)) (by omega) (i + 16) rfl (by omega) fun k hk => ?_
        by_cases hki : k < i
        · exact he k hki
        · have := hbyte (k - i) (by omega) fun l _ => by rw [h0, Nat.zero_testBit]
          rwa [show i + (k - i) = k by omega] at this
    · exact getMatchTail_spec _ i rfl hi he

/-- `get_match` returns the length of the longest common prefix. -/
theorem getMatch_spec (a b : Array UInt8) : Ret (getMatch a b) fun m => IsLcp a b 0 0 (min a.size b.size) m :=
  getMatchLoop_spec _ 0 rfl (Nat.zero_le _) (by intros; omega)

end Zopfli
