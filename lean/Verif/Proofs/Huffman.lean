import Verif.Model.Tree
import Verif.Spec.Inflate
import Verif.Proofs.Basic
import Mathlib.Data.List.Induction
import Mathlib.Tactic.Ring
/-! # Canonical Huffman codes: `lengths_to_symbols` against the decoder of RFC 1951 -/

namespace Zopfli
open Rfc

/-- The bits of a codeword, most significant first. -/
def bitsMsb (c l : Nat) : List Bool := (List.range l).map fun i => c.testBit (l - i - 1)

/-- Number of symbols of length `l`. -/
def cntLen (lens : List Nat) (l : Nat) : Nat := (symsOfLen lens l).length

/-- First codeword of length `l + 1`. -/
def firstCode (lens : List Nat) : Nat → Nat
  | 0 => 0
  | l + 1 => 2 * (firstCode lens l + cntLen lens (l + 1))

/-- Number of symbols before `i` with length `l`. -/
def rankLen (lens : List Nat) (l i : Nat) : Nat := ((lens.take i).filter (· == l)).length

theorem symsOfLen_eq (lens : List Nat) (l : Nat) : cntLen lens l = (lens.filter (· == l)).length := by
  unfold cntLen symsOfLen
  induction lens using List.reverseRecOn with
  | nil => simp
  | append_singleton xs x ih =>
    rw [List.length_append, List.length_singleton, List.range_succ, List.filter_append, List.filter_append,
      List.length_append, List.length_append, ← ih]
    congr 1
    · congr 1
      apply List.filter_congr
      intro i hi
      have hi' : i < xs.length := by simpa using hi
      rw [List.getElem?_append_left hi']
    · by_cases h : x = l <;> simp [h]

theorem symsOfLen_append (xs : List Nat) (x l : Nat) :
    symsOfLen (xs ++ [x]) l = symsOfLen xs l ++ (if x = l then [xs.length] else []) := by
  unfold symsOfLen
  rw [List.length_append, List.length_singleton, List.range_succ, List.filter_append]
  congr 1
  · apply List.filter_congr
    intro i hi
    have hi' : i < xs.length := by simpa using hi
    rw [List.getElem?_append_left hi']
  · by_cases h : x = l <;> simp [h]

theorem symsOfLen_prefix (xs ys : List Nat) (l : Nat) : ∃ t, symsOfLen (xs ++ ys) l = symsOfLen xs l ++ t := by
  induction ys using List.reverseRecOn with
  | nil => exact ⟨[], by simp⟩
  | append_singleton ys y ih =>
    obtain ⟨t, ht⟩ := ih
    exact ⟨_, by rw [← List.append_assoc, symsOfLen_append, ht, List.append_assoc]⟩

/-- Trailing unused symbols do not matter. -/
theorem symsOfLen_zeros (xs : List Nat) (k l : Nat) (hl : l ≠ 0) :
    symsOfLen (xs ++ List.replicate k 0) l = symsOfLen xs l := by
  induction k with
  | zero => simp
  | succ k ih =>
    rw [List.replicate_succ', ← List.append_assoc, symsOfLen_append, if_neg (by omega), ih, List.append_nil]

theorem symsOfLen_getElem? (lens : List Nat) (i l : Nat) (h : lens[i]? = some l) :
    (symsOfLen lens l)[rankLen lens l i]? = some i := by
  have hi : i < lens.length := by
    rcases Nat.lt_or_ge i lens.length with h' | h'
    · exact h'
    · rw [List.getElem?_eq_none h'] at h; cases h
  have hsplit : lens = (lens.take i ++ [l]) ++ lens.drop (i + 1) := by
    rw [List.getElem?_eq_getElem hi] at h
    cases h
    simp
  obtain ⟨t, ht⟩ := symsOfLen_prefix (lens.take i ++ [l]) (lens.drop (i + 1)) l
  rw [← hsplit] at ht
  rw [ht, symsOfLen_append, if_pos rfl]
  have hlen : (symsOfLen (lens.take i) l).length = rankLen lens l i := symsOfLen_eq _ _
  rw [← hlen, List.append_assoc, List.getElem?_append_right (Nat.le_refl _), Nat.sub_self]
  simp [Nat.min_eq_left (Nat.le_of_lt hi)]

theorem rankLen_lt (lens : List Nat) (i l : Nat) (h : lens[i]? = some l) : rankLen lens l i < cntLen lens l := by
  have := symsOfLen_getElem? lens i l h
  rcases Nat.lt_or_ge (rankLen lens l i) (cntLen lens l) with h' | h'
  · exact h'
  · rw [List.getElem?_eq_none h'] at this; cases this

/-- Shorter codewords precede the first codeword of a longer length. -/
theorem firstCode_ge (lens : List Nat) (m d : Nat) :
    2 ^ (d + 1) * (firstCode lens m + cntLen lens (m + 1)) ≤ firstCode lens (m + d + 1) := by
  induction d with
  | zero => simp [firstCode]
  | succ d ih =>
    have : firstCode lens (m + (d + 1) + 1) = 2 * (firstCode lens (m + d + 1) + cntLen lens (m + d + 1 + 1)) := rfl
    rw [this, Nat.pow_succ]
    calc 2 ^ (d + 1) * 2 * (firstCode lens m + cntLen lens (m + 1))
        = 2 * (2 ^ (d + 1) * (firstCode lens m + cntLen lens (m + 1))) := by
          rw [Nat.mul_comm (2 ^ (d + 1)) 2, Nat.mul_assoc]
      _ ≤ _ := Nat.mul_le_mul_left _ (Nat.le_trans ih (Nat.le_add_right _ _))

/-- The partial Kraft sum of lengths `1..l` in units of `2^-15`. -/
def kraftUpTo (lens : List Nat) (l : Nat) : Nat :=
  (lens.map fun x => if x = 0 ∨ l < x then 0 else 2 ^ (15 - x)).sum

theorem kraftUpTo_le (lens : List Nat) (l : Nat) : kraftUpTo lens l ≤ kraft15 lens := by
  unfold kraftUpTo kraft15
  induction lens with
  | nil => simp
  | cons x xs ih =>
    simp only [List.map_cons, List.sum_cons]
    refine Nat.add_le_add ?_ ih
    by_cases h : x = 0
    · simp [h]
    · by_cases h' : l < x <;> simp [h, h']

theorem kraftUpTo_succ (lens : List Nat) (l : Nat) :
    kraftUpTo lens (l + 1) = kraftUpTo lens l + cntLen lens (l + 1) * 2 ^ (15 - (l + 1)) := by
  rw [symsOfLen_eq]
  unfold kraftUpTo
  induction lens with
  | nil => simp
  | cons x xs ih =>
    simp only [List.map_cons, List.sum_cons, ih, List.filter_cons]
    by_cases h : x = l + 1
    · subst h
      simp [Nat.add_mul]
      omega
    · have : (x == l + 1) = false := by simp [h]
      simp only [this]
      by_cases h0 : x = 0
      · simp [h0]
      · have e : (x = 0 ∨ l + 1 < x) ↔ (x = 0 ∨ l < x) := by omega
        simp only [e]
        simp
        omega

theorem firstCode_kraft (lens : List Nat) (l : Nat) (hl : l < 15) :
    (firstCode lens l + cntLen lens (l + 1)) * 2 ^ (15 - (l + 1)) = kraftUpTo lens (l + 1) := by
  induction l with
  | zero =>
    rw [kraftUpTo_succ]
    have : kraftUpTo lens 0 = 0 := by
      unfold kraftUpTo
      induction lens with
      | nil => rfl
      | cons x xs ih =>
        have : x = 0 ∨ 0 < x := by omega
        simp [ih, this]
    simp [firstCode, this]
  | succ l ih =>
    rw [kraftUpTo_succ, ← ih (by omega)]
    show (2 * (firstCode lens l + cntLen lens (l + 1)) + _) * _ = _
    have : 2 ^ (15 - (l + 1)) = 2 * 2 ^ (15 - (l + 1 + 1)) := by
      rw [show 15 - (l + 1) = 15 - (l + 1 + 1) + 1 by omega, Nat.pow_succ, Nat.mul_comm]
    rw [this]
    ring

theorem firstCode_lt (lens : List Nat) (l : Nat) (hl : l < 15) (hk : kraft15 lens ≤ 2 ^ 15) :
    firstCode lens l + cntLen lens (l + 1) ≤ 2 ^ (l + 1) := by
  have h1 := firstCode_kraft lens l hl
  have h2 := kraftUpTo_le lens (l + 1)
  have h3 : (firstCode lens l + cntLen lens (l + 1)) * 2 ^ (15 - (l + 1)) ≤ 2 ^ (l + 1) * 2 ^ (15 - (l + 1)) := by
    rw [h1, ← Nat.pow_add, show l + 1 + (15 - (l + 1)) = 15 by omega]
    omega
  exact Nat.le_of_mul_le_mul_right h3 (Nat.two_pow_pos _)

theorem bitsMsb_length (c l : Nat) : (bitsMsb c l).length = l := by simp [bitsMsb]

/-- The bits of a codeword from the `t`-th on. -/
theorem bitsMsb_drop_cons (c l t : Nat) (h : t < l) :
    (bitsMsb c l).drop t = c.testBit (l - t - 1) :: (bitsMsb c l).drop (t + 1) := by
  have : t < (bitsMsb c l).length := by rw [bitsMsb_length]; exact h
  rw [List.drop_eq_getElem_cons this]
  simp [bitsMsb]

theorem shift_step (c l t : Nat) (h : t < l) :
    2 * (c >>> (l - t)) + (c.testBit (l - t - 1)).toNat = c >>> (l - (t + 1)) := by
  have e : l - t = (l - (t + 1)) + 1 := by omega
  rw [show l - t - 1 = l - (t + 1) by omega, e, Nat.shiftRight_succ, Nat.toNat_testBit, Nat.shiftRight_eq_div_pow]
  omega

/-- Decoding a codeword: after `t` bits have been read without reaching a codeword, the rest of the codeword of
symbol `i` decodes to `i`. -/
theorem decodeFrom_code (lens : List Nat) (i l : Nat) (hl : 0 < l) (hl' : l ≤ 15) (h : lens[i]? = some l)
    (rest : List Bool) (n t pos : Nat) (ht : t + n = l) (hn : 0 < n) (fuel : Nat) (hf : n ≤ fuel) :
    decodeFrom lens fuel t ((firstCode lens (l - 1) + rankLen lens l i) >>> n) (firstCode lens t)
      ⟨(bitsMsb (firstCode lens (l - 1) + rankLen lens l i) l).drop t ++ rest, pos⟩ = some (i, ⟨rest, pos + n⟩) := by
  generalize hc : firstCode lens (l - 1) + rankLen lens l i = c
  induction n generalizing t pos fuel with
  | zero => omega
  | succ n ih =>
    obtain ⟨fuel, rfl⟩ : ∃ f, fuel = f + 1 := ⟨fuel - 1, by omega⟩
    rw [bitsMsb_drop_cons c l t (by omega)]
    show (match (symsOfLen lens (t + 1))[2 * (c >>> (n + 1)) + (c.testBit (l - t - 1)).toNat - firstCode lens t]? with
      | some sym => some (sym, (⟨(bitsMsb c l).drop (t + 1) ++ rest, pos + 1⟩ : Bits))
      | none => _) = _
    have e := shift_step c l t (by omega)
    rw [show l - t = n + 1 by omega, show l - (t + 1) = n by omega] at e
    rw [show l - t - 1 = n + 1 - 1 by omega, e]
    rcases Nat.eq_zero_or_pos n with rfl | hn'
    · have : t + 1 = l := by omega
      subst this
      rw [Nat.shiftRight_zero, ← hc, Nat.add_sub_cancel, Nat.add_sub_cancel_left, symsOfLen_getElem? lens i _ h]
      simp [List.drop_of_length_le, bitsMsb_length]
    · have hge : firstCode lens t + cntLen lens (t + 1) ≤ c >>> n := by
        rw [Nat.shiftRight_eq_div_pow, Nat.le_div_iff_mul_le (Nat.two_pow_pos _), Nat.mul_comm, ← hc]
        have := firstCode_ge lens t (n - 1)
        rw [show n - 1 + 1 = n by omega, show t + (n - 1) + 1 = l - 1 by omega] at this
        omega
      have hnone : (symsOfLen lens (t + 1))[c >>> n - firstCode lens t]? = none := by
        apply List.getElem?_eq_none
        show cntLen lens (t + 1) ≤ _
        omega
      rw [hnone]
      have := ih (t + 1) (pos + 1) (by omega) hn' fuel (by omega)
      rw [show pos + 1 + n = pos + (n + 1) by omega] at this
      exact this

/-- The codeword of symbol `i` decodes to `i`. -/
theorem decodeSym_code (lens : List Nat) (i l : Nat) (hl : 0 < l) (hl' : l ≤ 15) (h : lens[i]? = some l)
    (hk : kraft15 lens ≤ 2 ^ 15) (rest : List Bool) (pos : Nat) :
    decodeSym lens ⟨bitsMsb (firstCode lens (l - 1) + rankLen lens l i) l ++ rest, pos⟩
      = some (i, ⟨rest, pos + l⟩) := by
  have hr := rankLen_lt lens i l h
  have hlt : firstCode lens (l - 1) + rankLen lens l i < 2 ^ l := by
    have := firstCode_lt lens (l - 1) (by omega) hk
    rw [show l - 1 + 1 = l by omega] at this
    omega
  have := decodeFrom_code lens i l hl hl' h rest l 0 pos (by omega) hl 15 hl'
  rw [Nat.shiftRight_eq_div_pow, Nat.div_eq_of_lt hlt] at this
  exact this

/-! ## `lengths_to_symbols` -/

theorem rankLen_succ (lens : List Nat) (l i : Nat) (h : i < lens.length) :
    rankLen lens l (i + 1) = rankLen lens l i + if lens[i] = l then 1 else 0 := by
  unfold rankLen
  rw [List.take_succ_eq_append_getElem h, List.filter_append, List.length_append]
  congr 1
  by_cases e : lens[i] = l <;> simp [e]

theorem rankLen_length (lens : List Nat) (l : Nat) : rankLen lens l lens.length = cntLen lens l := by
  rw [symsOfLen_eq]; simp [rankLen]

/-- `lengths_to_symbols` does not panic when no length exceeds `maxbits`, and gives symbol `i` of length `l > 0` the
value: first codeword of length `l`, plus the number of earlier symbols of length `l`. -/
theorem lengthsToSymbols_spec (lens : Array Nat) (maxBits : Nat) (h : ∀ i (hi : i < lens.size), lens[i] ≤ maxBits) :
    Ret (lengthsToSymbols lens maxBits) fun syms => syms.size = lens.size ∧
      ∀ i (hi : i < lens.size), syms[i]? =
        some (if lens[i] = 0 then 0 else firstCode lens.toList (lens[i] - 1) + rankLen lens.toList lens[i] i) := by
  unfold lengthsToSymbols
  refine Ret.bind' (forRange_spec (fun i bl => bl.size = maxBits + 1 ∧
    ∀ l, l ≤ maxBits → bl[l]? = some (rankLen lens.toList l i)) (Nat.zero_le _) ?_ ?_) ?_
  · refine ⟨by simp, fun l hl => ?_⟩
    simp [rankLen, Nat.lt_succ_of_le hl]
  · rintro i bl - hi ⟨hs, hbl⟩
    refine Ret.bind (Ret.getElem? hi ?_)
    rw [guardR_eq (by simpa using h i hi)]
    have hl : lens[i] < bl.size := by have := h i hi; omega
    refine Ret.amod hl ⟨by simp [hs], fun l hle => ?_⟩
    rw [rankLen_succ _ _ _ (by simpa using hi), Array.getElem?_modify, hbl l hle]
    by_cases e : lens[i] = l <;> simp [e]
  rintro bl ⟨hs, hbl⟩
  refine Ret.bind (Ret.aset (by omega) ?_)
  refine Ret.bind' (forRange_spec (fun b (p : Nat × Array Nat) => p.2.size = maxBits + 1 ∧
    p.1 = firstCode lens.toList (b - 2) ∧
    ∀ l, 0 < l → l < b → p.2[l]? = some (firstCode lens.toList (l - 1))) (a := 1) (b := maxBits + 1) (by omega) ?_ ?_) ?_
  · exact ⟨by simp, rfl, fun l h1 h2 => by omega⟩
  · rintro b ⟨code, next⟩ hb1 hb2 ⟨hs', rfl, hn⟩
    dsimp only at hs' hn ⊢
    refine Ret.bind ⟨if b = 1 then 0 else cntLen lens.toList (b - 1), ?_, ?_⟩
    · by_cases e : b = 1
      · subst e; simp
      · rw [Array.getElem?_set]
        rw [if_neg (by omega), if_neg e, hbl _ (by omega)]
        rw [← rankLen_length]; simp
    have hcode : (firstCode lens.toList (b - 2) + if b = 1 then 0 else cntLen lens.toList (b - 1)) <<< 1 =
        firstCode lens.toList (b - 1) := by
      obtain ⟨b, rfl⟩ : ∃ k, b = k + 1 := ⟨b - 1, by omega⟩
      cases b with
      | zero => simp [firstCode]
      | succ b => simp [firstCode, Nat.shiftLeft_eq]; ring
    dsimp only
    rw [hcode]
    refine Ret.bind (Ret.aset (by omega) (Ret.pure ⟨by simp [hs'], rfl, fun l h1 h2 => ?_⟩))
    dsimp only
    rw [Array.getElem?_set]
    by_cases e : b = l
    · simp [e]
    · rw [if_neg e]; exact hn l h1 (by omega)
  rintro ⟨_, next⟩ ⟨hs', -, hn⟩
  dsimp only at hs' hn ⊢
  refine Ret.bind' (forRange_spec (fun i (p : Array Nat × Array Nat) => p.1.size = lens.size ∧ p.2.size = maxBits + 1 ∧
    (∀ l, 0 < l → l ≤ maxBits → p.2[l]? = some (firstCode lens.toList (l - 1) + rankLen lens.toList l i)) ∧
    (∀ k (hk : k < lens.size), i ≤ k → p.1[k]? = some 0) ∧
    ∀ k (hk : k < lens.size), k < i → p.1[k]? =
        some (if lens[k] = 0 then 0 else firstCode lens.toList (lens[k] - 1) + rankLen lens.toList lens[k] k))
    (Nat.zero_le _) ?_ ?_) ?_
  · refine ⟨by simp, hs', fun l h1 h2 => ?_, fun k hk _ => by simp [hk], fun k _ h => by omega⟩
    rw [hn l h1 (by omega)]
    simp [rankLen]
  · rintro i ⟨syms, next⟩ - hi ⟨h1, h2, h3, h4, h5⟩
    dsimp only at h1 h2 h3 h4 h5 ⊢
    refine Ret.bind (Ret.getElem? hi ?_)
    have hle := h i hi
    by_cases e : lens[i] = 0
    · rw [if_neg (by simpa using e)]
      refine Ret.pure ⟨h1, h2, fun l hl hl' => ?_, fun k hk hk' => h4 k hk (by omega), fun k hk hk' => ?_⟩
      · dsimp only
        rw [rankLen_succ _ _ _ (by simpa using hi), if_neg (by simp; omega)]
        exact h3 l hl hl'
      · dsimp only
        rcases Nat.lt_or_eq_of_le (Nat.le_of_lt_succ hk') with hk' | rfl
        · exact h5 k hk hk'
        · rw [if_pos e]; exact h4 k hk (Nat.le_refl _)
    · rw [if_pos e]
      refine Ret.bind (Ret.of_eq (h3 _ (by omega) hle) ?_)
      refine Ret.bind (Ret.aset (by omega) ?_)
      refine Ret.bind (Ret.aset (by omega) ?_)
      refine Ret.pure ⟨by simp [h1], by simp [h2], fun l hl hl' => ?_, fun k hk hk' => ?_, fun k hk hk' => ?_⟩
      · dsimp only
        rw [rankLen_succ _ _ _ (by simpa using hi), Array.getElem?_set]
        by_cases e' : lens[i] = l
        · simp [e']; omega
        · rw [if_neg e', if_neg (by simpa using e'), h3 l hl hl']
          rfl
      · dsimp only
        rw [Array.getElem?_set, if_neg (by omega)]
        exact h4 k hk (by omega)
      · dsimp only
        rw [Array.getElem?_set]
        by_cases e' : i = k
        · subst e'; simp [e]
        · rw [if_neg e']
          exact h5 k hk (by omega)
  rintro ⟨syms, _⟩ ⟨h1, -, -, -, h5⟩
  exact Ret.pure ⟨h1, fun i hi => h5 i hi hi⟩

end Zopfli
