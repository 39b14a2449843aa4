import Verif.Props.StreamShape
import Verif.Proofs.Smooth
import Verif.Proofs.CodeOptimal
/-!
# C09, C10, C11, C12: code lengths, codewords, length and distance symbols
-/

namespace Zopfli
open Rfc Katajainen

theorem usedLeaves_length (f : Array Nat) : (usedLeaves f).length = usedSymbols f.toList := by
  rw [used_count, usedSymbols]
  have h : f.toList = (List.range f.size).map fun i => f.getD i 0 := by
    apply List.ext_getElem
    · simp
    · intro i h1 h2
      have : i < f.size := by simpa using h1
      simp [Array.getD, this]
  conv_rhs => rw [h, List.filter_map, List.length_map]
  rfl

/-- **C09** For every histogram over at most 288 symbols of which at most `2^maxBits` are used, the computation of code
lengths returns; exactly the used symbols get a length, which is at most `maxBits`; with two used symbols or more the
lengths form a complete prefix code; a single used symbol gets length 1. -/
theorem C09_code_lengths (freqs : Array Nat) (maxBits : Nat) (hsize : freqs.size ≤ 288) (h1 : 1 ≤ maxBits) (h15 : maxBits ≤ 15)
    (hcap : usedSymbols freqs.toList ≤ 2 ^ maxBits) :
    ∃ lens, lengthLimitedCodeLengths freqs maxBits = some lens ∧ lens.size = freqs.size ∧
      (∀ i (h : i < freqs.size) (h' : i < lens.size), (lens[i] = 0 ↔ freqs[i] = 0) ∧ lens[i] ≤ maxBits) ∧
      (2 ≤ usedSymbols freqs.toList → kraftSum lens.toList = 1) ∧
      (usedSymbols freqs.toList = 1 → ∀ i (h : i < freqs.size) (h' : i < lens.size), freqs[i] ≠ 0 → lens[i] = 1) := by
  obtain ⟨lens, e, hs, h2, h3, h4, h5⟩ := lengthLimited_spec freqs maxBits hsize h1 h15 (by rw [usedLeaves_length]; exact hcap)
  have hlen : ∀ i (h : i < freqs.size) (h' : i < lens.size), (lens[i] = 0 ↔ freqs[i] = 0) ∧ lens[i] ≤ maxBits := by
    intro i h h'
    obtain ⟨l, a, b, c⟩ := h2 i h
    rw [Array.getElem?_eq_getElem h', Option.some.injEq] at a
    rw [a]
    exact ⟨c, b⟩
  have hle : ∀ l ∈ lens.toList, l ≤ 15 := by
    intro l hl
    obtain ⟨i, hi, rfl⟩ := List.getElem_of_mem hl
    have hi' : i < lens.size := by simpa using hi
    have := (hlen i (by omega) hi').2
    rw [Array.getElem_toList]
    omega
  rw [usedLeaves_length] at h3 h5
  refine ⟨lens, e, hs, hlen, ?_, ?_⟩
  · intro h
    have := kraft15_rat lens.toList hle
    rw [h3 h] at this
    push_cast at this
    have h2 : (2 : Rat) ^ 15 ≠ 0 := by positivity
    exact (mul_left_cancel₀ h2 (by rw [mul_one]; exact this)).symm
  · intro h i hi hi' hne
    have hk := h5 (by omega)
    rw [h, Nat.one_mul] at hk
    -- the term of `i` alone is at most the sum, so its length is at least 1; it cannot be more
    have hl0 : lens[i] ≠ 0 := fun h0 => hne ((hlen i hi hi').1.1 h0)
    have key : ∀ (l : List Nat) (k : Nat) (hk : k < l.length), (∀ j (hj : j < l.length), j ≠ k → l[j] = 0) →
        kraft15 l = if l[k] = 0 then 0 else 2 ^ (15 - l[k]) := by
      intro l
      induction l with
      | nil => intro k hk; simp at hk
      | cons x l ih =>
        intro k hk hz
        have e1 : kraft15 (x :: l) = (if x = 0 then 0 else 2 ^ (15 - x)) + kraft15 l := by simp [kraft15]
        rw [e1]
        cases k with
        | zero =>
          have : kraft15 l = 0 := by
            unfold kraft15
            apply List.sum_eq_zero
            intro v hv
            obtain ⟨y, hy, rfl⟩ := List.mem_map.1 hv
            obtain ⟨j, hj, rfl⟩ := List.getElem_of_mem hy
            rw [if_pos]
            exact hz (j + 1) (by simpa using hj) (by omega)
          rw [this]
          rfl
        | succ k =>
          have hx : x = 0 := hz 0 (by simp) (by omega)
          rw [if_pos hx, Nat.zero_add]
          have := ih k (by simpa using hk) (fun j hj hne => hz (j + 1) (by simpa using hj) (by omega))
          rw [this]
          rfl
    have honly : ∀ j (hj : j < lens.toList.length), j ≠ i → lens.toList[j] = 0 := by
      intro j hj hji
      have hj' : j < lens.size := by simpa using hj
      rw [Array.getElem_toList]
      rw [(hlen j (by omega) hj').1]
      by_contra h0
      have h2u : 2 ≤ (usedLeaves freqs).length := by
        rcases Nat.lt_or_gt_of_ne hji with hlt | hlt
        · exact two_used hji (by omega) hi h0 hne
        · exact two_used hji (by omega) hi h0 hne
      rw [usedLeaves_length] at h2u
      omega
    have := key lens.toList i (by simpa using hi') honly
    rw [hk, Array.getElem_toList, if_neg hl0] at this
    have h3 : 14 = 15 - lens[i] := Nat.pow_right_injective (by decide : 1 < 2) this
    omega

theorem kraft_scaled (l : List Nat) (M : Nat) (h : ∀ x ∈ l, x ≤ M) :
    (((l.map fun x => if x = 0 then 0 else 2 ^ (M - x)).sum : Nat) : Rat) = 2 ^ M * kraftSum l := by
  unfold kraftSum
  induction l with
  | nil => simp
  | cons x l ih =>
    have ih := ih fun y hy => h y (by simp [hy])
    have hx := h x (by simp)
    rw [List.map_cons, List.sum_cons, List.map_cons, List.sum_cons, Nat.cast_add, ih, mul_add]
    congr 1
    split
    · simp
    · rw [one_div, inv_pow, ← div_eq_mul_inv, eq_div_iff (by positivity)]
      push_cast
      rw [← pow_add]
      congr 1
      omega

theorem kraft_nat {l : List Nat} {M : Nat} (h : ∀ x ∈ l, x ≤ M) (hk : kraftSum l ≤ 1) :
    (l.map fun x => if x = 0 then 0 else 2 ^ (M - x)).sum ≤ 2 ^ M := by
  have h1 := kraft_scaled l M h
  have h2 : (((l.map fun x => if x = 0 then 0 else 2 ^ (M - x)).sum : Nat) : Rat) ≤ 2 ^ M := by
    rw [h1]
    have : (0 : Rat) < 2 ^ M := by positivity
    nlinarith
  exact_mod_cast h2

/-- The number of bits that a message with the given symbol frequencies takes with the given code lengths. -/
def encodedBits (freqs lens : List Nat) : Nat := ((freqs.zip lens).map fun p => p.1 * p.2).sum

theorem encodedBits_eq (f l : Array Nat) (hs : l.size = f.size) :
    encodedBits f.toList l.toList = ∑ i ∈ Finset.range f.size, f.getD i 0 * l.getD i 0 := by
  unfold encodedBits
  rw [← sum_list_range fun i => f.getD i 0 * l.getD i 0]
  congr 1
  apply List.ext_getElem
  · simp [hs]
  · intro i h1 h2
    have h : i < f.size := by simpa using h2
    have h' : i < l.size := by omega
    simp [h, h']

/-- **C10** The code lengths are optimal: for every histogram, no assignment of lengths of at most `maxBits` to the
symbols that gives every used symbol a code and satisfies Kraft's inequality (as those of every prefix code do) encodes a
message with these symbol frequencies in fewer bits. -/
theorem C10_optimal_lengths (freqs : Array Nat) (maxBits : Nat) (hsize : freqs.size ≤ 288) (h1 : 1 ≤ maxBits) (h15 : maxBits ≤ 15)
    (hcap : usedSymbols freqs.toList ≤ 2 ^ maxBits) :
    ∃ lens, lengthLimitedCodeLengths freqs maxBits = some lens ∧
      ∀ other : Array Nat, ∀ hs : other.size = freqs.size, (∀ l ∈ other.toList, l ≤ maxBits) → (∀ i (h : i < freqs.size), freqs[i] ≠ 0 → other[i] ≠ 0) →
        kraftSum other.toList ≤ 1 → encodedBits freqs.toList lens.toList ≤ encodedBits freqs.toList other.toList := by
  obtain ⟨lens, e, hl, -⟩ := C09_code_lengths freqs maxBits hsize h1 h15 hcap
  obtain ⟨lens', e', ho⟩ := lengthLimited_optimal freqs maxBits hsize h1 h15 (by rw [usedLeaves_length]; exact hcap)
  obtain rfl : lens = lens' := by rw [e] at e'; exact Option.some.inj e'
  refine ⟨lens, e, fun other hs hmax hused hk => ?_⟩
  rw [encodedBits_eq _ _ hl, encodedBits_eq _ _ hs]
  refine ho (fun i => other.getD i 0) ?_ ?_ ?_
  · intro i h hne
    have := hused i h hne
    simpa [show i < other.size by omega] using this
  · intro i h
    have h' : i < other.size := by omega
    simpa [h'] using hmax other[i] (by simp)
  · have := kraft_nat hmax hk
    rw [← sum_list_range fun i => if other.getD i 0 = 0 then 0 else 2 ^ (maxBits - other.getD i 0)]
    have e2 : (List.range freqs.size).map (fun i => if other.getD i 0 = 0 then 0 else 2 ^ (maxBits - other.getD i 0)) =
        other.toList.map fun x => if x = 0 then 0 else 2 ^ (maxBits - x) := by
      apply List.ext_getElem
      · simp [hs]
      · intro i h1 h2
        have h' : i < other.size := by simpa using h2
        simp [h']
    rw [e2]
    exact this

/-- The bits of a codeword of length `l`, most significant bit first (RFC 1951 section 3.1.1). -/
def codeword (code l : Nat) : List Bool := ((List.range l).map fun i => code.testBit i).reverse

theorem codeword_eq (code l : Nat) : codeword code l = bitsMsb code l := by
  unfold codeword bitsMsb
  apply List.ext_getElem
  · simp
  · intro i h1 h2
    simp
    congr 1
    omega

/-- **C11** For every set of code lengths that satisfies Kraft's inequality, the computed codes are the canonical ones of
RFC 1951 section 3.2.2: each fits in its length; the code of a longer length is after all those of a shorter length,
compared as bit strings; among equal lengths codes are consecutive in the order of the symbols; no codeword is a prefix of
another; and reading a codeword with the RFC's decoder yields its symbol, whatever follows. -/
theorem C11_canonical_codes (lens : Array Nat) (maxBits : Nat) (h15 : maxBits ≤ 15) (hmax : ∀ l ∈ lens.toList, l ≤ maxBits)
    (hkraft : kraftSum lens.toList ≤ 1) :
    ∃ codes, lengthsToSymbols lens maxBits = some codes ∧ ∃ hs : codes.size = lens.size,
      (∀ i (h : i < lens.size), lens[i] ≠ 0 → codes[i] < 2 ^ lens[i]) ∧
      (∀ i j (hi : i < lens.size) (hj : j < lens.size), lens[i] ≠ 0 → lens[i] < lens[j] → codes[i] < codes[j] / 2 ^ (lens[j] - lens[i])) ∧
      (∀ i j (hi : i < lens.size) (hj : j < lens.size), lens[i] ≠ 0 → lens[i] = lens[j] → i < j →
        codes[j] = codes[i] + ((lens.toList.drop i).take (j - i)).count lens[i]) ∧
      (∀ i j (hi : i < lens.size) (hj : j < lens.size), lens[i] ≠ 0 → lens[j] ≠ 0 → i ≠ j →
        ¬ codeword codes[i] lens[i] <+: codeword codes[j] lens[j]) ∧
      (∀ i (h : i < lens.size), lens[i] ≠ 0 → ∀ rest pos,
        decodeSym lens.toList ⟨codeword codes[i] lens[i] ++ rest, pos⟩ = some (i, ⟨rest, pos + lens[i]⟩)) := by
  have hmax' : ∀ i (hi : i < lens.size), lens[i] ≤ maxBits := fun i hi => hmax _ (by simp)
  obtain ⟨codes, e, hs, hc⟩ := lengthsToSymbols_spec lens maxBits hmax'
  have hk : kraft15 lens.toList ≤ 2 ^ 15 := by
    have := kraft15_rat lens.toList fun l hl => (hmax l hl).trans h15
    have h2 : (kraft15 lens.toList : Rat) ≤ 2 ^ 15 := by
      rw [this]
      have : (0 : Rat) < 2 ^ 15 := by positivity
      nlinarith
    exact_mod_cast h2
  have hcode : ∀ i (h : i < lens.size) (h' : i < codes.size), lens[i] ≠ 0 →
      codes[i] = firstCode lens.toList (lens[i] - 1) + rankLen lens.toList lens[i] i := by
    intro i h h' hne
    have := hc i h
    rw [Array.getElem?_eq_getElem h', Option.some.injEq, if_neg hne] at this
    exact this
  have hget : ∀ i (h : i < lens.size), lens.toList[i]? = some lens[i] := by
    intro i h
    rw [Array.getElem?_toList, Array.getElem?_eq_getElem h]
  have hfit : ∀ i (h : i < lens.size) (h' : i < codes.size), lens[i] ≠ 0 → codes[i] < 2 ^ lens[i] := by
    intro i h h' hne
    have h1 := firstCode_lt lens.toList (lens[i] - 1) (by have := hmax' i h; omega) hk
    rw [show lens[i] - 1 + 1 = lens[i] by omega] at h1
    have h2 := rankLen_lt lens.toList i lens[i] (hget i h)
    rw [hcode i h h' hne]
    omega
  have hdec : ∀ i (h : i < lens.size) (h' : i < codes.size), lens[i] ≠ 0 → ∀ rest pos,
      decodeSym lens.toList ⟨codeword codes[i] lens[i] ++ rest, pos⟩ = some (i, ⟨rest, pos + lens[i]⟩) := by
    intro i h h' hne rest pos
    rw [codeword_eq, hcode i h h' hne]
    exact decodeSym_code lens.toList i lens[i] (by omega) ((hmax' i h).trans h15) (hget i h) hk rest pos
  refine ⟨codes, e, hs, fun i h => hfit i h (by omega), ?_, ?_, ?_, fun i h => hdec i h (by omega)⟩
  · intro i j hi hj hne hlt
    rw [Nat.lt_iff_add_one_le, Nat.le_div_iff_mul_le (Nat.two_pow_pos _), hcode i hi (by omega) hne, hcode j hj (by omega) (by omega)]
    have h1 := firstCode_ge lens.toList (lens[i] - 1) (lens[j] - lens[i] - 1)
    rw [show lens[j] - lens[i] - 1 + 1 = lens[j] - lens[i] by omega, show lens[i] - 1 + 1 = lens[i] by omega,
      show lens[i] - 1 + (lens[j] - lens[i] - 1) + 1 = lens[j] - 1 by omega] at h1
    have h2 := rankLen_lt lens.toList i lens[i] (hget i hi)
    have h3 : (firstCode lens.toList (lens[i] - 1) + rankLen lens.toList lens[i] i + 1) * 2 ^ (lens[j] - lens[i]) ≤
        (firstCode lens.toList (lens[i] - 1) + cntLen lens.toList lens[i]) * 2 ^ (lens[j] - lens[i]) := Nat.mul_le_mul_right _ (by omega)
    rw [Nat.mul_comm] at h1
    omega
  · intro i j hi hj hne heq hij
    rw [hcode i hi (by omega) hne, hcode j hj (by omega) (by omega), ← heq, Nat.add_assoc]
    congr 1
    unfold rankLen
    conv_lhs => rw [show j = i + (j - i) by omega, List.take_add, List.filter_append, List.length_append]
    rw [List.count_eq_length_filter]
  · intro i j hi hj hni hnj hij hpre
    obtain ⟨t, ht⟩ := hpre
    have h1 := hdec i hi (by omega) hni t 0
    have h2 := hdec j hj (by omega) hnj [] 0
    rw [List.append_nil, ← ht, h1] at h2
    simp at h2
    exact hij h2.1

/-- **C12** For every match length from 3 to 258 the symbol is one of 257..285, the number of extra bits is that of the
symbol in RFC 1951 section 3.2.5, the extra value fits in it, and base plus extra value is the length. -/
theorem C12_length_symbols (len : Nat) (h3 : 3 ≤ len) (h258 : len ≤ 258) :
    ∃ s bits v base, getLengthSymbol len = some s ∧ getLengthExtraBits len = some bits ∧ getLengthExtraBitsValue len = some v ∧
      257 ≤ s ∧ s ≤ 285 ∧ lengthExtra[s - 257]? = some bits ∧ lengthBase[s - 257]? = some base ∧ v < 2 ^ bits ∧ base + v = len ∧
      getLengthSymbolExtraBits s = some bits := by
  obtain ⟨s, eb, v, a1, a2, a3, a4, a5, a6, a7, a8, a9, a10, a11⟩ := length_spec h3 h258
  exact ⟨s, eb, v, len - v, a1, a2, a3, a4, a5, a7, a11, a8, by omega, a6⟩

/-- **C12** For every distance from 1 to 32768 the symbol is one of 0..29, the number of extra bits is that of the symbol,
the extra value fits in it, and base plus extra value is the distance. -/
theorem C12_distance_symbols (dist : Nat) (h1 : 1 ≤ dist) (h2 : dist ≤ 32768) :
    getDistSymbol dist ≤ 29 ∧ distExtra[getDistSymbol dist]? = some (getDistExtraBits dist) ∧
      getDistExtraBitsValue dist < 2 ^ getDistExtraBits dist ∧
      (∃ base, distBase[getDistSymbol dist]? = some base ∧ base + getDistExtraBitsValue dist = dist) ∧
      getDistSymbolExtraBits (getDistSymbol dist) = some (getDistExtraBits dist) := by
  obtain ⟨a1, a2, a3, a4, a5, a6, a7⟩ := dist_spec h1 h2
  exact ⟨by omega, a3, a4, ⟨_, a7, by omega⟩, a2⟩

/-! ## Concrete cases -/

example :=
  C09_code_lengths #[1, 1, 0, 5, 7, 10, 14] 3 (by decide) (by decide) (by decide) (by decide)

/-- A case where the limit of 3 bits matters: the result costs no more than the given code, which costs 90. -/
example : ∃ lens, lengthLimitedCodeLengths #[1, 1, 0, 5, 7, 10, 14] 3 = some lens ∧ encodedBits [1, 1, 0, 5, 7, 10, 14] lens.toList ≤ 90 := by
  obtain ⟨lens, e, h⟩ := C10_optimal_lengths #[1, 1, 0, 5, 7, 10, 14] 3 (by decide) (by decide) (by decide) (by decide)
  exact ⟨lens, e, h #[3, 3, 0, 3, 3, 2, 2] rfl (by decide) (by decide) (by simp only [kraftSum]; norm_num)⟩

example : lengthsToSymbols #[3, 3, 3, 3, 3, 2, 4, 4] 7 = some #[2, 3, 4, 5, 6, 0, 14, 15] := by decide

example := C11_canonical_codes #[3, 3, 3, 3, 3, 2, 4, 4] 7 (by decide) (by decide) (by
  simp only [kraftSum]
  norm_num)

example : getLengthSymbol 130 = some 280 ∧ getDistSymbol 32767 = 29 ∧ getDistExtraBitsValue 32767 = 8190 := by
  decide +kernel

end Zopfli
