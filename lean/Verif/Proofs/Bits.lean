import Verif.Proofs.Huffman
import Verif.Model.Deflate
/-! # Reading back what `add_bits` and `add_huffman_bits` write -/

namespace Zopfli
open Rfc

/-- The bits of a number, least significant first. -/
def bitsLsb (v n : Nat) : List Bool := (List.range n).map fun i => v.testBit i

/-- The writer operations for a list of bits. -/
def bitOps (l : List Bool) : List WOp := l.map WOp.bit

theorem bitOps_append (a b : List Bool) : bitOps (a ++ b) = bitOps a ++ bitOps b := List.map_append
theorem bitOps_flatten (l : List (List Bool)) : (l.map bitOps).flatten = bitOps l.flatten := by
  induction l with
  | nil => rfl
  | cons a l ih => simp only [List.map_cons, List.flatten_cons, ih, bitOps_append]

theorem addBits_eq (v n : Nat) : addBits v n = bitOps (bitsLsb v n) := by simp [addBits, bitOps, bitsLsb]
theorem addHuffmanBits_eq (v n : Nat) : addHuffmanBits v n = bitOps (bitsMsb v n) := by
  simp [addHuffmanBits, bitOps, bitsMsb]

theorem bitsLsb_length (v n : Nat) : (bitsLsb v n).length = n := by simp [bitsLsb]

theorem bitsLsb_succ (v n : Nat) : bitsLsb v (n + 1) = (v % 2 == 1) :: bitsLsb (v / 2) n := by
  unfold bitsLsb
  rw [List.range_succ_eq_map, List.map_cons, List.map_map]
  congr 1
  · rw [Nat.testBit_zero]
    rcases Nat.mod_two_eq_zero_or_one v with h | h <;> simp [h]
  · apply List.map_congr_left
    intro i _
    simp [Nat.testBit_succ]

theorem readNat (n : Nat) : ∀ (v : Nat) (rest : List Bool) (pos : Nat),
    Bits.nat n ⟨bitsLsb v n ++ rest, pos⟩ = some (v % 2 ^ n, ⟨rest, pos + n⟩) := by
  induction n with
  | zero => intro v rest pos; simp [Bits.nat, bitsLsb, Nat.mod_one]
  | succ n ih =>
    intro v rest pos
    rw [bitsLsb_succ]
    show (do let (v, s) ← Bits.nat n ⟨bitsLsb (v / 2) n ++ rest, pos + 1⟩
             return (Bool.toNat _ + 2 * v, s) : Option (Nat × Bits)) = _
    rw [ih]
    show some (_, _) = _
    rw [show pos + 1 + n = pos + (n + 1) by omega]
    congr 2
    rw [Nat.pow_succ, Nat.mul_comm (2 ^ n) 2, Nat.mod_mul]
    congr 1
    rcases Nat.mod_two_eq_zero_or_one v with h | h <;> simp [h]

theorem readNat_lt {n v : Nat} (h : v < 2 ^ n) (rest : List Bool) (pos : Nat) :
    Bits.nat n ⟨bitsLsb v n ++ rest, pos⟩ = some (v, ⟨rest, pos + n⟩) := by
  rw [readNat, Nat.mod_eq_of_lt h]

/-- Trailing unused symbols do not change the code. -/
theorem decodeFrom_zeros (xs : List Nat) (k : Nat) : ∀ (fuel len code first : Nat) (s : Bits),
    decodeFrom (xs ++ List.replicate k 0) fuel len code first s = decodeFrom xs fuel len code first s := by
  intro fuel
  induction fuel with
  | zero => intros; rfl
  | succ fuel ih =>
    intro len code first s
    unfold decodeFrom
    simp only [symsOfLen_zeros xs k (len + 1) (by omega), ih]

theorem decodeSym_zeros (xs : List Nat) (k : Nat) (s : Bits) :
    decodeSym (xs ++ List.replicate k 0) s = decodeSym xs s := decodeFrom_zeros xs k ..

theorem kraft15_zeros (xs : List Nat) (k : Nat) : kraft15 (xs ++ List.replicate k 0) = kraft15 xs := by
  simp [kraft15]

/-- A usable set of code lengths. -/
structure CodeOk (lens : Array Nat) (maxBits : Nat) : Prop where
  le : ∀ i (h : i < lens.size), lens[i] ≤ maxBits
  kraft : kraft15 lens.toList ≤ 2 ^ 15

/-- The codewords computed by `lengths_to_symbols`, written by `add_huffman_bits`, decode to their symbols. -/
theorem huff_decode {lens : Array Nat} {maxBits : Nat} (h : CodeOk lens maxBits) (hm : maxBits ≤ 15) :
    Ret (lengthsToSymbols lens maxBits) fun syms => syms.size = lens.size ∧
      ∀ i (hi : i < lens.size), lens[i] ≠ 0 → ∃ c, syms[i]? = some c ∧ ∀ (rest : List Bool) (pos : Nat),
        decodeSym lens.toList ⟨bitsMsb c lens[i] ++ rest, pos⟩ = some (i, ⟨rest, pos + lens[i]⟩) := by
  refine Ret.mono (lengthsToSymbols_spec lens maxBits h.le) ?_
  rintro syms ⟨h1, h2⟩
  refine ⟨h1, fun i hi hne => ⟨_, by rw [h2 i hi, if_neg hne], fun rest pos => ?_⟩⟩
  have := h.le i hi
  exact decodeSym_code lens.toList i lens[i] (by omega) (by omega) (by simp [hi]) h.kraft rest pos

end Zopfli
