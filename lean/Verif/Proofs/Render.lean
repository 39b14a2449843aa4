import Verif.Proofs.Bits
/-! # The bits that a sequence of writer operations stands for -/

namespace Zopfli
open Rfc

/-- The number of padding bits at bit position `pos`. -/
def padLen (pos : Nat) : Nat := (8 - pos % 8) % 8

/-- The bits written by the operations, starting at bit position `pos`; `none` when whole bytes are written in the
middle of a byte. -/
def render : Nat → List WOp → Option (List Bool)
  | _, [] => some []
  | pos, .bit b :: ops => (render (pos + 1) ops).map (b :: ·)
  | pos, .align :: ops => (render (pos + padLen pos) ops).map (List.replicate (padLen pos) false ++ ·)
  | pos, .bytes l :: ops => if pos % 8 = 0 then (render (pos + 8 * l.length) ops).map (bytesBits l ++ ·) else none

theorem byteBits_eq (b : UInt8) : byteBits b = bitsLsb b.toNat 8 := rfl

theorem byteBits_length (b : UInt8) : (byteBits b).length = 8 := by simp [byteBits]

theorem bytesBits_length (l : List UInt8) : (bytesBits l).length = 8 * l.length := by
  induction l with
  | nil => rfl
  | cons b l ih =>
    show (byteBits b ++ bytesBits l).length = _
    rw [List.length_append, byteBits_length, ih, List.length_cons]; omega

theorem bytesBits_append (a b : List UInt8) : bytesBits (a ++ b) = bytesBits a ++ bytesBits b := by
  simp [bytesBits]

theorem bytesBits_cons (b : UInt8) (l : List UInt8) : bytesBits (b :: l) = byteBits b ++ bytesBits l := rfl

theorem render_append : ∀ {a b : List WOp} {pos : Nat} {x y : List Bool}, render pos a = some x → render (pos + x.length) b = some y →
    render pos (a ++ b) = some (x ++ y)
  | [], b, pos, x, y, h1, h2 => by cases h1; exact h2
  | .bit v :: a, b, pos, x, y, h1, h2 => by
    rw [render, Option.map_eq_some_iff] at h1
    obtain ⟨x', e, rfl⟩ := h1
    rw [List.cons_append, render, render_append e (by rw [← h2]; congr 1; simp; omega)]
    rfl
  | .align :: a, b, pos, x, y, h1, h2 => by
    rw [render, Option.map_eq_some_iff] at h1
    obtain ⟨x', e, rfl⟩ := h1
    rw [List.cons_append, render, render_append e (by rw [← h2]; congr 1; simp; omega)]
    simp
  | .bytes l :: a, b, pos, x, y, h1, h2 => by
    rw [render] at h1
    split at h1
    · rename_i hp
      rw [Option.map_eq_some_iff] at h1
      obtain ⟨x', e, rfl⟩ := h1
      rw [List.cons_append, render, if_pos hp, render_append e (by rw [← h2]; congr 1; simp [bytesBits_length]; omega)]
      simp
    · cases h1

theorem render_bitOps (bits : List Bool) : ∀ pos, render pos (bitOps bits) = some bits := by
  induction bits with
  | nil => intro pos; rfl
  | cons b bits ih => intro pos; show (render (pos + 1) (bitOps bits)).map _ = _; rw [ih]; rfl

theorem padLen_mod (pos : Nat) : (pos + padLen pos) % 8 = 0 := by unfold padLen; omega
theorem padLen_lt (pos : Nat) : padLen pos < 8 := by unfold padLen; omega

theorem bitsLsb_add (v m n : Nat) : bitsLsb v (m + n) = bitsLsb v m ++ bitsLsb (v / 2 ^ m) n := by
  unfold bitsLsb
  rw [List.range_add, List.map_append, List.map_map]
  congr 1
  apply List.map_congr_left
  intro i _
  simp only [Function.comp]
  rw [Nat.testBit_div_two_pow, Nat.add_comm]

theorem bitsLsb_mod (v n : Nat) : bitsLsb (v % 2 ^ n) n = bitsLsb v n := by
  unfold bitsLsb
  apply List.map_congr_left
  intro i hi
  rw [List.mem_range] at hi
  rw [Nat.testBit_mod_two_pow]
  simp [hi]

theorem byteBits_ofNat (n : Nat) : byteBits (UInt8.ofNat n) = bitsLsb n 8 := by
  rw [byteBits_eq, UInt8.toNat_ofNat', bitsLsb_mod n 8]

/-- Two bytes, least significant first. -/
theorem bytes16 (n : Nat) : byteBits (UInt8.ofNat (n % 256)) ++ byteBits (UInt8.ofNat (n / 256 % 256)) = bitsLsb n 16 := by
  rw [byteBits_ofNat, byteBits_ofNat, show (256 : Nat) = 2 ^ 8 from rfl, bitsLsb_mod, bitsLsb_mod, ← bitsLsb_add]

theorem readBytes : ∀ (l : List UInt8) (rest : List Bool) (pos : Nat),
    Bits.bytes l.length ⟨bytesBits l ++ rest, pos⟩ = some (l, ⟨rest, pos + 8 * l.length⟩)
  | [], rest, pos => rfl
  | b :: l, rest, pos => by
    rw [List.length_cons, Bits.bytes, bytesBits_cons, List.append_assoc, byteBits_eq, readNat_lt b.toNat_lt, some_bind]
    dsimp only
    rw [readBytes l, some_bind]
    show some (_, _) = _
    rw [UInt8.ofNat_toNat, show pos + 8 + 8 * l.length = pos + 8 * (l.length + 1) by omega]

theorem next_cons (b : Bool) (r : List Bool) (pos : Nat) : Bits.next ⟨b :: r, pos⟩ = some (b, ⟨r, pos + 1⟩) := rfl

theorem align_pad (rest : List Bool) (pos : Nat) :
    Bits.align ⟨List.replicate (padLen pos) false ++ rest, pos⟩ = some ⟨rest, pos + padLen pos⟩ := by
  unfold Bits.align
  dsimp only
  rw [show (8 - pos % 8) % 8 = padLen pos from rfl, if_pos (by simp)]
  simp

/-- What a stored block renders to. -/
theorem render_storedBlock (final : Bool) (chunk : List UInt8) (pos : Nat) :
    render pos (storedBlock final chunk) = some ([final, false, false] ++ List.replicate (padLen (pos + 3)) false ++
      bitsLsb chunk.length 16 ++ bitsLsb (2 ^ 64 - 1 - chunk.length) 16 ++ bytesBits chunk) := by
  have hp := padLen_mod (pos + 3)
  unfold storedBlock addByte
  dsimp only [List.cons_append, List.nil_append]
  simp only [render]
  rw [show pos + 1 + 1 + 1 = pos + 3 from rfl]
  simp only [List.length_cons, List.length_nil]
  rw [if_pos hp, if_pos (by omega), if_pos (by omega), if_pos (by omega), if_pos (by omega)]
  simp only [Option.map_some, List.append_nil, ← bytes16, bytesBits_cons, show bytesBits [] = [] from rfl]
  simp

/-- A stored block is read back. -/
theorem readBlock_stored {final : Bool} {chunk : List UInt8} (h : chunk.length ≤ 65535) (rest : List Bool) (pos : Nat) :
    readBlock ⟨([final, false, false] ++ List.replicate (padLen (pos + 3)) false ++
      bitsLsb chunk.length 16 ++ bitsLsb (2 ^ 64 - 1 - chunk.length) 16 ++ bytesBits chunk) ++ rest, pos⟩
      = some (⟨final, .stored chunk⟩, ⟨rest, pos + ([final, false, false] ++ List.replicate (padLen (pos + 3)) false ++
      bitsLsb chunk.length 16 ++ bitsLsb (2 ^ 64 - 1 - chunk.length) 16 ++ bytesBits chunk).length⟩) := by
  simp only [List.append_assoc]
  unfold readBlock
  rw [List.cons_append, next_cons, some_bind]
  dsimp only
  have h2 := readNat_lt (n := 2) (v := 0) (by omega) (List.replicate (padLen (pos + 3)) false ++ (bitsLsb chunk.length 16 ++
    (bitsLsb (2 ^ 64 - 1 - chunk.length) 16 ++ (bytesBits chunk ++ rest)))) (pos + 1)
  have e : bitsLsb 0 2 = [false, false] := rfl
  rw [e] at h2
  rw [h2, some_bind]
  dsimp only
  rw [if_pos rfl, align_pad, some_bind, readNat_lt (by omega), some_bind]
  dsimp only
  rw [readNat, some_bind]
  dsimp only
  rw [if_neg (by omega), readBytes, some_bind]
  show some (_, _) = _
  congr 3
  simp [bitsLsb_length, bytesBits_length]
  omega

end Zopfli
