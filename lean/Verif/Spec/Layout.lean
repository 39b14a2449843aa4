import Verif.Spec.Shape
/-!
# Vocabulary for how a stream is divided: blocks, pieces and chunks
-/

namespace Zopfli
open Rfc

/-- The blocks are read one after the other. -/
inductive Reads : Bits → List Block → Bits → Prop
  | nil (s : Bits) : Reads s [] s
  | cons {s s1 s2 : Bits} {b : Block} {l : List Block} : readBlock s = some (b, s1) → Reads s1 l s2 → Reads s (b :: l) s2

/-- A piece of a stream: some consecutive blocks, the data they stand for and the number of bits they take. -/
structure Piece where
  data : List UInt8
  blocks : List Block
  bits : Nat

/-- Reading the bits from `s` to `s'` gives the blocks of the pieces, and each piece takes the number of bits it says. -/
inductive Layout : Bits → List Piece → Bits → Prop
  | nil (s : Bits) : Layout s [] s
  | cons {s s1 s2 : Bits} {p : Piece} {l : List Piece} :
      Reads s p.blocks s1 → s1.pos = s.pos + p.bits → Layout s1 l s2 → Layout s (p :: l) s2

/-- After the bytes `before`, each piece in turn decodes to its data. -/
def Decodes : (before : List UInt8) → List Piece → Prop
  | _, [] => True
  | before, p :: l => expand before.toArray p.blocks = some (before ++ p.data).toArray ∧ Decodes (before ++ p.data) l

/-- A block that is not stored. -/
def IsCompressed (b : Block) : Prop :=
  match b.body with
  | .stored _ => False
  | _ => True

/-- A list cut every `n` elements. -/
def IsCut {α : Type} (n : Nat) (l : List α) (parts : List (List α)) : Prop :=
  parts.flatten = l ∧ (∀ x ∈ parts, x ≠ []) ∧ (∀ x ∈ parts.dropLast, x.length = n) ∧ ∀ x ∈ parts, x.length ≤ n

/-- A piece is one compressed block, or its data stored, in blocks of 65535 bytes of which only the last is shorter. -/
def Piece.Uniform (p : Piece) : Prop :=
  (∃ b, p.blocks = [b] ∧ IsCompressed b) ∨
  (p.data ≠ [] ∧ ∃ parts, IsCut 65535 p.data parts ∧ p.blocks.map (·.body) = parts.map .stored)

/-- The bits taken at a byte boundary by `len` bytes in stored blocks: five bytes for each of the blocks. -/
def storedBits (len : Nat) : Nat := 8 * len + 40 * ((len + 65534) / 65535)

/-- The chunks an encoder compresses: one for each write; one empty chunk when nothing is written. -/
def chunksOfWrites : List (List UInt8) → List (List UInt8)
  | [] => [[]]
  | w :: l => w :: l

/-- `P history chunk pieces` holds for each chunk, the bytes before it and the corresponding pieces. -/
def EachChunk (P : List UInt8 → List UInt8 → List Piece → Prop) : List UInt8 → List (List UInt8) → List (List Piece) → Prop
  | _, [], [] => True
  | before, w :: ws, ps :: pss => P before w ps ∧ EachChunk P (before ++ w) ws pss
  | _, _, _ => False

/-- The pieces partition the chunk: they are not more than `limit` (but at least one), together they decode, after the bytes
`before`, to the chunk, none is empty unless the chunk is, and each is one compressed block or stored. -/
structure Partition (limit : Nat) (before chunk : List UInt8) (pieces : List Piece) : Prop where
  data : (pieces.map (·.data)).flatten = chunk
  decodes : Decodes before pieces
  nonempty : chunk ≠ [] → ∀ p ∈ pieces, p.data ≠ []
  some : 1 ≤ pieces.length
  limit : pieces.length ≤ max 1 limit
  uniform : ∀ p ∈ pieces, p.Uniform

/-- The most bits a stream can take: 8 for each byte of data, 40 for each full 65535 bytes of each chunk, and 42 for each
of the at most `limit` pieces of each chunk; at most 7 more of padding. -/
def dynamicBound (limit : Nat) (writes : List (List UInt8)) : Nat :=
  ((chunksOfWrites writes).map fun w => 8 * w.length + 40 * (w.length / 65535) + 42 * max 1 limit).sum + 7

end Zopfli
