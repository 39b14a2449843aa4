import Verif.Spec.Layout
import Verif.Spec.Search
/-! # Vocabulary for the shortest blocks -/

namespace Zopfli
open Rfc

/-- Matches at `pos` can be searched for without giving up: the search has to go past at most 8192 positions; and no run of
exactly 257 or 258 equal bytes starts there. -/
structure Searchable (data : Array UInt8) (pos : Nat) : Prop where
  few : sharing data pos ≤ 8192
  run257 : ¬ StartsRun data pos 257
  run258 : ¬ StartsRun data pos 258

/-- No block with the fixed codes that stands for `chunk` after the bytes `before` and copies from within 32767 bytes only
takes fewer bits. -/
def NoShorterFixed (before chunk : List UInt8) (bits : Nat) : Prop :=
  ∀ (s s' : Bits) (final : Bool) (syms : List Sym), readBlock s = some (⟨final, .fixed syms⟩, s') →
    expandSyms before.toArray syms = some (before ++ chunk).toArray → (∀ len dist, .copy len dist ∈ syms → dist ≤ 32767) →
    s.pos + bits ≤ s'.pos

/-- All the blocks use the fixed codes. -/
def AllFixed (blocks : List Block) : Prop := ∀ b ∈ blocks, ∃ syms, b.body = .fixed syms

/-- `P before piece` holds for each of the pieces and the bytes before it. -/
def EachPiece (P : List UInt8 → Piece → Prop) : List UInt8 → List Piece → Prop
  | _, [] => True
  | before, p :: l => P before p ∧ EachPiece P (before ++ p.data) l

end Zopfli
