import Verif.Model.Lz77
import Verif.Spec.Shape
/-!
# Vocabulary for sequences of literals and back-references
-/

namespace Rfc

/-- RFC 1951 section 3.2.5: the symbol of a match length from 3 to 258 is the last one whose base length does not exceed
it (the bases of the table are increasing). -/
def lengthSymbol (len : Nat) : Nat := 256 + (lengthBase.filter (· ≤ len)).length

/-- RFC 1951 section 3.2.5: the symbol of a distance is the last one whose base distance does not exceed it. -/
def distSymbol (dist : Nat) : Nat := (distBase.filter (· ≤ dist)).length - 1

end Rfc

namespace Zopfli

/-- The items DEFLATE can express: literals below 256, lengths 3 to 258, distances 1 to 32768. -/
def LitLen.InRange : LitLen → Prop
  | .literal b => b < 256
  | .lengthDist len dist => 3 ≤ len ∧ len ≤ 258 ∧ 1 ≤ dist ∧ dist ≤ 32768

/-- The literal/length symbol of an item. -/
def LitLen.llSymbol : LitLen → Nat
  | .literal b => b
  | .lengthDist len _ => Rfc.lengthSymbol len

/-- The distance symbol of an item, if it has one. -/
def LitLen.dSymbol : LitLen → Option Nat
  | .literal _ => none
  | .lengthDist _ dist => some (Rfc.distSymbol dist)

/-- The store obtained by adding items, each with its position, one after the other to an empty store. -/
def storeOf (items : List (LitLen × Nat)) : Option Lz77Store :=
  items.foldlM (fun s x => s.appendStoreItem x.1 x.2) Lz77Store.new

/-- The item is right at position `pos` of the data: a literal is the byte there; a match of length 3 to 258 at a
distance 1 to 32767, not before the start, copies the bytes there. -/
def ItemOk (data : Array UInt8) (pos : Nat) : LitLen → Prop
  | .literal b => ∃ u, data[pos]? = some u ∧ u.toNat = b
  | .lengthDist len dist => 3 ≤ len ∧ len ≤ 258 ∧ 1 ≤ dist ∧ dist ≤ 32767 ∧ dist ≤ pos ∧ pos + len ≤ data.size ∧
      ∀ k, k < len → data[pos + k]? = data[pos - dist + k]?

/-- The items describe the data from `start` to `stop`. -/
def Parses (data : Array UInt8) : Nat → List LitLen → Nat → Prop
  | start, [], stop => start = stop
  | start, x :: xs, stop => ItemOk data start x ∧ Parses data (start + x.size) xs stop

/-- The items with their positions, one after the other from `start`. -/
def placed : (start : Nat) → List LitLen → List (LitLen × Nat)
  | _, [] => []
  | start, x :: xs => (x, start) :: placed (start + x.size) xs

/-- The position in the data after the first `k` items. -/
def posAfter (start : Nat) (xs : List LitLen) (k : Nat) : Nat := start + ((xs.take k).map LitLen.size).sum

/-- Code lengths as RFC 1951 wants them for a dynamic block: at most 286 literal/length and 30 distance symbols have a code,
the end of block has one, and both codes are complete with lengths up to 15. -/
structure GoodTree (ll d : Array Nat) : Prop where
  llSize : ll.size = 288
  dSize : d.size = 32
  llMax : ∀ l ∈ ll.toList, l ≤ 15
  dMax : ∀ l ∈ d.toList, l ≤ 15
  llRange : ∀ i (h : i < ll.size), 286 ≤ i → ll[i] = 0
  dRange : ∀ i (h : i < d.size), 30 ≤ i → d[i] = 0
  endOfBlock : ∃ h : 256 < ll.size, ll[256] ≠ 0
  llComplete : Rfc.kraftSum ll.toList = 1
  dComplete : Rfc.kraftSum d.toList = 1

/-- The writer operations are bits only, namely these. -/
def WritesBits (ops : List WOp) (bits : List Bool) : Prop := ops = bits.map .bit

end Zopfli
