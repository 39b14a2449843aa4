import Verif.Spec.Items
/-!
# The bits of a block under given code lengths
-/

namespace Zopfli
open Rfc

/-- RFC 1951 section 3.2.5: an item takes the code of its literal/length symbol and that symbol's extra bits and, for a
match, the code of its distance symbol and that symbol's extra bits. -/
def LitLen.codedBits (ll d : Array Nat) : LitLen → Nat
  | .literal b => ll.getD b 0
  | .lengthDist len dist =>
    ll.getD (lengthSymbol len) 0 + lengthExtra.getD (lengthSymbol len - 257) 0 + d.getD (distSymbol dist) 0 + distExtra.getD (distSymbol dist) 0

/-- The bits of the items and the end of block symbol. -/
def bodyBits (ll d : Array Nat) (items : List LitLen) : Nat := (items.map (LitLen.codedBits ll d)).sum + ll.getD 256 0

/-- The code lengths can code the items: both tables have lengths of at most 15 that satisfy Kraft's inequality, and every
symbol of the items and the end of block have a code. -/
structure CanCode (ll d : Array Nat) (items : List LitLen) : Prop where
  llSize : ll.size = 288
  dSize : d.size = 32
  llMax : ∀ l ∈ ll.toList, l ≤ 15
  dMax : ∀ l ∈ d.toList, l ≤ 15
  llKraft : kraftSum ll.toList ≤ 1
  dKraft : kraftSum d.toList ≤ 1
  endOfBlock : ll.getD 256 0 ≠ 0
  llUsed : ∀ x ∈ items, ll.getD x.llSymbol 0 ≠ 0
  dUsed : ∀ x ∈ items, ∀ t, x.dSymbol = some t → d.getD t 0 ≠ 0

end Zopfli
