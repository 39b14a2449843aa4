import Verif.Spec.Container
import Verif.Spec.Shape
/-!
# Damage to data
-/

namespace Zopfli
open Rfc

/-- All changed bits lie within 32 consecutive ones. -/
def Burst (x y : List Bool) : Prop :=
  ∃ pre w w' post, x = pre ++ w ++ post ∧ y = pre ++ w' ++ post ∧ w.length = w'.length ∧ w.length ≤ 32 ∧ w ≠ w'

/-- Two bits, fewer than `2^32 - 1` bits apart, have been inverted. -/
def TwoBits (x y : List Bool) : Prop :=
  ∃ pre b mid c post, x = pre ++ b :: mid ++ c :: post ∧ y = pre ++ (!b) :: mid ++ (!c) :: post ∧ mid.length + 1 < 2 ^ 32 - 1

/-- One byte has been changed. -/
def OneByte (x y : List UInt8) : Prop := ∃ pre a a' post, x = pre ++ a :: post ∧ y = pre ++ a' :: post ∧ a ≠ a'

/-- One or both of two bytes, fewer than 65521 apart, have been changed. -/
def TwoBytes (x y : List UInt8) : Prop :=
  ∃ pre a a' mid b b' post, x = pre ++ a :: mid ++ b :: post ∧ y = pre ++ a' :: mid ++ b' :: post ∧ mid.length + 1 < 65521 ∧ (a ≠ a' ∨ b ≠ b')

/-- Changes of the data that the checks of a format always detect.  gzip: changes of the length (unless it is by a multiple of
`2^32`), changes within 32 consecutive bits, changes of two bits.  zlib: changes of one or two bytes. -/
def Detectable (fmt : Format) (x y : List UInt8) : Prop :=
  match fmt with
  | .gzip => x.length % 2 ^ 32 ≠ y.length % 2 ^ 32 ∨ Burst (bytesBits x) (bytesBits y) ∨ TwoBits (bytesBits x) (bytesBits y)
  | .zlib => OneByte x y ∨ TwoBytes x y
  | .deflate => False

/-- The last `n` bytes. -/
def lastBytes (n : Nat) (l : List UInt8) : List UInt8 := l.drop (l.length - n)

end Zopfli
