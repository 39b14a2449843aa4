import Verif.Spec.Search
/-!
# C61, C62: what it means for bytes to repeat
-/

namespace Zopfli

/-- Every byte of `w` from the `p`-th on is the one `p` bytes before. -/
def Periodic (p : Nat) (w : List UInt8) : Prop := ∀ i, p + i < w.length → w[p + i]? = w[i]?

/-- From position `a` on, every byte of `w` is the one `p` bytes before. -/
def RepeatsFrom (a p : Nat) (w : List UInt8) : Prop := ∀ i, a ≤ i → i < w.length → w[i]? = w[i - p]?

/-- `bits` are few for a chunk that, after the bytes `before`, repeats the bytes at a distance `d` of at most 8192 (with at most `e` extra
bits): at most `13 + e` for every 258 bytes, and `28 + e` more.  (If the distance is more than 257, no runs of exactly 257 or 258 equal bytes
may begin in the chunk.) -/
def CheapRepeat (before chunk : List UInt8) (bits : Nat) : Prop :=
  ∀ d e, 1 ≤ d → d ≤ before.length → d ≤ 2 ^ (e + 2) → e ≤ 11 → 9 * chunk.length < 2 ^ 24 →
    RepeatsFrom before.length d (before ++ chunk) →
    (257 < d → ∀ pos, before.length ≤ pos → ¬ StartsRun (before ++ chunk).toArray pos 257 ∧ ¬ StartsRun (before ++ chunk).toArray pos 258) →
    bits ≤ 10 + (13 + e) * (chunk.length / 258) + (18 + e)

/-- The same for a chunk that is written in up to `pieces` blocks: `bits` are at most `13 + e` for every 258 bytes, and `30 + e` for each
block.  (If the distance is more than 257, there may be no 257 equal bytes in a row in the chunk.) -/
def CheapRepeats (pieces : Nat) (before chunk : List UInt8) (bits : Nat) : Prop :=
  ∀ d e, 1 ≤ d → d ≤ before.length → d ≤ 2 ^ (e + 2) → e ≤ 11 → RepeatsFrom before.length d (before ++ chunk) →
    (257 < d → ∀ pos, before.length ≤ pos → runLength (before ++ chunk).toArray pos < 257) →
    bits ≤ (13 + e) * (chunk.length / 258) + pieces * (30 + e)

end Zopfli
