import Verif.Spec.Items
import Verif.Spec.Layout
import Verif.Spec.Shape
/-!
# Predicted sizes and the division of a sequence of items into blocks
-/

namespace Zopfli

/-- The number of bits the encoder writes for a block of the given type made of these items. -/
def writtenBits (bt : BlockType) (items : List LitLen) : Nat :=
  match (do addLz77Block bt false #[] (← storeOf (placed 0 items)) 0 items.length) with
  | some ops => ((bitSequence [] ops).getD []).length
  | none => 0

/-- The predicted size of a block: that of the smallest of its stored, dynamic and (if `withFixed`) fixed representations. -/
def predictedBits (withFixed : Bool) (items : List LitLen) : Nat :=
  min (storedBits (items.map LitLen.size).sum)
    (if withFixed then min (writtenBits .fixed items) (writtenBits .dynamic items) else writtenBits .dynamic items)

/-- The items with index `a` up to `b`. -/
def itemsBetween (xs : List LitLen) (a b : Nat) : List LitLen := (xs.take b).drop a

/-- The blocks of `xs` between the given boundaries. -/
def blocksOf (xs : List LitLen) : (from_ : Nat) → (boundaries : List Nat) → List (List LitLen)
  | a, [] => [xs.drop a]
  | a, b :: l => itemsBetween xs a b :: blocksOf xs b l

/-- The block from `a` to `b` is one of the blocks when `n` items are cut at the points `sp`. -/
structure IsBlock (n : Nat) (sp : List Nat) (a b : Nat) : Prop where
  lt : a < b
  left : a = 0 ∨ a ∈ sp
  right : b = n ∨ b ∈ sp
  whole : ∀ x ∈ sp, ¬ (a < x ∧ x < b)

/-- The range of items that the encoder looks at to decide whether and where to cut a block: the block, except that the last
block, once there is any cut, is looked at without its last item. -/
def Examined (n : Nat) (sp : List Nat) (a e : Nat) : Prop :=
  ∃ b, IsBlock n sp a b ∧ e = if b = n ∧ sp ≠ [] then b - 1 else b

/-- The cost of cutting the range from `a` to `e` at `x`. -/
def cutCost (cost : Nat → Nat → Nat) (a e x : Nat) : Nat := cost a x + cost x e

/-- `x` is the best cut of the range: in a range of at most 1024 items, no cut is cheaper, and none of the earlier cuts is as
cheap; in a longer one, none of the nine evenly spaced cuts is cheaper. -/
structure BestCut (cost : Nat → Nat → Nat) (a e x : Nat) : Prop where
  left : a < x
  right : x < e
  least : e - a ≤ 1024 → ∀ y, a < y → y < e → cutCost cost a e x ≤ cutCost cost a e y
  first : e - a ≤ 1024 → ∀ y, a < y → y < x → cutCost cost a e x < cutCost cost a e y
  sampled : 1024 < e - a → ∀ i, i < 9 → cutCost cost a e x ≤ cutCost cost a e (a + 1 + (i + 1) * ((e - a - 1) / 10))

/-- The cuts come about one by one: each is the best cut of a block of at least ten items, is not after the block's first
item, and costs no more than the block. -/
inductive CutOneByOne (cost : Nat → Nat → Nat) (n : Nat) : List Nat → Prop
  | nil : CutOneByOne cost n []
  | cut {sp sp' : List Nat} {a e x : Nat} (before : CutOneByOne cost n sp) (examined : Examined n sp a e) (long : 10 ≤ e - a)
      (best : BestCut cost a e x) (inside : x ≠ a + 1) (worth : cutCost cost a e x ≤ cost a e) (perm : sp'.Perm (x :: sp))
      (sorted : sp'.Pairwise (· < ·)) : CutOneByOne cost n sp'

/-- No block is worth cutting any more: each has fewer than ten items, or its best cut costs more than the block or is after
its first item. -/
def NothingLeftToCut (cost : Nat → Nat → Nat) (n : Nat) (sp : List Nat) : Prop :=
  ∀ a e, Examined n sp a e → e - a < 10 ∨ ∃ x, BestCut cost a e x ∧ (x = a + 1 ∨ cost a e < cutCost cost a e x)

/-- The total predicted size of a division into blocks. -/
def totalPredicted (withFixed : List LitLen → Bool) (blocks : List (List LitLen)) : Nat := (blocks.map fun p => predictedBits (withFixed p) p).sum

/-- `parts` are the items found by the optimal parser for the bytes between the positions `cuts`, one part after the other. -/
def OptimalParts (F : FloatOps) (o : Options) (data : Array UInt8) (stop : Nat) : (start : Nat) → (cuts : List Nat) → (parts : List (List LitLen)) → Prop
  | start, [], parts => ∃ s, lz77Optimal F (.lmc (.new (stop - start))) data start stop o.iterationCount o.iterationsWithoutImprovement = some s ∧
      parts = [s.litlens.toList]
  | start, c :: cuts, parts => ∃ s rest, lz77Optimal F (.lmc (.new (c - start))) data start c o.iterationCount o.iterationsWithoutImprovement = some s ∧
      parts = s.litlens.toList :: rest ∧ OptimalParts F o data stop c cuts rest

end Zopfli
