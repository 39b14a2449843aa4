import Verif.Model.Ieee
import Verif.Spec.Items
import Verif.Spec.Search
/-!
# Vocabulary for estimated costs

The costs the encoder estimates for a symbol are those of information theory: with `c` of `t` symbols being that one, it costs
`log2 t - log2 c` bits.  The numbers here are rational; only the logarithm is that of the platform.
-/

namespace Zopfli

/-- The platform's base-2 logarithm of a positive integer. -/
def lgOf (log2 : Fp → Fp) (n : Nat) : ℚ :=
  match log2 (Fp.round64 n) with
  | .fin q => q
  | _ => 0

/-- What a symbol costs in bits if `counts` says how often each occurs: `log2 (total / count)`; one that does not occur is taken to cost
`log2 total`. (If none occurs, all are taken to be equally likely.) -/
def surprise (lg : Nat → ℚ) (counts : Array Nat) (symbol : Nat) : ℚ :=
  let total := if counts.toList.sum = 0 then counts.size else counts.toList.sum
  match counts.getD symbol 0 with
  | 0 => lg total
  | c => lg total - lg c

/-- The estimated cost of an item: that of its symbols, and the extra bits. -/
def estimate (lg : Nat → ℚ) (ll d : Array Nat) : LitLen → ℚ
  | .literal b => surprise lg ll b
  | .lengthDist len dist =>
    (Rfc.lengthExtra.getD (Rfc.lengthSymbol len - 257) 0 : ℚ) + (Rfc.distExtra.getD (Rfc.distSymbol dist) 0 : ℚ) +
      surprise lg ll (Rfc.lengthSymbol len) + surprise lg d (Rfc.distSymbol dist)

/-- The estimated cost of a sequence of items. -/
def estimateAll (lg : Nat → ℚ) (ll d : Array Nat) (xs : List LitLen) : ℚ := (xs.map (estimate lg ll d)).sum

/-- Every copy takes its bytes from the nearest place where they are (within 32767 bytes). -/
def Nearest (data : Array UInt8) : Nat → List LitLen → Prop
  | _, [] => True
  | pos, x :: xs =>
    (∀ len dist, x = .lengthDist len dist → ∀ dist', dist' ≤ 32767 → Repeats data pos len dist' → dist ≤ dist') ∧ Nearest data (pos + x.size) xs

/-- The number of times each of `n` symbols occurs among the literal/length symbols of the items, the end of the block being taken to
occur once. -/
def llCounts (xs : List LitLen) : Array Nat :=
  Array.ofFn (n := 288) fun s => if s.val = 256 then 1 else (xs.map LitLen.llSymbol).count s.val

/-- The number of times each of the distance symbols occurs among those of the items. -/
def dCounts (xs : List LitLen) : Array Nat :=
  Array.ofFn (n := 32) fun s => (xs.filterMap LitLen.dSymbol).count s.val

/-- The counts of one pass and half of those used before it (rounded down), the end of the block being taken to occur once. -/
def halfMixed (xs : List LitLen) (ll d : Array Nat) : Array Nat × Array Nat :=
  (Array.ofFn (n := 288) fun s => if s.val = 256 then 1 else (llCounts xs).getD s.val 0 + ll.getD s.val 0 / 2,
   Array.ofFn (n := 32) fun s => (dCounts xs).getD s.val 0 + d.getD s.val 0 / 2)

/-- Some counts of `a` have been replaced by others of `a`. -/
def Shuffled (a b : Array Nat) : Prop := b.size = a.size ∧ ∀ x ∈ b.toList, x ∈ a.toList

/-- Pass `k` (counted from 0) is at least the sixth and its size is that of the pass before. -/
def Stalled (size : Nat → Nat) (k : Nat) : Prop := 5 ≤ k ∧ size k = size (k - 1)

/-- Where the counts come from with which a pass estimates costs: the first pass takes those of the greedy parse; a pass takes those
of the pass before, to which (if an earlier pass but not that one has stalled) half of those that pass worked with are added; but
after a pass that has stalled it takes those of the best pass so far, shuffled. -/
structure PassCounts (greedy : List LitLen) (pass : Nat → List LitLen) (size : Nat → Nat) (ll d : Nat → Array Nat) : Prop where
  first : (ll 0, d 0) = (llCounts greedy, dCounts greedy)
  plain : ∀ k, (∀ j, j ≤ k → ¬ Stalled size j) → (ll (k + 1), d (k + 1)) = (llCounts (pass k), dCounts (pass k))
  mixed : ∀ k j, ¬ Stalled size k → j < k → Stalled size j → (ll (k + 1), d (k + 1)) = halfMixed (pass k) (ll k) (d k)
  shuffled : ∀ k, Stalled size k → ∃ best, best ≤ k ∧ (∀ i, i ≤ k → size best ≤ size i) ∧ (∀ i, i < best → size best < size i) ∧
    Shuffled (ll best) (ll (k + 1)) ∧ Shuffled (d best) (d (k + 1))

/-- Up to rounding the items `xs` cost no more than `ys`: with at most `n` items in both, the relative error is about `n / 2^22`
(the additions are done with 24 bits of precision), and there is an absolute error of at most `n / 2^31` bits. -/
def CheapUpToRounding (lg : Nat → ℚ) (ll d : Array Nat) (xs ys : List LitLen) : Prop :=
  ∀ n : Nat, xs.length ≤ n → ys.length ≤ n → n ≤ 2 ^ 23 →
    estimateAll lg ll d xs * (1 - n / 2 ^ 23) ^ 2 ≤ estimateAll lg ll d ys + n / 2 ^ 31

/-- The items are a cheapest parse of the range, up to rounding, among those whose copies come from the nearest place: and they are
such a parse. -/
def CheapestNearest (lg : Nat → ℚ) (ll d : Array Nat) (data : Array UInt8) (start stop : Nat) (xs : List LitLen) : Prop :=
  Parses data start xs stop ∧ Nearest data start xs ∧
    ∀ ys, Parses data start ys stop → Nearest data start ys → CheapUpToRounding lg ll d xs ys

end Zopfli
