import Verif.Model.Squeeze
/-!
# Model of `src/blocksplitter.rs`

Debug logging is taken to be enabled: `print_block_split_points` then does the conversion of the split points, which
must not panic, and formats the result (the text itself is not modelled).
-/

namespace Zopfli

/-- src/blocksplitter.rs:12-22: try every index -/
def findMinimumLinear (F : FloatOps) (f : Nat → Option F.F64) (start end_ : Nat) : Option (Nat × F.F64) :=
  forRange start end_ (start, F.inf) fun i (result, best) => do
    let v ← f i
    if F.lt v best then return (i, v) else return (result, best)

/-- src/blocksplitter.rs:25 `NUM` -/
abbrev NUM : Nat := 9

/-- src/blocksplitter.rs:31-52: one round of the recursive search; the state is `(start, end, pos, lastbest)`.
`p[i]` is `start + (i + 1) * multiplier`. -/
def findMinimumStep (F : FloatOps) (f : Nat → Option F.F64) :
    Nat × Nat × Nat × F.F64 → Option ((Nat × Nat × Nat × F.F64) ⊕ (Nat × F.F64))
  | (start, end_, pos, lastbest) => do
    if (← usub end_ start) > NUM then do
      let multiplier := (end_ - start) / (NUM + 1)
      let p (i : Nat) : Nat := start + (i + 1) * multiplier
      let (besti, best) ← forRange 0 NUM (0, F.inf) fun i (besti, best) => do
        let v ← f (p i)
        if F.lt v best then return (i, v) else return (besti, best)
      if F.lt lastbest best then return .inr (pos, lastbest)
      else
        return .inl (if besti = 0 then start else p (besti - 1), if besti = NUM - 1 then end_ else p (besti + 1),
                     p besti, best)
    else return .inr (pos, lastbest)

/-- src/blocksplitter.rs:11-57 `find_minimum` -/
def findMinimum (F : FloatOps) (f : Nat → Option F.F64) (start end_ : Nat) : Option (Nat × F.F64) := do
  if (← usub end_ start) < 1024 then findMinimumLinear F f start end_
  else loopM (findMinimumStep F f) (start, end_, start, F.inf)

/-- src/blocksplitter.rs:67-69 `estimate_cost` -/
def estimateCost [Checks] (F : FloatOps) (lz77 : Lz77Store) (lstart lend : Nat) : Option F.F64 :=
  calculateBlockSizeAutoType F lz77 lstart lend

/-- src/blocksplitter.rs:91-97: the loop over the split points; the state is `(longest, found, last)` -/
def findLargestLoop (done : Array Nat) : List Nat → Nat × Option (Nat × Nat) × Nat →
    Option (Nat × Option (Nat × Nat) × Nat)
  | [], st => some st
  | item :: rest, (longest, found, last) => do
    if (← done[last]?) = 0 ∧ (← usub item last) > longest then
      findLargestLoop done rest (item - last, some (last, item), item)
    else findLargestLoop done rest (longest, found, item)

/-- src/blocksplitter.rs:82-105 `find_largest_splittable_block` -/
def findLargestSplittableBlock (lz77size : Nat) (done : Array Nat) (splitpoints : List Nat) :
    Option (Option (Nat × Nat)) := do
  let (longest, found, last) ← findLargestLoop done splitpoints (0, none, 0)
  let end_ ← usub lz77size 1
  if (← done[last]?) = 0 ∧ (← usub end_ last) > longest then return some (last, end_)
  else return found

/-- src/blocksplitter.rs:120-132 and 240-251: convert LZ77 indices to byte positions; walks the items from index `i` at byte
position `pos` -/
def convertSplits (lz77splitpoints : Array Nat) : List LitLen → (i pos : Nat) → Array Nat → Option (Array Nat)
  | [], _, _, splitpoints => some splitpoints
  | item :: rest, i, pos, splitpoints => do
    if (← lz77splitpoints[splitpoints.size]?) = i then
      let splitpoints := splitpoints.push pos
      if splitpoints.size = lz77splitpoints.size then return splitpoints
      else convertSplits lz77splitpoints rest (i + 1) (pos + item.size) splitpoints
    else convertSplits lz77splitpoints rest (i + 1) (pos + item.size) splitpoints

/-- src/blocksplitter.rs:107-150 `print_block_split_points` with debug logging enabled; line 133 is a debug assertion -/
def logSplitPoints (lz77 : Lz77Store) (lz77splitpoints : List Nat) : Option Unit := do
  let n ← (if lz77splitpoints.length > 0 then do
      return (← convertSplits lz77splitpoints.toArray lz77.litlens.toList 0 0 #[]).size
    else some 0)
  guardR (n = lz77splitpoints.length)

/-- The mutable state of the loop in `blocksplit_lz77`. -/
structure SplitState where
  numblocks : Nat
  done : Array Nat
  lstart : Nat
  lend : Nat
  splitpoints : List Nat

/-- src/blocksplitter.rs:163-208: one iteration of the loop of `blocksplit_lz77` -/
def splitStep [Checks] (F : FloatOps) (lz77 : Lz77Store) (maxblocks : Nat) : SplitState → Option (SplitState ⊕ List Nat)
  | ⟨numblocks, done, lstart, lend, splitpoints⟩ =>
    if maxblocks ≠ 0 ∧ numblocks < maxblocks then do
      guardR (lstart < lend)                                                  -- line 164
      let (llpos, splitcost) ← findMinimum F
        (fun i => do return F.add (← estimateCost F lz77 lstart i) (← estimateCost F lz77 i lend)) (lstart + 1) lend
      guardR (llpos > lstart ∧ llpos < lend)                                  -- lines 173, 174
      let origcost ← estimateCost F lz77 lstart lend
      let (done, splitpoints, numblocks) ←
        (if F.lt origcost splitcost ∨ llpos = lstart + 1 ∨ llpos = lend then do
          some (← aset done lstart 1, splitpoints, numblocks)
        else some (done, (splitpoints ++ [llpos]).mergeSort (fun a b => decide (a ≤ b)), numblocks + 1))
      match ← findLargestSplittableBlock lz77.size done splitpoints with
      | none => return .inr splitpoints
      | some (start, end_) =>
        if (← usub end_ start) < 10 then return .inr splitpoints
        else return .inl ⟨numblocks, done, start, end_, splitpoints⟩
    else return .inr splitpoints

/-- src/blocksplitter.rs:153-211 `blocksplit_lz77`; `splitpoints` is empty on entry at both call sites -/
def blocksplitLz77 [Checks] (F : FloatOps) (lz77 : Lz77Store) (maxblocks : Nat) : Option (List Nat) :=
  if lz77.size < 10 then some []
  else do
    let splitpoints ← loopM (splitStep F lz77 maxblocks) ⟨1, Array.replicate lz77.size 0, 0, lz77.size, []⟩
    logSplitPoints lz77 splitpoints
    return splitpoints

/-- src/blocksplitter.rs:217-253 `blocksplit` -/
def blocksplit [Checks] (F : FloatOps) (inData : Array UInt8) (instart inend maxblocks : Nat) : Option (List Nat) := do
  let (store, _) ← greedy Lz77Store.new .noCache inData instart inend
  let lz77splitpoints ← blocksplitLz77 F store maxblocks
  if lz77splitpoints.length > 0 then do
    let splitpoints ← convertSplits lz77splitpoints.toArray store.litlens.toList 0 instart #[]
    guardR (splitpoints.size = lz77splitpoints.length)                        -- line 252
    return splitpoints.toList
  else return []

end Zopfli
