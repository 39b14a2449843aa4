import Verif.Model.Basic
/-!
# Model of `src/katajainen.rs` (boundary package merge)

Arena-allocated nodes are immutable values.  The only mutation of a node through its `Cell` is in
`boundary_pm_final` (line 200-203), on the newest node of the last list, to which no other node points; it is
rendered as replacing that node.  `usize` weight sums are exact.
-/

namespace Zopfli.Katajainen

/-- src/katajainen.rs:19-23 `Node`; `root` has `tail = None`, `chain` has `tail = Some(..)`. -/
inductive Node where
  | root (weight count : Nat)
  | chain (weight count : Nat) (tail : Node)
deriving Repr, Inhabited

/-- src/katajainen.rs:20 field `weight` -/
def Node.weight : Node → Nat
  | .root w _ => w
  | .chain w _ _ => w

/-- src/katajainen.rs:21 field `count` -/
def Node.count : Node → Nat
  | .root _ c => c
  | .chain _ c _ => c

/-- src/katajainen.rs:22 field `tail` -/
def Node.tail : Node → Option Node
  | .root _ _ => none
  | .chain _ _ t => some t

/-- src/katajainen.rs:144-151, 160-167: allocate a node with the given `tail` cell. -/
def Node.mk (weight count : Nat) : Option Node → Node
  | none => .root weight count
  | some t => .chain weight count t

/-- src/katajainen.rs:25-28 `Leaf`; `count` is the symbol index. -/
structure Leaf where
  weight : Nat
  count : Nat
deriving Repr, Inhabited, DecidableEq

/-- src/katajainen.rs:47-50 `List` -/
structure PmList where
  lookahead0 : Node
  lookahead1 : Node
deriving Repr, Inhabited

/-- src/katajainen.rs:135-181 `Thing::boundary_pm`; `leaves` is not mutated, `lists` is threaded. -/
def boundaryPm (leaves : Array Leaf) : (index : Nat) → Array PmList → Option (Array PmList)
  | 0, lists => do
    let l ← lists[0]?
    let lastCount := l.lookahead1.count
    if lastCount ≥ leaves.size then return lists
    else do
      let leaf ← leaves[lastCount]?
      aset lists 0 ⟨l.lookahead1, .mk leaf.weight (lastCount + 1) l.lookahead1.tail⟩
  | index + 1, lists => do
    let l ← lists[index + 1]?
    let lastCount := l.lookahead1.count
    let prev ← lists[index]?
    let weightSum := prev.lookahead0.weight + prev.lookahead1.weight
    -- `last_count < num_symbols && weight_sum > self.leaves[last_count].weight`
    match leaves[lastCount]? with
    | some leaf =>
      if weightSum > leaf.weight then
        aset lists (index + 1) ⟨l.lookahead1, .mk leaf.weight (lastCount + 1) l.lookahead1.tail⟩
      else do
        let lists ← aset lists (index + 1) ⟨l.lookahead1, .chain weightSum lastCount prev.lookahead1⟩
        let lists ← boundaryPm leaves index lists
        boundaryPm leaves index lists
    | none => do
      let lists ← aset lists (index + 1) ⟨l.lookahead1, .chain weightSum lastCount prev.lookahead1⟩
      let lists ← boundaryPm leaves index lists
      boundaryPm leaves index lists

/-- src/katajainen.rs:183-207 `Thing::boundary_pm_final`; `index - 1` underflows for index 0. -/
def boundaryPmFinal (leaves : Array Leaf) (index : Nat) (lists : Array PmList) : Option (Array PmList) := do
  let l ← lists[index]?
  let lastCount := l.lookahead1.count
  if index = 0 then none
  else do
    let prev ← lists[index - 1]?
    let weightSum := prev.lookahead0.weight + prev.lookahead1.weight
    match leaves[lastCount]? with
    | some leaf =>
      if weightSum > leaf.weight then
        aset lists index ⟨l.lookahead0, .mk 0 (lastCount + 1) l.lookahead1.tail⟩
      else
        aset lists index ⟨l.lookahead0, .chain l.lookahead1.weight l.lookahead1.count prev.lookahead1⟩
    | none =>
      aset lists index ⟨l.lookahead0, .chain l.lookahead1.weight l.lookahead1.count prev.lookahead1⟩

/-- src/katajainen.rs:215-224: store the counts of the node and its tails, walking down from index `end - 1`. -/
def collectCounts : Node → (end_ : Nat) → Array Nat → Option (Array Nat × Nat)
  | .root _ c, end_, counts =>
    if end_ = 0 then none else do return (← aset counts (end_ - 1) c, end_ - 1)
  | .chain _ c t, end_, counts =>
    if end_ = 0 then none else do collectCounts t (end_ - 1) (← aset counts (end_ - 1) c)

/-- src/katajainen.rs:231-234: `while val > counts[ptr - 1] { bit_lengths[leaves[val - 1].count] = value; val -= 1 }`,
with `c = counts[ptr - 1]`. -/
def assignLevel (leaves : Array Leaf) (c value : Nat) : (val : Nat) → Array Nat → Option (Nat × Array Nat)
  | 0, bl => some (0, bl)
  | val + 1, bl =>
    if val + 1 > c then do
      let leaf ← leaves[val]?
      assignLevel leaves c value val (← aset bl leaf.count value)
    else some (val + 1, bl)

/-- src/katajainen.rs:209-240 `Thing::extract_bit_lengths` -/
def extractBitLengths (leaves : Array Leaf) (lists : Array PmList) (maxBits numFreqs : Nat) : Option (Array Nat) := do
  let l ← lists[maxBits - 1]?
  let (counts, end_) ← collectCounts l.lookahead1 16 (Array.replicate 16 0)
  let val ← counts[15]?
  loopM (fun (ptr, value, val, bl) =>
    if ptr ≥ end_ then do
      if ptr = 0 then none
      else do
        let c ← counts[ptr - 1]?
        let (val, bl) ← assignLevel leaves c value val bl
        return .inl (ptr - 1, value + 1, val, bl)
    else return .inr bl) (15, 1, val, Array.replicate numFreqs 0)

/-- src/katajainen.rs:59-68: the used symbols, in symbol order. -/
def usedLeaves (frequencies : Array Nat) : List Leaf :=
  (List.range frequencies.size).filterMap fun i =>
    let freq := frequencies.getD i 0
    if freq ≠ 0 then some ⟨freq, i⟩ else none

/-- src/katajainen.rs:54-132 `length_limited_code_lengths`.  `leaves.sort()` (line 94) is a stable sort by weight. -/
def lengthLimitedCodeLengths (frequencies : Array Nat) (maxBits : Nat) : Option (Array Nat) := do
  let numFreqs := frequencies.size
  guardR (numFreqs ≤ 288)
  let leaves := (usedLeaves frequencies).toArray
  let numSymbols := leaves.size
  if numSymbols ≤ 2 then
    forRange 0 numSymbols (Array.replicate numFreqs 0) fun i bl => do aset bl (← leaves[i]?).count 1
  else do
    let leaves := (leaves.toList.mergeSort fun a b => a.weight ≤ b.weight).toArray
    let maxBits := min (numSymbols - 1) maxBits
    guardR (maxBits ≤ 15)
    let node0 := Node.root (← leaves[0]?).weight 1
    let node1 := Node.root (← leaves[1]?).weight 2
    let lists := Array.replicate 15 (⟨node0, node1⟩ : PmList)
    let numBoundaryPmRuns := 2 * numSymbols - 4
    -- `max_bits - 1` underflows (hence indexes out of range) for `max_bits = 0`
    if maxBits = 0 then none
    else do
      let lists ← forRange 0 (numBoundaryPmRuns - 1) lists fun _ lists => boundaryPm leaves (maxBits - 1) lists
      let lists ← boundaryPmFinal leaves (maxBits - 1) lists
      extractBitLengths leaves lists maxBits numFreqs

end Zopfli.Katajainen
