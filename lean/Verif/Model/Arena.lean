import Verif.Model.Katajainen
/-!
# `src/katajainen.rs` with its arena

The same functions as in `Model/Katajainen`, but with the nodes in an arena: a node is an address, addresses are shared
between the lists and between the chains, and `boundary_pm_final` changes the `tail` of a node in place (line 200-203).
Addresses are indices into the arena, in the order of allocation.
-/

namespace Zopfli.Arena

open Katajainen (Leaf usedLeaves assignLevel)

/-- src/katajainen.rs:19-23 `Node`, with the address of its tail -/
structure Node where
  weight : Nat
  count : Nat
  tail : Option Nat
deriving Repr, Inhabited, DecidableEq

/-- src/katajainen.rs:47-50 `List`: two addresses -/
structure PmList where
  lookahead0 : Nat
  lookahead1 : Nat
deriving Repr, Inhabited, DecidableEq

/-- src/katajainen.rs:13-17 `Thing`, without the leaves, which do not change -/
structure Thing where
  arena : Array Node
  lists : Array PmList

/-- `Bump::alloc`: a new address -/
def Thing.alloc (t : Thing) (n : Node) : Nat × Thing := (t.arena.size, { t with arena := t.arena.push n })

/-- src/katajainen.rs:135-181 `Thing::boundary_pm` -/
def boundaryPm (leaves : Array Leaf) : (index : Nat) → Thing → Option Thing
  | 0, t => do
    let l ← t.lists[0]?
    let last ← t.arena[l.lookahead1]?
    if last.count ≥ leaves.size then return t
    else do
      let lists ← aset t.lists 0 { l with lookahead0 := l.lookahead1 }
      let t := { t with lists }
      let l ← t.lists[0]?
      let leaf ← leaves[last.count]?
      let (new, t) := t.alloc ⟨leaf.weight, last.count + 1, (← t.arena[l.lookahead0]?).tail⟩
      return { t with lists := ← aset t.lists 0 { l with lookahead1 := new } }
  | index + 1, t => do
    let l ← t.lists[index + 1]?
    let last ← t.arena[l.lookahead1]?
    let lists ← aset t.lists (index + 1) { l with lookahead0 := l.lookahead1 }
    let t := { t with lists }
    let l ← t.lists[index + 1]?
    let prev ← t.lists[index]?
    let weightSum := (← t.arena[prev.lookahead0]?).weight + (← t.arena[prev.lookahead1]?).weight
    -- `last_count < num_symbols && weight_sum > self.leaves[last_count].weight`
    match (leaves[last.count]?).filter fun leaf => weightSum > leaf.weight with
    | some leaf => do
      let (new, t) := t.alloc ⟨leaf.weight, last.count + 1, (← t.arena[l.lookahead0]?).tail⟩
      return { t with lists := ← aset t.lists (index + 1) { l with lookahead1 := new } }
    | none => do
      let (new, t) := t.alloc ⟨weightSum, last.count, some prev.lookahead1⟩
      let t := { t with lists := ← aset t.lists (index + 1) { l with lookahead1 := new } }
      let t ← boundaryPm leaves index t
      boundaryPm leaves index t

/-- src/katajainen.rs:183-207 `Thing::boundary_pm_final`; `index - 1` underflows for index 0. -/
def boundaryPmFinal (leaves : Array Leaf) (index : Nat) (t : Thing) : Option Thing := do
  let l ← t.lists[index]?
  let last ← t.arena[l.lookahead1]?
  let prev ← (if index = 0 then none else t.lists[index - 1]?)
  let weightSum := (← t.arena[prev.lookahead0]?).weight + (← t.arena[prev.lookahead1]?).weight
  match (leaves[last.count]?).filter fun leaf => weightSum > leaf.weight with
  | some _ => do
    let (new, t) := t.alloc ⟨0, last.count + 1, last.tail⟩
    return { t with lists := ← aset t.lists index { l with lookahead1 := new } }
  | none => return { t with arena := ← aset t.arena l.lookahead1 { last with tail := some prev.lookahead1 } }

/-- src/katajainen.rs:215-224: store the counts of the node and its tails, walking down from index `end - 1`; running out of
room is a panic. -/
def collectCounts (arena : Array Node) : (end_ : Nat) → (node : Nat) → Array Nat → Option (Array Nat × Nat)
  | 0, _, _ => none
  | end_ + 1, node, counts => do
    let n ← arena[node]?
    let counts ← aset counts end_ n.count
    match n.tail with
    | none => return (counts, end_)
    | some tail => collectCounts arena end_ tail counts

/-- src/katajainen.rs:209-240 `Thing::extract_bit_lengths` -/
def extractBitLengths (leaves : Array Leaf) (t : Thing) (maxBits numFreqs : Nat) : Option (Array Nat) := do
  let l ← t.lists[maxBits - 1]?
  let (counts, end_) ← collectCounts t.arena 16 l.lookahead1 (Array.replicate 16 0)
  let val ← counts[15]?
  loopM (fun (ptr, value, val, bl) =>
    if ptr ≥ end_ then do
      if ptr = 0 then none
      else do
        let c ← counts[ptr - 1]?
        let (val, bl) ← assignLevel leaves c value val bl
        return .inl (ptr - 1, value + 1, val, bl)
    else return .inr bl) (15, 1, val, Array.replicate numFreqs 0)

/-- src/katajainen.rs:54-132 `length_limited_code_lengths` -/
def lengthLimitedCodeLengths (frequencies : Array Nat) (maxBits : Nat) : Option (Array Nat) := do
  let numFreqs := frequencies.size
  guardR (numFreqs ≤ 288)
  let leaves := (usedLeaves frequencies).toArray
  let numSymbols := leaves.size
  if numSymbols ≤ 2 then
    forRange 0 numSymbols (Array.replicate numFreqs 0) fun i bl => do aset bl (← leaves[i]?).count 1
  else do
    let leaves := (leaves.toList.mergeSort fun a b => a.weight ≤ b.weight).toArray
    let maxBits := min (numSymbols - 1) maxBits
    guardR (maxBits ≤ 15)
    let t : Thing := ⟨#[], #[]⟩
    let (node0, t) := t.alloc ⟨(← leaves[0]?).weight, 1, none⟩
    let (node1, t) := t.alloc ⟨(← leaves[1]?).weight, 2, none⟩
    let t := { t with lists := Array.replicate 15 ⟨node0, node1⟩ }
    let numBoundaryPmRuns := 2 * numSymbols - 4
    -- `max_bits - 1` underflows (hence indexes out of range) for `max_bits = 0`
    if maxBits = 0 then none
    else do
      let t ← forRange 0 (numBoundaryPmRuns - 1) t fun _ t => boundaryPm leaves (maxBits - 1) t
      let t ← boundaryPmFinal leaves (maxBits - 1) t
      extractBitLengths leaves t maxBits numFreqs

end Zopfli.Arena
