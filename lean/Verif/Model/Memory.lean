import Verif.Model.Squeeze
/-!
# The working memory of `src/hash.rs` and `src/squeeze.rs`, cell by cell

The rest of the model renders the hash tables by values and gives `get_best_lengths` fresh tables and a fresh cost buffer.
Here is what the code really does: `ZopfliHash` is initialised by raw writes into memory of which nothing is known
(`unsafe`), is initialised again in place for every pass, and the buffer of costs keeps what the last pass has left.
A memory cell that has never been written holds `none`; reading it would be undefined behaviour and is `none` here.
-/

namespace Zopfli

/-- src/hash.rs:19-29: the memory of a `HashThing`.  `head` is seen as bytes, because it is filled bytewise (line 103). -/
structure RawThing where
  head : Nat → Option UInt8
  prev : Nat → Option Nat
  hashval : Nat → Option (Option Nat)
  val : Option Nat

/-- src/hash.rs:53-57: the memory of a `ZopfliHash`.  `same` is seen as bytes, because it is filled bytewise (line 109). -/
structure RawHash where
  hash1 : RawThing
  hash2 : RawThing
  same : Nat → Option UInt8

/-- A typed write (`ptr.add(i).write(v)`). -/
def rawWrite {α : Type} (f : Nat → Option α) (i : Nat) (v : α) : Nat → Option α := fun j => if j = i then some v else f j

/-- `write_bytes(v, 1)` on an object of `n` bytes. -/
def rawFill (f : Nat → Option UInt8) (n : Nat) (v : UInt8) : Nat → Option UInt8 := fun j => if j < n then some v else f j

/-- src/hash.rs:87-97: the loop that initialises `prev_and_hashval` of the first table -/
def RawThing.initPrev (t : RawThing) : RawThing :=
  (List.range WINDOW_SIZE).foldl (fun t i => { t with prev := rawWrite t.prev i i, hashval := rawWrite t.hashval i none }) t

/-- src/hash.rs:76-110 `ZopfliHash::init`.  Line 106 copies the first table over the second one. -/
def RawHash.init (m : RawHash) : RawHash :=
  let t := m.hash1.initPrev
  let t := { t with head := rawFill t.head (2 * 65536) 0xFF }
  let t := { t with val := some 0 }
  { hash1 := t, hash2 := t, same := rawFill m.same (2 * WINDOW_SIZE) 0 }

/-- The two bytes of a 16-bit integer, in the order of the machine (`le`: little endian). -/
def u16At (le : Bool) (f : Nat → Option UInt8) (i : Nat) : Option Nat := do
  let a ← f (2 * i)
  let b ← f (2 * i + 1)
  return if le then a.toNat + 256 * b.toNat else 256 * a.toNat + b.toNat

/-- An `i16` in two's complement; negative numbers are `none`, as in `HashThing.head`. -/
def i16At (le : Bool) (f : Nat → Option UInt8) (i : Nat) : Option (Option Nat) := do
  let v ← u16At le f i
  return if v < 32768 then some v else none

/-- What the program finds in the memory of a table: undefined if anything has not been initialised. -/
def RawThing.read (le : Bool) (t : RawThing) : Option HashThing := do
  let head ← (List.range 65536).mapM (i16At le t.head)
  let pah ← (List.range WINDOW_SIZE).mapM fun i => do return (⟨← t.prev i, ← t.hashval i⟩ : SmallerHashThing)
  return ⟨head.toArray, pah.toArray, ← t.val⟩

/-- What the program finds in the memory of a `ZopfliHash`. -/
def RawHash.read (le : Bool) (m : RawHash) : Option ZopfliHash := do
  return ⟨← m.hash1.read le, ← m.hash2.read le, (← (List.range WINDOW_SIZE).mapM (u16At le m.same)).toArray⟩

/-- The memory of a table that has been in use. -/
def HashThing.raw (le : Bool) (t : HashThing) : RawThing where
  head j := t.head[j / 2]?.map fun v =>
    let v := v.getD 65535
    UInt8.ofNat (if (j % 2 = 0) = (le = true) then v % 256 else v / 256)
  prev i := t.prevAndHashval[i]?.map (·.prev)
  hashval i := t.prevAndHashval[i]?.map (·.hashval)
  val := some t.val

/-- The memory of a `ZopfliHash` that has been in use. -/
def ZopfliHash.raw (le : Bool) (h : ZopfliHash) : RawHash where
  hash1 := h.hash1.raw le
  hash2 := h.hash2.raw le
  same j := h.same[j / 2]?.map fun v => UInt8.ofNat (if (j % 2 = 0) = (le = true) then v % 256 else v / 256)

/-- src/hash.rs:60-70 `ZopfliHash::new`, in the memory the allocator returns -/
def hashNew (le : Bool) (m : RawHash) : Option ZopfliHash := m.init.read le

/-- src/hash.rs:112-114 `reset`, in the memory of the table itself -/
def ZopfliHash.reset (le : Bool) (h : ZopfliHash) : Option ZopfliHash := (h.raw le).init.read le

/-- `Vec::resize(n, v)` -/
def vecResize {α : Type} (a : Array α) (n : Nat) (v : α) : Array α :=
  if n ≤ a.size then a.extract 0 n else a ++ Array.replicate (n - a.size) v

/-- src/squeeze.rs:263-267: make the buffer of costs ready, whatever it holds -/
def prepareCosts (F : FloatOps) (costs : Array F.F32) (blocksize : Nat) : Option (Array F.F32) := do
  let costs := vecResize costs (blocksize + 1) F.zero32
  let costs ← forRange 1 (blocksize + 1) costs fun i costs => aset costs i F.inf32
  aset costs 0 F.zero32

/-- What is kept from one pass to the next. -/
structure Scratch (F : FloatOps) where
  h : ZopfliHash
  costs : Array F.F32

/-- src/squeeze.rs:275-348: one iteration of the loop of `get_best_lengths`; at the end the hash and the costs stay with the caller -/
def bestStepIn (F : FloatOps) (costmodel : Nat → Nat → Option F.F64) (mincost : F.F64) (arr : Array UInt8)
    (instart inend : Nat) (st : BestState F) : Option (BestState F ⊕ ((Array Nat × Cache) × Scratch F)) := do
  match ← bestStep F costmodel mincost arr instart inend st with
  | .inl st => return .inl st
  | .inr r => return .inr (r, ⟨st.h, st.costs⟩)

/-- src/squeeze.rs:240-349 `get_best_lengths`, with the tables and the buffer that are handed to it -/
def getBestLengthsIn (F : FloatOps) (le : Bool) (lmc : Cache) (inData : Array UInt8) (instart inend : Nat)
    (costmodel : Nat → Nat → Option F.F64) (scratch : Scratch F) : Option ((Array Nat × Cache) × Scratch F) := do
  let blocksize ← usub inend instart
  if instart = inend then return ((Array.replicate (blocksize + 1) 0, lmc), scratch)
  else do
    let windowstart := instart - WINDOW_SIZE
    let h ← scratch.h.reset le
    let arr ← slice inData 0 inend
    let h ← h.warmup arr windowstart inend
    let h ← forRange windowstart instart h fun i h => h.update arr i
    let costs ← prepareCosts F scratch.costs blocksize
    let mincost ← getCostModelMinCost F costmodel
    loopM (bestStepIn F costmodel mincost arr instart inend)
      ⟨instart, h, lmc, costs, Array.replicate (blocksize + 1) 0, Array.replicate (MAX_MATCH + 1) 0⟩

/-- src/squeeze.rs:383-398 `lz77_optimal_run` -/
def lz77OptimalRunIn (F : FloatOps) (le : Bool) (lmc : Cache) (inData : Array UInt8) (instart inend : Nat)
    (costmodel : Nat → Nat → Option F.F64) (store : Lz77Store) (scratch : Scratch F) : Option ((Lz77Store × Cache) × Scratch F) := do
  let ((lengthArray, lmc), scratch) ← getBestLengthsIn F le lmc inData instart inend costmodel scratch
  let path ← trace (inend - instart) lengthArray
  return (← followPath store inData instart inend path lmc, scratch)

/-- src/squeeze.rs:407-425 `lz77_optimal_fixed`; `mem` is the memory returned by the allocator for the hash -/
def lz77OptimalFixedIn (F : FloatOps) (le : Bool) (mem : RawHash) (lmc : Cache) (inData : Array UInt8) (instart inend : Nat)
    (store : Lz77Store) : Option (Lz77Store × Cache) := do
  let h ← hashNew le mem
  let (r, _) ← lz77OptimalRunIn F le lmc inData instart inend (getCostFixed F) store ⟨h, #[]⟩
  return r

/-- src/lz77.rs:62-69 `Lz77Store::reset`: every vector is cleared -/
def Lz77Store.clear (_ : Lz77Store) : Lz77Store := ⟨#[], #[], #[], #[], #[], #[]⟩

/-- src/squeeze.rs:462-514: one iteration of the loop of `lz77_optimal`, in the same memory as the one before -/
def optimalStepIn [Checks] (F : FloatOps) (le : Bool) (inData : Array UInt8) (instart inend maxIterations maxWithoutImprovement : Nat) :
    OptimalState F × Lz77Store × Scratch F → Option ((OptimalState F × Lz77Store × Scratch F) ⊕ Lz77Store)
  | (⟨lmc, outputstore, stats, beststats, bestcost, lastcost, ranState, lastrandomstep, cur, without⟩, currentstore, scratch) => do
    let currentstore := currentstore.clear
    let ((currentstore, lmc), scratch) ← lz77OptimalRunIn F le lmc inData instart inend (getCostStat F stats) currentstore scratch
    let cost ← calculateBlockSize F currentstore 0 currentstore.size .dynamic
    let improved := F.lt cost bestcost
    let without := if improved then 0 else without + 1
    let outputstore := if improved then currentstore else outputstore
    let beststats := if improved then stats else beststats
    let bestcost := if improved then cost else bestcost
    if ¬ improved ∧ without ≥ maxWithoutImprovement then return .inr outputstore
    else do
      let cur := cur + 1
      if cur ≥ maxIterations then return .inr outputstore
      else do
        let (stats, ranState, lastrandomstep) ←
          nextStats F currentstore cost lastcost cur lastrandomstep stats beststats ranState
        return .inl (⟨lmc, outputstore, stats, beststats, bestcost, cost, ranState, lastrandomstep, cur, without⟩, currentstore, scratch)

/-- src/squeeze.rs:430-516 `lz77_optimal`; `mem` is the memory returned by the allocator for the hash -/
def lz77OptimalIn [Checks] (F : FloatOps) (le : Bool) (mem : RawHash) (lmc : Cache) (inData : Array UInt8)
    (instart inend maxIterations maxWithoutImprovement : Nat) : Option Lz77Store := do
  let (currentstore, lmc) ← greedy Lz77Store.new lmc inData instart inend
  let stats ← (SymbolStats.default F).getStatistics currentstore
  let h ← hashNew le mem
  loopM (optimalStepIn F le inData instart inend maxIterations maxWithoutImprovement)
    (⟨lmc, Lz77Store.new, stats, .default F, F.inf, F.ofUsize 0, .new, none, 0, 0⟩, currentstore, ⟨h, #[]⟩)

end Zopfli
