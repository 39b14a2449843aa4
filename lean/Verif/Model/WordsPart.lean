import Verif.Model.Words
import Verif.Model.Deflate
/-!
# Compressing a chunk in machine words

The rest of the way from a chunk of data to the operations on the bit writer, on top of `Model/Words.lean`: the statistics of
`src/squeeze.rs` in numbers of `W` bits (sums and counts panic or lose their upper bits, `as usize` saturates), and the functions that
depend on them.  What is the same for every word size (the match finder, the dynamic programming, the Huffman codes) is called from the main
model.  Indices into data in memory, and sums of two of them, are taken to fit.
-/

namespace Zopfli.Words
open Katajainen

/-! ## src/squeeze.rs -/

/-- src/squeeze.rs:131-149 `calculate_and_store_entropy`; `sum` panics on overflow in a build with overflow checks -/
def entropyOf [Checks] (W : Nat) (F : FloatOps) (count : Array Nat) : Option (Array F.F64) := do
  let n := count.size
  let sum ← count.toList.foldlM (fun s c => usize W (s + c)) 0
  let log2sum := F.log2 (F.ofUsize (if sum = 0 then n else sum))
  return count.map fun c => if c = 0 then log2sum else F.sub log2sum (F.log2 (F.ofUsize c))

/-- src/squeeze.rs:130-153 `calculate_entropy` -/
def calculateEntropy [Checks] (W : Nat) {F : FloatOps} (s : SymbolStats F) : Option (SymbolStats F) := do
  return { s with llSymbols := ← entropyOf W F s.litlens, dSymbols := ← entropyOf W F s.dists }

/-- `a[i] += 1` on `usize` -/
def incr [Checks] (W : Nat) (a : Array Nat) (i : Nat) : Option (Array Nat) := do aset a i (← usize W ((← a[i]?) + 1))

/-- src/squeeze.rs:156-169 `get_statistics` -/
def getStatistics [Checks] (W : Nat) {F : FloatOps} (s : SymbolStats F) (store : Lz77Store) : Option (SymbolStats F) := do
  let (litlens, dists) ← forRange 0 store.litlens.size (s.litlens, s.dists)
    fun i ((ll : Array Nat), (d : Array Nat)) => do
      match ← store.litlens[i]? with
      | .literal lit => return (← incr W ll lit, d)
      | .lengthDist len dist =>
        return (← incr W ll (← getLengthSymbol len), ← incr W d (getDistSymbol dist))
  let litlens ← aset litlens 256 1
  calculateEntropy W { s with litlens := litlens, dists := dists }

/-- src/squeeze.rs:175-193 `add_weighed_stat_freqs`; `as usize` gives the greatest number of `W` bits for anything greater -/
def addWeighedStatFreqs (W : Nat) (F : FloatOps) (stats1 stats2 : SymbolStats F) : Option (SymbolStats F) := do
  let w (a b : Nat) : Nat :=
    min (F.toUsize (F.add (F.mul (F.ofUsize a) (F.ofUsize 1)) (F.mul (F.ofUsize b) F.half))) (2 ^ W - 1)
  let litlens ← forRange 0 NUM_LL #[] fun i (r : Array Nat) => do
    some (r.push (w (← stats1.litlens[i]?) (← stats2.litlens[i]?)))
  let dists ← forRange 0 NUM_D #[] fun i (r : Array Nat) => do
    some (r.push (w (← stats1.dists[i]?) (← stats2.dists[i]?)))
  let litlens ← aset litlens 256 1
  return { SymbolStats.default F with litlens := litlens, dists := dists }

/-- src/squeeze.rs:494-513: prepare the statistics of the next iteration -/
def nextStats [Checks] (W : Nat) (F : FloatOps) (currentstore : Lz77Store) (cost lastcost : F.F64) (currentIteration : Nat)
    (lastrandomstep : Option Nat) (stats beststats : SymbolStats F) (ranState : RanState) :
    Option (SymbolStats F × RanState × Option Nat) := do
  let laststats := stats
  let stats ← getStatistics W stats.clearFreqs currentstore
  let stats ←
    (if lastrandomstep ≠ none then do calculateEntropy W (← addWeighedStatFreqs W F stats laststats)
    else some stats)
  if currentIteration > 5 ∧ F.lt (F.abs (F.sub cost lastcost)) F.eps then do
    let (stats, ranState) ← beststats.randomizeStatFreqs ranState
    return (← calculateEntropy W stats, ranState, some currentIteration)
  else return (stats, ranState, lastrandomstep)

/-- src/squeeze.rs:462-514: one iteration of the loop of `lz77_optimal` (the counters of iterations are `u64`) -/
def optimalStep [Checks] (W : Nat) (F : FloatOps) (inData : Array UInt8) (instart inend maxIterations maxWithoutImprovement : Nat) :
    OptimalState F → Option (OptimalState F ⊕ Lz77Store)
  | ⟨lmc, outputstore, stats, beststats, bestcost, lastcost, ranState, lastrandomstep, cur, without⟩ => do
    let (currentstore, lmc) ← lz77OptimalRun F lmc inData instart inend (getCostStat F stats) Lz77Store.new
    let cost ← calculateBlockSize W F currentstore 0 currentstore.size .dynamic
    let improved := F.lt cost bestcost
    let without := if improved then 0 else without + 1
    let outputstore := if improved then currentstore else outputstore
    let beststats := if improved then stats else beststats
    let bestcost := if improved then cost else bestcost
    if ¬ improved ∧ without ≥ maxWithoutImprovement then return .inr outputstore
    else do
      let cur := cur + 1
      if cur ≥ maxIterations then return .inr outputstore
      else do
        let (stats, ranState, lastrandomstep) ←
          nextStats W F currentstore cost lastcost cur lastrandomstep stats beststats ranState
        return .inl ⟨lmc, outputstore, stats, beststats, bestcost, cost, ranState, lastrandomstep, cur, without⟩

/-- src/squeeze.rs:430-516 `lz77_optimal` -/
def lz77Optimal [Checks] (W : Nat) (F : FloatOps) (lmc : Cache) (inData : Array UInt8) (instart inend maxIterations
    maxWithoutImprovement : Nat) : Option Lz77Store := do
  let (currentstore, lmc) ← greedy Lz77Store.new lmc inData instart inend
  let stats ← getStatistics W (SymbolStats.default F) currentstore
  loopM (optimalStep W F inData instart inend maxIterations maxWithoutImprovement)
    ⟨lmc, Lz77Store.new, stats, .default F, F.inf, F.ofUsize 0, .new, none, 0, 0⟩

/-! ## src/blocksplitter.rs -/

/-- src/blocksplitter.rs:67-69 `estimate_cost` -/
def estimateCost [Checks] (W : Nat) (F : FloatOps) (lz77 : Lz77Store) (lstart lend : Nat) : Option F.F64 :=
  calculateBlockSizeAutoType W F lz77 lstart lend

/-- src/blocksplitter.rs:163-208: one iteration of the loop of `blocksplit_lz77` -/
def splitStep [Checks] (W : Nat) (F : FloatOps) (lz77 : Lz77Store) (maxblocks : Nat) : SplitState → Option (SplitState ⊕ List Nat)
  | ⟨numblocks, done, lstart, lend, splitpoints⟩ =>
    if maxblocks ≠ 0 ∧ numblocks < maxblocks then do
      guardR (lstart < lend)                                                  -- line 164
      let (llpos, splitcost) ← findMinimum F
        (fun i => do return F.add (← estimateCost W F lz77 lstart i) (← estimateCost W F lz77 i lend)) (lstart + 1) lend
      guardR (llpos > lstart ∧ llpos < lend)                                  -- lines 173, 174
      let origcost ← estimateCost W F lz77 lstart lend
      let (done, splitpoints, numblocks) ←
        (if F.lt origcost splitcost ∨ llpos = lstart + 1 ∨ llpos = lend then do
          some (← aset done lstart 1, splitpoints, numblocks)
        else some (done, (splitpoints ++ [llpos]).mergeSort (fun a b => decide (a ≤ b)), numblocks + 1))
      match ← findLargestSplittableBlock lz77.size done splitpoints with
      | none => return .inr splitpoints
      | some (start, end_) =>
        if (← usub end_ start) < 10 then return .inr splitpoints
        else return .inl ⟨numblocks, done, start, end_, splitpoints⟩
    else return .inr splitpoints

/-- src/blocksplitter.rs:153-211 `blocksplit_lz77` -/
def blocksplitLz77 [Checks] (W : Nat) (F : FloatOps) (lz77 : Lz77Store) (maxblocks : Nat) : Option (List Nat) :=
  if lz77.size < 10 then some []
  else do
    let splitpoints ← loopM (splitStep W F lz77 maxblocks) ⟨1, Array.replicate lz77.size 0, 0, lz77.size, []⟩
    logSplitPoints lz77 splitpoints
    return splitpoints

/-- src/blocksplitter.rs:217-253 `blocksplit` -/
def blocksplit [Checks] (W : Nat) (F : FloatOps) (inData : Array UInt8) (instart inend maxblocks : Nat) : Option (List Nat) := do
  let (store, _) ← greedy Lz77Store.new .noCache inData instart inend
  let lz77splitpoints ← blocksplitLz77 W F store maxblocks
  if lz77splitpoints.length > 0 then do
    let splitpoints ← convertSplits lz77splitpoints.toArray store.litlens.toList 0 instart #[]
    guardR (splitpoints.size = lz77splitpoints.length)                        -- line 252
    return splitpoints.toList
  else return []

/-! ## src/deflate.rs -/

/-- src/deflate.rs:617-772 `encode_tree`; the unused `result_size` (lines 761-771) is computed here too, since it could overflow -/
def encodeTree [Checks] (W : Nat) (llLengths dLengths : Array Nat) (use16 use17 use18 : Bool) : Option (List WOp) := do
  let hlit ← trimZeros (fun h => llLengths[257 + h]?) 29
  let hdist ← trimZeros (fun h => dLengths[1 + h]?) 29
  let hlit2 := hlit + 257
  let lldTotal := hlit2 + hdist + 1
  let o ← loopM (rleEncodeStep llLengths dLengths hlit2 lldTotal use16 use17 use18)
    (0, ⟨Array.replicate 19 0, #[], #[]⟩)
  let clcl ← lengthLimitedCodeLengths W o.clcounts 7
  let clsymbols ← lengthsToSymbols clcl 7
  let hclen ← trimZeros (fun h => do o.clcounts[← clOrder[h + 4]?]?) 15
  let lens ← (clOrder.toList.take (hclen + 4)).mapM fun item => do return addBits (← clcl[item]?) 3
  let items ← (o.rle.toList.zip o.rleBits.toList).mapM fun (r, b) => rleOps clcl clsymbols r b
  let _ ← treeBits W clcl o.clcounts hclen
  return addBits hlit 5 ++ addBits hdist 5 ++ addBits hclen 4 ++ lens.flatten ++ items.flatten

/-- src/deflate.rs:774-799 `add_dynamic_tree` -/
def addDynamicTree [Checks] (W : Nat) (llLengths dLengths : Array Nat) : Option (List WOp) := do
  let (best, _) ← forRange 0 8 (0, 0) fun i (best, bestsize) => do
    let size ← encodeTreeNoOutput W llLengths dLengths (decide (i &&& 1 > 0)) (decide (i &&& 2 > 0)) (decide (i &&& 4 > 0))
    if bestsize = 0 ∨ size < bestsize then return (i, size) else return (best, bestsize)
  encodeTree W llLengths dLengths (decide (best &&& 1 > 0)) (decide (best &&& 2 > 0)) (decide (best &&& 4 > 0))

/-- src/deflate.rs:1285-1300: one stored block; `nlen = !blocksize` -/
def storedBlock (W : Nat) (final : Bool) (chunk : List UInt8) : List WOp :=
  let blocksize := chunk.length
  let nlen := 2 ^ W - 1 - blocksize
  [.bit final, .bit false, .bit false, .align]
    ++ addByte (blocksize % 256) ++ addByte (blocksize / 256 % 256)
    ++ addByte (nlen % 256) ++ addByte (nlen / 256 % 256) ++ [.bytes chunk]

/-- src/deflate.rs:1263-1304 `add_non_compressed_block` -/
def addNonCompressedBlock (W : Nat) (finalBlock : Bool) (inData : Array UInt8) (instart inend : Nat) : Option (List WOp) := do
  let data ← slice inData instart inend
  let chunks := chunksOf 65535 data.toList
  let items := (flagLast chunks ++ [([], true)]).take (if finalBlock then max chunks.length 1 else chunks.length)
  return (items.map fun (chunk, isFinal) => storedBlock W (finalBlock && isFinal) chunk).flatten

/-- src/deflate.rs:815-889 `add_lz77_block` -/
def addLz77Block [Checks] (W : Nat) (btype : BlockType) (finalBlock : Bool) (inData : Array UInt8) (lz77 : Lz77Store)
    (lstart lend : Nat) : Option (List WOp) :=
  match btype with
  | .uncompressed => do
    let length ← getByteRange W lz77 lstart lend
    let pos ← (if lstart = lend then some 0 else lz77.pos[lstart]?)
    addNonCompressedBlock W finalBlock inData pos (← usize W (pos + length))
  | .fixed => do
    let (llLengths, dLengths) := fixedTree
    return [.bit finalBlock, .bit true, .bit false] ++ (← addBlockData lz77 lstart lend llLengths dLengths)
  | .dynamic => do
    let (_, llLengths, dLengths) ← getDynamicLengths W lz77 lstart lend
    let tree ← addDynamicTree W llLengths dLengths
    return [.bit finalBlock, .bit false, .bit true] ++ tree ++ (← addBlockData lz77 lstart lend llLengths dLengths)

/-- src/deflate.rs:1049-1137 `add_lz77_block_auto_type` -/
def addLz77BlockAutoType [Checks] (W : Nat) (F : FloatOps) (finalBlock : Bool) (inData : Array UInt8) (lz77 : Lz77Store)
    (lstart lend : Nat) : Option (List WOp) := do
  let uncompressedcost ← calculateBlockSize W F lz77 lstart lend .uncompressed
  let fixedcost ← calculateBlockSize W F lz77 lstart lend .fixed
  let dyncost ← calculateBlockSize W F lz77 lstart lend .dynamic
  let expensivefixed := lz77.size < 1000 ∨ F.le fixedcost (F.mul dyncost F.c11)
  if lstart = lend then
    return addBits finalBlock.toNat 1 ++ addBits 1 2 ++ addBits 0 7
  else do
    let (fixedstore, fixedcost) ←
      (if expensivefixed then do
        let instart ← lz77.pos[lstart]?
        let inend ← usize W (instart + (← getByteRange W lz77 lstart lend))
        let (fixedstore, _) ←
          lz77OptimalFixed F (.lmc (.new (inend - instart))) inData instart inend Lz77Store.new
        some (fixedstore, ← calculateBlockSize W F fixedstore 0 fixedstore.size .fixed)
      else some (Lz77Store.new, fixedcost))
    if F.le uncompressedcost fixedcost ∧ F.le uncompressedcost dyncost then
      addLz77Block W .uncompressed finalBlock inData lz77 lstart lend
    else if F.le fixedcost dyncost then
      if expensivefixed then addLz77Block W .fixed finalBlock inData fixedstore 0 fixedstore.size
      else addLz77Block W .fixed finalBlock inData lz77 lstart lend
    else addLz77Block W .dynamic finalBlock inData lz77 lstart lend

/-- src/deflate.rs:1161-1164: the non-last blocks; returns the operations and `last` -/
def addSplitBlocks [Checks] (W : Nat) (F : FloatOps) (lz77 : Lz77Store) (inData : Array UInt8) :
    List Nat → (last : Nat) → Option (List WOp × Nat)
  | [], last => some ([], last)
  | item :: rest, last => do
    let ops ← addLz77BlockAutoType W F false inData lz77 last item
    let (ops', last) ← addSplitBlocks W F lz77 inData rest item
    return (ops ++ ops', last)

/-- src/deflate.rs:1153-1174 `add_all_blocks` -/
def addAllBlocks [Checks] (W : Nat) (F : FloatOps) (splitpoints : List Nat) (lz77 : Lz77Store) (finalBlock : Bool)
    (inData : Array UInt8) : Option (List WOp) := do
  let (ops, last) ← addSplitBlocks W F lz77 inData splitpoints 0
  return ops ++ (← addLz77BlockAutoType W F finalBlock inData lz77 last lz77.size)

/-- src/deflate.rs:1200-1221: optimise the parts before the split points -/
def optimizeParts [Checks] (W : Nat) (F : FloatOps) (options : Options) (inData : Array UInt8) :
    List Nat → Lz77Store × List Nat × F.F64 × Nat → Option (Lz77Store × List Nat × F.F64 × Nat)
  | [], st => some st
  | item :: rest, (lz77, splitpoints, totalcost, last) => do
    let store ← lz77Optimal W F (.lmc (.new (← usub item last))) inData last item options.iterationCount
      options.iterationsWithoutImprovement
    let totalcost := F.add totalcost (← calculateBlockSizeAutoType W F store 0 store.size)
    guardR (store.size > 0)                                                   -- line 1213
    let lz77 ← appendStore lz77 store
    optimizeParts W F options inData rest (lz77, splitpoints ++ [lz77.size], totalcost, item)

/-- src/deflate.rs:1242, 1246-1251: the estimated cost of the blocks given by split points -/
def totalCostOf [Checks] (W : Nat) (F : FloatOps) (lz77 : Lz77Store) : List Nat → (last : Nat) → F.F64 → Option F.F64
  | [], last, acc => do return F.add acc (← calculateBlockSizeAutoType W F lz77 last lz77.size)
  | item :: rest, last, acc => do
    totalCostOf W F lz77 rest item (F.add acc (← calculateBlockSizeAutoType W F lz77 last item))

/-- src/deflate.rs:1184-1256: the LZ77 data of a part and its block boundaries (as LZ77 indices) -/
def blocksplitPlan [Checks] (W : Nat) (F : FloatOps) (options : Options) (inData : Array UInt8) (instart inend : Nat) :
    Option (Lz77Store × List Nat) := do
  let splitpointsUncompressed ← blocksplit W F inData instart inend options.maximumBlockSplits
  let (lz77, splitpoints, totalcost, last) ←
    optimizeParts W F options inData splitpointsUncompressed (Lz77Store.new, [], F.ofUsize 0, instart)
  let store ← lz77Optimal W F (.lmc (.new (← usub inend last))) inData last inend options.iterationCount
    options.iterationsWithoutImprovement
  let totalcost := F.add totalcost (← calculateBlockSizeAutoType W F store 0 store.size)
  guardR (instart = inend ∨ store.size > 0)                                   -- line 1234
  let lz77 ← appendStore lz77 store
  if splitpointsUncompressed.length > 1 then do
    let splitpoints2 ← blocksplitLz77 W F lz77 options.maximumBlockSplits
    let totalcost2 ← totalCostOf W F lz77 splitpoints2 0 (F.ofUsize 0)
    if F.lt totalcost2 totalcost then return (lz77, splitpoints2) else return (lz77, splitpoints)
  else return (lz77, splitpoints)

/-- src/deflate.rs:1176-1259 `blocksplit_attempt` -/
def blocksplitAttempt [Checks] (W : Nat) (F : FloatOps) (options : Options) (finalBlock : Bool) (inData : Array UInt8)
    (instart inend : Nat) : Option (List WOp) := do
  let (lz77, splitpoints) ← blocksplitPlan W F options inData instart inend
  addAllBlocks W F splitpoints lz77 finalBlock inData

/-- src/deflate.rs:186-232 `deflate_part` -/
def deflatePart [Checks] (W : Nat) (F : FloatOps) (options : Options) (btype : BlockType) (finalBlock : Bool) (inData : Array UInt8)
    (instart inend : Nat) : Option (List WOp) :=
  match btype with
  | .uncompressed => addNonCompressedBlock W finalBlock inData instart inend
  | .fixed => do
    let (store, _) ←
      lz77OptimalFixed F (.lmc (.new (← usub inend instart))) inData instart inend Lz77Store.new
    addLz77Block W .fixed finalBlock inData store 0 store.size
  | .dynamic => blocksplitAttempt W F options finalBlock inData instart inend

end Zopfli.Words
