import Verif.Model.BlockSize
/-!
# Model of `src/squeeze.rs` (optimal parsing)
-/

namespace Zopfli

/-- src/squeeze.rs:30-45 `get_cost_fixed` -/
def getCostFixed (F : FloatOps) (litlen dist : Nat) : Option F.F64 :=
  if dist = 0 then some (F.ofUsize (if litlen ≤ 143 then 8 else 9))
  else do
    let dbits := getDistExtraBits dist
    let lbits ← getLengthExtraBits litlen
    let lsym ← getLengthSymbol litlen
    return F.ofUsize (7 + (if lsym > 279 then 1 else 0) + 5 + dbits + lbits)

/-- src/squeeze.rs:81-91 `SymbolStats` -/
structure SymbolStats (F : FloatOps) where
  litlens : Array Nat
  dists : Array Nat
  llSymbols : Array F.F64
  dSymbols : Array F.F64

/-- src/squeeze.rs:93-102 `SymbolStats::default` -/
def SymbolStats.default (F : FloatOps) : SymbolStats F where
  litlens := Array.replicate NUM_LL 0
  dists := Array.replicate NUM_D 0
  llSymbols := Array.replicate NUM_LL (F.ofUsize 0)
  dSymbols := Array.replicate NUM_D (F.ofUsize 0)

/-- src/squeeze.rs:48-60 `get_cost_stat` -/
def getCostStat (F : FloatOps) (stats : SymbolStats F) (litlen dist : Nat) : Option F.F64 := do
  guardR (litlen < NUM_LL)
  if dist = 0 then stats.llSymbols[litlen]?
  else do
    let lsym ← getLengthSymbol litlen
    let lbits := F.ofUsize (← getLengthExtraBits litlen)
    let dsym := getDistSymbol dist
    let dbits := F.ofUsize (getDistExtraBits dist)
    return F.add (F.add (F.add lbits dbits) (← stats.llSymbols[lsym]?)) (← stats.dSymbols[dsym]?)

/-- src/squeeze.rs:62-66 `RanState` (`u32` fields) -/
structure RanState where
  mw : Nat
  mz : Nat
deriving Repr, DecidableEq

/-- src/squeeze.rs:69-71 `RanState::new` -/
def RanState.new : RanState := ⟨1, 2⟩

/-- src/squeeze.rs:74-78 `random_marsaglia`, in wrapping `u32` arithmetic -/
def RanState.random (s : RanState) : Nat × RanState :=
  let mz := (36969 * (s.mz &&& 65535) + (s.mz >>> 16)) % 2 ^ 32
  let mw := (18000 * (s.mw &&& 65535) + (s.mw >>> 16)) % 2 ^ 32
  (((mz <<< 16) % 2 ^ 32 + mw) % 2 ^ 32, ⟨mw, mz⟩)

/-- src/squeeze.rs:106-119 `randomize_freqs` -/
def randomizeFreqs (freqs : Array Nat) (state : RanState) : Option (Array Nat × RanState) :=
  forRange 0 freqs.size (freqs, state) fun i ((freqs : Array Nat), (state : RanState)) => do
    let (r, state) := state.random
    if (r >>> 4) % 3 = 0 then do
      let (r, state) := state.random
      let v ← freqs[r % freqs.size]?
      return (← aset freqs i v, state)
    else return (freqs, state)

/-- src/squeeze.rs:105-123 `randomize_stat_freqs` -/
def SymbolStats.randomizeStatFreqs {F : FloatOps} (s : SymbolStats F) (state : RanState) :
    Option (SymbolStats F × RanState) := do
  let (litlens, state) ← randomizeFreqs s.litlens state
  let (dists, state) ← randomizeFreqs s.dists state
  let litlens ← aset litlens 256 1
  return ({ s with litlens := litlens, dists := dists }, state)

/-- src/squeeze.rs:131-149 `calculate_and_store_entropy` -/
def entropyOf (F : FloatOps) (count : Array Nat) : Array F.F64 :=
  let n := count.size
  let sum := count.toList.sum
  let log2sum := F.log2 (F.ofUsize (if sum = 0 then n else sum))
  count.map fun c => if c = 0 then log2sum else F.sub log2sum (F.log2 (F.ofUsize c))

/-- src/squeeze.rs:130-153 `calculate_entropy` -/
def SymbolStats.calculateEntropy {F : FloatOps} (s : SymbolStats F) : SymbolStats F :=
  { s with llSymbols := entropyOf F s.litlens, dSymbols := entropyOf F s.dists }

/-- src/squeeze.rs:156-169 `get_statistics` -/
def SymbolStats.getStatistics {F : FloatOps} (s : SymbolStats F) (store : Lz77Store) : Option (SymbolStats F) := do
  let (litlens, dists) ← forRange 0 store.litlens.size (s.litlens, s.dists)
    fun i ((ll : Array Nat), (d : Array Nat)) => do
      match ← store.litlens[i]? with
      | .literal lit => return (← amod ll lit (· + 1), d)
      | .lengthDist len dist =>
        return (← amod ll (← getLengthSymbol len) (· + 1), ← amod d (getDistSymbol dist) (· + 1))
  let litlens ← aset litlens 256 1
  return SymbolStats.calculateEntropy { s with litlens := litlens, dists := dists }

/-- src/squeeze.rs:171-174 `clear_freqs` -/
def SymbolStats.clearFreqs {F : FloatOps} (s : SymbolStats F) : SymbolStats F :=
  { s with litlens := Array.replicate NUM_LL 0, dists := Array.replicate NUM_D 0 }

/-- src/squeeze.rs:175-193 `add_weighed_stat_freqs` with the weights 1.0 and 0.5 of its only call (line 500) -/
def addWeighedStatFreqs (F : FloatOps) (stats1 stats2 : SymbolStats F) : Option (SymbolStats F) := do
  let w (a b : Nat) : Nat := F.toUsize (F.add (F.mul (F.ofUsize a) (F.ofUsize 1)) (F.mul (F.ofUsize b) F.half))
  let litlens ← forRange 0 NUM_LL #[] fun i (r : Array Nat) => do
    some (r.push (w (← stats1.litlens[i]?) (← stats2.litlens[i]?)))
  let dists ← forRange 0 NUM_D #[] fun i (r : Array Nat) => do
    some (r.push (w (← stats1.dists[i]?) (← stats2.dists[i]?)))
  let litlens ← aset litlens 256 1
  return { SymbolStats.default F with litlens := litlens, dists := dists }

/-- src/squeeze.rs:206-209 `DSYMBOLS` -/
def dsymbols : Array Nat :=
  #[1, 2, 3, 4, 5, 7, 9, 13, 17, 25, 33, 49, 65, 97, 129, 193, 257, 385, 513, 769, 1025, 1537, 2049, 3073, 4097, 6145,
    8193, 12289, 16385, 24577]

/-- src/squeeze.rs:196-230 `get_cost_model_min_cost` -/
def getCostModelMinCost (F : FloatOps) (costmodel : Nat → Nat → Option F.F64) : Option F.F64 := do
  let (bestlength, _) ← forRange 3 259 (0, F.inf) fun i (bestlength, mincost) => do
    let c ← costmodel i 1
    if F.lt c mincost then return (i, c) else return (bestlength, mincost)
  let (bestdist, _) ← forRange 0 dsymbols.size (0, F.inf) fun i (bestdist, mincost) => do
    let dsym ← dsymbols[i]?
    let c ← costmodel 3 dsym
    if F.lt c mincost then return (dsym, c) else return (bestdist, mincost)
  costmodel bestlength bestdist

/-- The mutable state of the loop in `get_best_lengths` (`j` is `i - instart`). -/
structure BestState (F : FloatOps) where
  i : Nat
  h : ZopfliHash
  lmc : Cache
  costs : Array F.F32
  lengthArray : Array Nat
  sublen : Array Nat

/-- src/squeeze.rs:281-284: inside a long run of one byte, with more than 258 such bytes before and after? -/
def inLongRun (h : ZopfliHash) (instart inend i : Nat) : Option Bool := do
  if (← h.same[i % WINDOW_SIZE]?) > MAX_MATCH * 2 ∧ i > instart + MAX_MATCH + 1 ∧ i + MAX_MATCH * 2 + 1 < inend then
    return decide ((← h.same[(i - MAX_MATCH) % WINDOW_SIZE]?) > MAX_MATCH)
  else return false

/-- src/squeeze.rs:286-298: skip 258 positions of a long run -/
def skipRun (F : FloatOps) (costmodel : Nat → Nat → Option F.F64) (arr : Array UInt8) (instart : Nat)
    (i : Nat) (h : ZopfliHash) (costs : Array F.F32) (lengthArray : Array Nat) :
    Option (ZopfliHash × Array F.F32 × Array Nat) := do
  let symbolcost ← costmodel MAX_MATCH 1
  forRange 0 MAX_MATCH (h, costs, lengthArray) fun k ((h : ZopfliHash), (costs : Array F.F32), (la : Array Nat)) => do
    let j := i + k - instart
    let c ← costs[j]?
    let costs ← aset costs (j + MAX_MATCH) (F.add32 c (F.toF32 symbolcost))
    let la ← aset la (j + MAX_MATCH) MAX_MATCH
    let h ← h.update arr (i + k + 1)
    return (h, costs, la)

/-- src/squeeze.rs:314-321: try the literal at position `i` -/
def tryLiteral (F : FloatOps) (costmodel : Nat → Nat → Option F.F64) (arr : Array UInt8) (i j : Nat)
    (costs : Array F.F32) (lengthArray : Array Nat) : Option (Array F.F32 × Array Nat) := do
  let newCost := F.add (← costmodel (← arr[i]?).toNat 0) (F.toF64 (← costs[j]?))
  guardR (F.costOk newCost)                                                   -- line 315
  if F.lt newCost (F.toF64 (← costs[j + 1]?)) then
    return (← aset costs (j + 1) (F.toF32 newCost), ← aset lengthArray (j + 1) 1)
  else return (costs, lengthArray)

/-- src/squeeze.rs:322-341: try every match length at position `i` (`take(kend + 1)` stops at the end of `sublen`) -/
def tryLengths (F : FloatOps) (costmodel : Nat → Nat → Option F.F64) (mincostaddcostj : F.F64) (sublen : Array Nat)
    (kend j : Nat) (costs : Array F.F32) (lengthArray : Array Nat) : Option (Array F.F32 × Array Nat) :=
  forRange 3 (min (kend + 1) sublen.size) (costs, lengthArray)
    fun k ((costs : Array F.F32), (lengthArray : Array Nat)) => do
      if F.le (F.toF64 (← costs[j + k]?)) mincostaddcostj then return (costs, lengthArray)
      else do
        let newCost := F.add (← costmodel k (← sublen[k]?)) (F.toF64 (← costs[j]?))
        guardR (F.costOk newCost)                                             -- line 333
        if F.lt newCost (F.toF64 (← costs[j + k]?)) then do
          guardR (k ≤ MAX_MATCH)                                              -- line 335
          return (← aset costs (j + k) (F.toF32 newCost), ← aset lengthArray (j + k) k)
        else return (costs, lengthArray)

/-- src/squeeze.rs:275-343: one iteration of the loop of `get_best_lengths` -/
def bestStep (F : FloatOps) (costmodel : Nat → Nat → Option F.F64) (mincost : F.F64) (arr : Array UInt8)
    (instart inend : Nat) : BestState F → Option (BestState F ⊕ (Array Nat × Cache))
  | ⟨i, h, lmc, costs, lengthArray, sublen⟩ =>
    if i < inend then do
      let h ← h.update arr i
      let long ← inLongRun h instart inend i
      let (i, h, costs, lengthArray) ←
        (if long then do
          let (h, costs, lengthArray) ← skipRun F costmodel arr instart i h costs lengthArray
          some (i + MAX_MATCH, h, costs, lengthArray)
        else some (i, h, costs, lengthArray))
      let j := i - instart
      let (m, lmc, sub) ← findLongestMatch lmc h arr i inend instart MAX_MATCH (some sublen)
      let sublen ← sub
      let (costs, lengthArray) ← (if i < inend then tryLiteral F costmodel arr i j costs lengthArray
                                 else some (costs, lengthArray))
      let kend := min m.length (inend - i)
      let mincostaddcostj := F.add mincost (F.toF64 (← costs[j]?))
      let (costs, lengthArray) ← tryLengths F costmodel mincostaddcostj sublen kend j costs lengthArray
      return .inl ⟨i + 1, h, lmc, costs, lengthArray, sublen⟩
    else do
      let cost := F.toF64 (← costs[← usub inend instart]?)
      guardR (F.costOk cost)                                                  -- line 343
      guardR (F.lt cost F.inf)                                                -- line 396
      return .inr (lengthArray, lmc)

/-- src/squeeze.rs:240-349 `get_best_lengths`; the cost returned by the code is only used in a debug assertion (line 396, which
is checked here before the function returns).  When there is nothing to do the cost is zero and passes.  The hash is reset and the `costs` buffer is overwritten at the start, so neither is a parameter. -/
def getBestLengths (F : FloatOps) (lmc : Cache) (inData : Array UInt8) (instart inend : Nat)
    (costmodel : Nat → Nat → Option F.F64) : Option (Array Nat × Cache) := do
  let blocksize ← usub inend instart
  if instart = inend then return (Array.replicate (blocksize + 1) 0, lmc)
  else do
    let arr ← slice inData 0 inend
    let h ← warmHash arr instart inend
    let costs ← aset (Array.replicate (blocksize + 1) F.inf32) 0 F.zero32
    let mincost ← getCostModelMinCost F costmodel
    loopM (bestStep F costmodel mincost arr instart inend)
      ⟨instart, h, lmc, costs, Array.replicate (blocksize + 1) 0, Array.replicate (MAX_MATCH + 1) 0⟩

/-- src/squeeze.rs:351-372 `trace`, with its debug assertions (lines 362-364; `lai == 0` would loop for ever in a release
build, `lai > index` underflows) -/
def traceFrom (lengthArray : Array Nat) (index : Nat) : Option (List Nat) :=
  if index = 0 then some []
  else
    match lengthArray[index]? with
    | none => none
    | some lai => if lai ≤ index ∧ lai ≤ MAX_MATCH ∧ lai ≠ 0 then do return lai :: (← traceFrom lengthArray (index - lai)) else none
termination_by index

/-- src/squeeze.rs:351-372 `trace` -/
def trace (size : Nat) (lengthArray : Array Nat) : Option (List Nat) := traceFrom lengthArray size

/-- src/squeeze.rs:383-398 `lz77_optimal_run` -/
def lz77OptimalRun (F : FloatOps) (lmc : Cache) (inData : Array UInt8) (instart inend : Nat)
    (costmodel : Nat → Nat → Option F.F64) (store : Lz77Store) : Option (Lz77Store × Cache) := do
  let (lengthArray, lmc) ← getBestLengths F lmc inData instart inend costmodel
  let path ← trace (inend - instart) lengthArray
  followPath store inData instart inend path lmc

/-- src/squeeze.rs:407-425 `lz77_optimal_fixed` -/
def lz77OptimalFixed (F : FloatOps) (lmc : Cache) (inData : Array UInt8) (instart inend : Nat) (store : Lz77Store) :
    Option (Lz77Store × Cache) :=
  lz77OptimalRun F lmc inData instart inend (getCostFixed F) store

/-- The mutable state of the loop in `lz77_optimal`; `lastrandomstep = None` is `u64::MAX`. -/
structure OptimalState (F : FloatOps) where
  lmc : Cache
  outputstore : Lz77Store
  stats : SymbolStats F
  beststats : SymbolStats F
  bestcost : F.F64
  lastcost : F.F64
  ranState : RanState
  lastrandomstep : Option Nat
  currentIteration : Nat
  iterationsWithoutImprovement : Nat

/-- src/squeeze.rs:494-513: prepare the statistics of the next iteration -/
def nextStats (F : FloatOps) (currentstore : Lz77Store) (cost lastcost : F.F64) (currentIteration : Nat)
    (lastrandomstep : Option Nat) (stats beststats : SymbolStats F) (ranState : RanState) :
    Option (SymbolStats F × RanState × Option Nat) := do
  let laststats := stats
  let stats ← stats.clearFreqs.getStatistics currentstore
  let stats ←
    (if lastrandomstep ≠ none then do some (← addWeighedStatFreqs F stats laststats).calculateEntropy
    else some stats)
  if currentIteration > 5 ∧ F.lt (F.abs (F.sub cost lastcost)) F.eps then do
    let (stats, ranState) ← beststats.randomizeStatFreqs ranState
    return (stats.calculateEntropy, ranState, some currentIteration)
  else return (stats, ranState, lastrandomstep)

/-- src/squeeze.rs:462-514: one iteration of the loop of `lz77_optimal` -/
def optimalStep [Checks] (F : FloatOps) (inData : Array UInt8) (instart inend maxIterations maxWithoutImprovement : Nat) :
    OptimalState F → Option (OptimalState F ⊕ Lz77Store)
  | ⟨lmc, outputstore, stats, beststats, bestcost, lastcost, ranState, lastrandomstep, cur, without⟩ => do
    let (currentstore, lmc) ← lz77OptimalRun F lmc inData instart inend (getCostStat F stats) Lz77Store.new
    let cost ← calculateBlockSize F currentstore 0 currentstore.size .dynamic
    let improved := F.lt cost bestcost
    let without := if improved then 0 else without + 1
    let outputstore := if improved then currentstore else outputstore
    let beststats := if improved then stats else beststats
    let bestcost := if improved then cost else bestcost
    if ¬ improved ∧ without ≥ maxWithoutImprovement then return .inr outputstore
    else do
      let cur := cur + 1
      if cur ≥ maxIterations then return .inr outputstore
      else do
        let (stats, ranState, lastrandomstep) ←
          nextStats F currentstore cost lastcost cur lastrandomstep stats beststats ranState
        return .inl ⟨lmc, outputstore, stats, beststats, bestcost, cost, ranState, lastrandomstep, cur, without⟩

/-- src/squeeze.rs:430-516 `lz77_optimal` -/
def lz77Optimal [Checks] (F : FloatOps) (lmc : Cache) (inData : Array UInt8) (instart inend maxIterations
    maxWithoutImprovement : Nat) : Option Lz77Store := do
  let (currentstore, lmc) ← greedy Lz77Store.new lmc inData instart inend
  let stats ← (SymbolStats.default F).getStatistics currentstore
  loopM (optimalStep F inData instart inend maxIterations maxWithoutImprovement)
    ⟨lmc, Lz77Store.new, stats, .default F, F.inf, F.ofUsize 0, .new, none, 0, 0⟩

end Zopfli
