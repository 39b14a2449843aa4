import Verif.Spec.Session
/-!
# The compressor with a logger installed

The crate reports its progress through the `log` crate (src/blocksplitter.rs:109-150, src/deflate.rs:846-851 and 875-886,
src/squeeze.rs:485 and 488); in builds without the `std` feature the macros expand to nothing (src/lib.rs:31-45).  The other models
leave this out (but for the assertion in `print_block_split_points`).  Here are all functions on the way to a message again, with a logger.

The logger is any state machine: `passes` is the comparison of a level with the static and dynamic maximum levels that the macros
make, `enabled` the answer of the logger to `log_enabled!`, `record` takes a message.  The maximum level and the answers may change
all the time.  A logger that panics is not covered.  Messages are the values of their arguments; how these are made into text is the
business of `core::fmt`.
-/

namespace Zopfli

/-- The levels used by the crate. -/
inductive LogLevel where
  | debug
  | trace
deriving DecidableEq

/-- The messages of the crate; `R` is the type of floating point numbers. -/
inductive LogMsg (R : Type) where
  /-- src/blocksplitter.rs:135-149 "block split points: ... (hex: ...)" -/
  | splitPoints (points : List Nat)
  /-- src/deflate.rs:848-851 "treesize: ..." -/
  | treeSize (bytes : Nat)
  /-- src/deflate.rs:880-885 "compressed block size: ... (...k) (unc: ...)" -/
  | blockSize (compressed kilobytes uncompressed : Nat)
  /-- src/squeeze.rs:485, 488 "Iteration ...: ... bit" -/
  | iteration (number : Nat) (cost : R)

/-- A logger, as the macros `debug!`, `trace!` and `log_enabled!` of the `log` crate see it. -/
structure Logger (R lam : Type) where
  passes : lam → LogLevel → Bool
  enabled : lam → LogLevel → Bool × lam
  record : lam → LogLevel → LogMsg R → lam

/-- A computation that may panic, and talks to a logger. -/
def Log (lam α : Type) : Type := lam → Option (α × lam)

namespace Log

/-- One after the other. -/
def andThen {lam α β : Type} (x : Log lam α) (f : α → Log lam β) : Log lam β := fun l =>
  match x l with
  | none => none
  | some (a, l) => f a l

instance {lam : Type} : Monad (Log lam) where
  pure a := fun l => some (a, l)
  bind := andThen

/-- A computation that says nothing. -/
def lift {lam α : Type} (o : Option α) : Log lam α := fun l => o.map (·, l)

variable {R lam : Type}

/-- `debug!` and `trace!`: the arguments are evaluated only if the message passes. -/
def message (G : Logger R lam) (level : LogLevel) (args : Option (LogMsg R)) : Log lam Unit := fun l =>
  if G.passes l level then args.map fun m => ((), G.record l level m) else some ((), l)

/-- `log_enabled!` -/
def isEnabled (G : Logger R lam) (level : LogLevel) : Log lam Bool := fun l =>
  if G.passes l level then some (G.enabled l level) else some (false, l)

/-- `loopM` -/
def loop {σ ρ : Type} (body : σ → Log lam (σ ⊕ ρ)) (s : σ) : Log lam ρ := fun l =>
  loopM (fun (s, l) => (body s l).map fun
    | (.inl s, l) => .inl (s, l)
    | (.inr r, l) => .inr (r, l)) (s, l)

/-- `usize` subtraction: an underflow panics in a build with overflow checks and wraps in a release build. -/
def usizeSub [Checks] (a b : Nat) : Option Nat :=
  if b ≤ a then some (a - b) else if Checks.on then none else some (2 ^ 64 + a - b)

/-! ## blocksplitter.rs, squeeze.rs -/

/-- src/blocksplitter.rs:109-150 `print_block_split_points` -/
def printBlockSplitPoints (G : Logger R lam) (lz77 : Lz77Store) (lz77splitpoints : List Nat) : Log lam Unit := do
  let on ← isEnabled G .debug
  if on then do
    let splitpoints ← lift (if lz77splitpoints.length > 0 then do
        return (← convertSplits lz77splitpoints.toArray lz77.litlens.toList 0 0 #[]).toList
      else some [])
    lift (guardR (splitpoints.length = lz77splitpoints.length))               -- line 133
    message G .debug (some (.splitPoints splitpoints))
  else return ()

/-- src/blocksplitter.rs:153-211 `blocksplit_lz77` -/
def blocksplitLz77 [Checks] (F : FloatOps) (G : Logger F.F64 lam) (lz77 : Lz77Store) (maxblocks : Nat) : Log lam (List Nat) :=
  if lz77.size < 10 then pure []
  else do
    let splitpoints ← lift (loopM (splitStep F lz77 maxblocks) ⟨1, Array.replicate lz77.size 0, 0, lz77.size, []⟩)
    printBlockSplitPoints G lz77 splitpoints
    return splitpoints

/-- src/blocksplitter.rs:217-253 `blocksplit` -/
def blocksplit [Checks] (F : FloatOps) (G : Logger F.F64 lam) (inData : Array UInt8) (instart inend maxblocks : Nat) : Log lam (List Nat) := do
  let (store, _) ← lift (greedy Lz77Store.new .noCache inData instart inend)
  let lz77splitpoints ← blocksplitLz77 F G store maxblocks
  if lz77splitpoints.length > 0 then do
    let splitpoints ← lift (convertSplits lz77splitpoints.toArray store.litlens.toList 0 instart #[])
    lift (guardR (splitpoints.size = lz77splitpoints.length))                 -- line 252
    return splitpoints.toList
  else return []

/-- src/squeeze.rs:462-514: one iteration of the loop of `lz77_optimal` -/
def optimalStep [Checks] (F : FloatOps) (G : Logger F.F64 lam) (inData : Array UInt8) (instart inend maxIterations maxWithoutImprovement : Nat) :
    OptimalState F → Log lam (OptimalState F ⊕ Lz77Store)
  | ⟨lmc, outputstore, stats, beststats, bestcost, lastcost, ranState, lastrandomstep, cur, without⟩ => do
    let (currentstore, lmc) ← lift (lz77OptimalRun F lmc inData instart inend (getCostStat F stats) Lz77Store.new)
    let cost ← lift (calculateBlockSize F currentstore 0 currentstore.size .dynamic)
    let improved := F.lt cost bestcost
    let without := if improved then 0 else without + 1
    let outputstore := if improved then currentstore else outputstore
    let beststats := if improved then stats else beststats
    let bestcost := if improved then cost else bestcost
    message G (if improved then .debug else .trace) (some (.iteration cur cost))
    if ¬ improved ∧ without ≥ maxWithoutImprovement then return .inr outputstore
    else do
      let cur := cur + 1
      if cur ≥ maxIterations then return .inr outputstore
      else do
        let (stats, ranState, lastrandomstep) ←
          lift (nextStats F currentstore cost lastcost cur lastrandomstep stats beststats ranState)
        return .inl ⟨lmc, outputstore, stats, beststats, bestcost, cost, ranState, lastrandomstep, cur, without⟩

/-- src/squeeze.rs:430-516 `lz77_optimal` -/
def lz77Optimal [Checks] (F : FloatOps) (G : Logger F.F64 lam) (lmc : Cache) (inData : Array UInt8) (instart inend maxIterations
    maxWithoutImprovement : Nat) : Log lam Lz77Store := do
  let (currentstore, lmc) ← lift (greedy Lz77Store.new lmc inData instart inend)
  let stats ← lift ((SymbolStats.default F).getStatistics currentstore)
  loop (optimalStep F G inData instart inend maxIterations maxWithoutImprovement)
    ⟨lmc, Lz77Store.new, stats, .default F, F.inf, F.ofUsize 0, .new, none, 0, 0⟩

/-! ## deflate.rs: what is written, with the points at which something is reported -/

/-- An operation on the writer, or a point at which something is reported. -/
inductive LogOp where
  | op (o : WOp)
  /-- src/deflate.rs:846, 859: remember `bytes_written` -/
  | mark
  /-- src/deflate.rs:848-851 -/
  | treeSize
  /-- src/deflate.rs:875-886, for the items of the block (computed only if the logger is enabled) -/
  | blockSize (lz77 : Lz77Store) (lstart lend : Nat)

/-- src/deflate.rs:815-889 `add_lz77_block` -/
def addLz77Block [Checks] (btype : BlockType) (finalBlock : Bool) (inData : Array UInt8) (lz77 : Lz77Store)
    (lstart lend : Nat) : Option (List LogOp) :=
  match btype with
  | .uncompressed => do
    let length ← lz77.getByteRange lstart lend
    let pos ← (if lstart = lend then some 0 else lz77.pos[lstart]?)
    return (← addNonCompressedBlock finalBlock inData pos (pos + length)).map .op
  | .fixed => do
    let (llLengths, dLengths) := fixedTree
    return [.op (.bit finalBlock), .op (.bit true), .op (.bit false)] ++ [.mark]
      ++ (← addBlockData lz77 lstart lend llLengths dLengths).map .op ++ [.blockSize lz77 lstart lend]
  | .dynamic => do
    let (_, llLengths, dLengths) ← getDynamicLengths lz77 lstart lend
    let tree ← addDynamicTree llLengths dLengths
    return [.op (.bit finalBlock), .op (.bit false), .op (.bit true)] ++ [.mark] ++ tree.map .op ++ [.treeSize] ++ [.mark]
      ++ (← addBlockData lz77 lstart lend llLengths dLengths).map .op ++ [.blockSize lz77 lstart lend]

/-- src/deflate.rs:1049-1137 `add_lz77_block_auto_type` -/
def addLz77BlockAutoType [Checks] (F : FloatOps) (finalBlock : Bool) (inData : Array UInt8) (lz77 : Lz77Store)
    (lstart lend : Nat) : Option (List LogOp) := do
  let uncompressedcost ← calculateBlockSize F lz77 lstart lend .uncompressed
  let fixedcost ← calculateBlockSize F lz77 lstart lend .fixed
  let dyncost ← calculateBlockSize F lz77 lstart lend .dynamic
  let expensivefixed := lz77.size < 1000 ∨ F.le fixedcost (F.mul dyncost F.c11)
  if lstart = lend then
    return (addBits finalBlock.toNat 1 ++ addBits 1 2 ++ addBits 0 7).map .op
  else do
    let (fixedstore, fixedcost) ←
      (if expensivefixed then do
        let instart ← lz77.pos[lstart]?
        let inend := instart + (← lz77.getByteRange lstart lend)
        let (fixedstore, _) ←
          lz77OptimalFixed F (.lmc (.new (inend - instart))) inData instart inend Lz77Store.new
        some (fixedstore, ← calculateBlockSize F fixedstore 0 fixedstore.size .fixed)
      else some (Lz77Store.new, fixedcost))
    if F.le uncompressedcost fixedcost ∧ F.le uncompressedcost dyncost then
      addLz77Block .uncompressed finalBlock inData lz77 lstart lend
    else if F.le fixedcost dyncost then
      if expensivefixed then addLz77Block .fixed finalBlock inData fixedstore 0 fixedstore.size
      else addLz77Block .fixed finalBlock inData lz77 lstart lend
    else addLz77Block .dynamic finalBlock inData lz77 lstart lend

/-- src/deflate.rs:1161-1164: the non-last blocks; returns the operations and `last` -/
def addSplitBlocks [Checks] (F : FloatOps) (lz77 : Lz77Store) (inData : Array UInt8) :
    List Nat → (last : Nat) → Option (List LogOp × Nat)
  | [], last => some ([], last)
  | item :: rest, last => do
    let ops ← addLz77BlockAutoType F false inData lz77 last item
    let (ops', last) ← addSplitBlocks F lz77 inData rest item
    return (ops ++ ops', last)

/-- src/deflate.rs:1153-1174 `add_all_blocks` -/
def addAllBlocks [Checks] (F : FloatOps) (splitpoints : List Nat) (lz77 : Lz77Store) (finalBlock : Bool)
    (inData : Array UInt8) : Option (List LogOp) := do
  let (ops, last) ← addSplitBlocks F lz77 inData splitpoints 0
  return ops ++ (← addLz77BlockAutoType F finalBlock inData lz77 last lz77.size)

/-- src/deflate.rs:1200-1221: optimise the parts before the split points -/
def optimizeParts [Checks] (F : FloatOps) (G : Logger F.F64 lam) (options : Options) (inData : Array UInt8) :
    List Nat → Lz77Store × List Nat × F.F64 × Nat → Log lam (Lz77Store × List Nat × F.F64 × Nat)
  | [], st => pure st
  | item :: rest, (lz77, splitpoints, totalcost, last) => do
    let n ← lift (usub item last)
    let store ← lz77Optimal F G (.lmc (.new n)) inData last item options.iterationCount options.iterationsWithoutImprovement
    let c ← lift (calculateBlockSizeAutoType F store 0 store.size)
    lift (guardR (store.size > 0))                                            -- line 1213
    let lz77 ← lift (appendStore lz77 store)
    optimizeParts F G options inData rest (lz77, splitpoints ++ [lz77.size], F.add totalcost c, item)

/-- src/deflate.rs:1184-1256: the LZ77 data of a part and its block boundaries (as LZ77 indices) -/
def blocksplitPlan [Checks] (F : FloatOps) (G : Logger F.F64 lam) (options : Options) (inData : Array UInt8) (instart inend : Nat) :
    Log lam (Lz77Store × List Nat) := do
  let splitpointsUncompressed ← blocksplit F G inData instart inend options.maximumBlockSplits
  let (lz77, splitpoints, totalcost, last) ←
    optimizeParts F G options inData splitpointsUncompressed (Lz77Store.new, [], F.ofUsize 0, instart)
  let n ← lift (usub inend last)
  let store ← lz77Optimal F G (.lmc (.new n)) inData last inend options.iterationCount options.iterationsWithoutImprovement
  let c ← lift (calculateBlockSizeAutoType F store 0 store.size)
  lift (guardR (instart = inend ∨ store.size > 0))                            -- line 1234
  let lz77 ← lift (appendStore lz77 store)
  if splitpointsUncompressed.length > 1 then do
    let splitpoints2 ← blocksplitLz77 F G lz77 options.maximumBlockSplits
    let totalcost2 ← lift (totalCostOf F lz77 splitpoints2 0 (F.ofUsize 0))
    if F.lt totalcost2 (F.add totalcost c) then return (lz77, splitpoints2) else return (lz77, splitpoints)
  else return (lz77, splitpoints)

/-- src/deflate.rs:186-232 `deflate_part` and 1176-1259 `blocksplit_attempt` -/
def deflatePart [Checks] (F : FloatOps) (G : Logger F.F64 lam) (options : Options) (btype : BlockType) (finalBlock : Bool) (inData : Array UInt8)
    (instart inend : Nat) : Log lam (List LogOp) :=
  match btype with
  | .uncompressed => lift do return (← addNonCompressedBlock finalBlock inData instart inend).map .op
  | .fixed => lift do
    let (store, _) ←
      lz77OptimalFixed F (.lmc (.new (← usub inend instart))) inData instart inend Lz77Store.new
    addLz77Block .fixed finalBlock inData store 0 store.size
  | .dynamic => do
    let (lz77, splitpoints) ← blocksplitPlan F G options inData instart inend
    lift (addAllBlocks F splitpoints lz77 finalBlock inData)

/-- Execute operations until the first error, reporting on the way; `detect` is what the last `mark` has remembered. -/
def execAll [Checks] {σ : Type} (G : Logger R lam) (S : Sink σ) (w : BitwiseWriter σ) (detect : Nat) :
    List LogOp → Log lam (Except ErrKind Unit × BitwiseWriter σ)
  | [] => pure (.ok (), w)
  | .op o :: ops => do
    let (r, w) ← lift (w.exec S o)
    match r with
    | .ok () => execAll G S w detect ops
    | .error e => return (.error e, w)
  | .mark :: ops => execAll G S w w.bytesWritten ops
  | .treeSize :: ops => do
    message G .debug (do return .treeSize (← usizeSub w.bytesWritten detect))
    execAll G S w detect ops
  | .blockSize lz77 lstart lend :: ops => do
    let on ← isEnabled G .debug
    if on then do
      let items ← lift (slice lz77.litlens lstart lend)
      let uncompressed := (items.toList.map LitLen.size).sum
      let compressed ← lift (usizeSub w.bytesWritten detect)
      message G .debug (some (.blockSize compressed (compressed / 1024) uncompressed))
      execAll G S w detect ops
    else execAll G S w detect ops

/-! ## The encoders -/

variable {σ : Type}

/-- src/deflate.rs:87-97 `compress_chunk` -/
def compressChunk [Checks] (env : Env σ) (G : Logger env.F.F64 lam) (e : DeflateEncoder σ) (isLast : Bool) :
    Log lam (Except ErrKind Unit × DeflateEncoder σ) := do
  let w ← lift e.bitwiseWriter
  let ops ← deflatePart env.F G env.options env.btype isLast e.windowAndChunk e.chunkStart e.windowAndChunk.size
  let (r, w) ← execAll G env.S w 0 ops
  return (r, { e with bitwiseWriter := some w })

/-- src/deflate.rs:125-136 `__finish` -/
def finishInner [Checks] (env : Env σ) (G : Logger env.F.F64 lam) (e : DeflateEncoder σ) : Log lam (Except ErrKind (Option σ) × DeflateEncoder σ × Option σ) :=
  match e.bitwiseWriter with
  | none => pure (.ok none, e, none)
  | some _ => do
    let (r, e) ← compressChunk env G e true
    match r with
    | .error k => return (.error k, e, e.bitwiseWriter.map (·.out))
    | .ok () => do
      let w ← lift e.bitwiseWriter
      let (r, w) ← lift (w.finishPartialBits env.S)
      let e := { e with bitwiseWriter := none }
      match r with
      | .error k => return (.error k, e, some w.out)
      | .ok () => return (.ok (some w.out), e, some w.out)

/-- src/deflate.rs:140-152 `write` -/
def deflateWrite [Checks] (env : Env σ) (G : Logger env.F.F64 lam) (e : DeflateEncoder σ) (buf : List UInt8) : Log lam (Except ErrKind Nat × DeflateEncoder σ) := do
  let (r, e) ← (if e.haveChunk then compressChunk env G e false else pure (.ok (), e))
  match r with
  | .error k => return (.error k, e)
  | .ok () => return (.ok buf.length, e.setChunk buf)

/-- src/deflate.rs:159-163 `drop` -/
def dropWith [Checks] (env : Env σ) (G : Logger env.F.F64 lam) (e : DeflateEncoder σ) (sink : σ) : Log lam σ := do
  let (_, _, s) ← finishInner env G e
  return s.getD sink

/-- src/deflate.rs:159-163 `drop` -/
def deflateDrop [Checks] (env : Env σ) (G : Logger env.F.F64 lam) (e : DeflateEncoder σ) : Log lam σ := do
  let w ← lift e.bitwiseWriter
  dropWith env G e w.out

/-- src/deflate.rs:79-81 `finish` -/
def deflateFinish [Checks] (env : Env σ) (G : Logger env.F.F64 lam) (e : DeflateEncoder σ) : Log lam (Except ErrKind Unit × σ) := do
  let (r, e, s) ← finishInner env G e
  match r with
  | .ok none => lift none
  | .ok (some _) => do
    let sink ← lift s
    let sink ← dropWith env G e sink
    return (.ok (), sink)
  | .error k => do
    let sink ← lift s
    let sink ← dropWith env G e sink
    return (.error k, sink)

/-- src/gzip.rs:82-92 `write` -/
def gzipWrite [Checks] (env : Env σ) (G : Logger env.F.F64 lam) (e : GzipEncoder σ) (buf : List UInt8) : Log lam (Except ErrKind Nat × GzipEncoder σ) := do
  let d ← lift e.deflate
  let (r, d) ← deflateWrite env G d buf
  match r with
  | .error k => return (.error k, { e with deflate := some d })
  | .ok n => return (.ok n, ⟨some d, (buf.take n).foldl crcUpdate e.crc, e.inputSize + UInt32.ofNat n⟩)

/-- src/gzip.rs:67-78 `__finish` -/
def gzipFinishInner [Checks] (env : Env σ) (G : Logger env.F.F64 lam) (e : GzipEncoder σ) (d : DeflateEncoder σ) : Log lam (Except ErrKind Unit × σ) := do
  let (r, sink) ← deflateFinish env G d
  match r with
  | .error k => return (.error k, sink)
  | .ok () => do
    let (r, sink) ← lift (env.S.writeAll sink (toLeBytes (crcFinalize e.crc)))
    match r with
    | .error k => return (.error k, sink)
    | .ok () => lift (env.S.writeAll sink (toLeBytes e.inputSize))

/-- src/zlib.rs:76-85 `write` -/
def zlibWrite [Checks] (env : Env σ) (G : Logger env.F.F64 lam) (e : ZlibEncoder σ) (buf : List UInt8) : Log lam (Except ErrKind Nat × ZlibEncoder σ) := do
  let d ← lift e.deflate
  let (r, d) ← deflateWrite env G d buf
  match r with
  | .error k => return (.error k, { e with deflate := some d })
  | .ok n => return (.ok n, ⟨some d, (buf.take n).foldl Adler.update e.adler⟩)

/-- src/zlib.rs:62-72 `__finish` -/
def zlibFinishInner [Checks] (env : Env σ) (G : Logger env.F.F64 lam) (e : ZlibEncoder σ) (d : DeflateEncoder σ) : Log lam (Except ErrKind Unit × σ) := do
  let (r, sink) ← deflateFinish env G d
  match r with
  | .error k => return (.error k, sink)
  | .ok () => lift (env.S.writeAll sink (toBeBytes e.adler.finish))

/-- `Write::write` of the encoder: src/gzip.rs:82, src/zlib.rs:76, src/deflate.rs:140 -/
def write [Checks] (env : Env σ) (G : Logger env.F.F64 lam) (e : Encoder σ) (buf : List UInt8) : Log lam (Except ErrKind Nat × Encoder σ) :=
  match e with
  | .gzip e => do let (r, e) ← gzipWrite env G e buf; return (r, .gzip e)
  | .zlib e => do let (r, e) ← zlibWrite env G e buf; return (r, .zlib e)
  | .deflate e => do let (r, e) ← deflateWrite env G e buf; return (r, .deflate e)

/-- `finish` of the encoder: src/gzip.rs:63, src/zlib.rs:58, src/deflate.rs:79 -/
def finish [Checks] (env : Env σ) (G : Logger env.F.F64 lam) (e : Encoder σ) : Log lam (Except ErrKind Unit × σ) :=
  match e with
  | .gzip e => do let d ← lift e.deflate; gzipFinishInner env G e d
  | .zlib e => do let d ← lift e.deflate; zlibFinishInner env G e d
  | .deflate e => deflateFinish env G e

/-- `drop` of an unfinished encoder: src/gzip.rs:99, src/zlib.rs:92, src/deflate.rs:159 -/
def drop [Checks] (env : Env σ) (G : Logger env.F.F64 lam) (e : Encoder σ) : Log lam σ :=
  match e with
  | .gzip e => do let d ← lift e.deflate; let (_, s) ← gzipFinishInner env G e d; return s
  | .zlib e => do let d ← lift e.deflate; let (_, s) ← zlibFinishInner env G e d; return s
  | .deflate e => deflateDrop env G e

/-- Make the calls in order, up to and including the first one that fails. -/
def run [Checks] (env : Env σ) (G : Logger env.F.F64 lam) : List Call → Encoder σ → Log lam (Except ErrKind Unit × Encoder σ)
  | [], e => pure (.ok (), e)
  | .write buf :: l, e => do
    let (r, e) ← write env G e buf
    match r with
    | .ok _ => run env G l e
    | .error k => return (.error k, e)
  | .flush :: l, e => do
    let (r, e) ← lift (e.flush env)
    match r with
    | .ok () => run env G l e
    | .error k => return (.error k, e)

/-- A whole session with a logger: create an encoder, make the calls, end. -/
def session [Checks] (env : Env σ) (G : Logger env.F.F64 lam) (fmt : Format) (calls : List Call) (ending : Ending) (sink : σ) :
    Log lam (Except ErrKind Unit × σ) := do
  let (r, s) ← lift (Encoder.new env fmt sink)
  match r with
  | .error k => return (.error k, s)
  | .ok e => do
    let (r, e) ← run env G calls e
    match r with
    | .error k => do
      let s ← drop env G e
      return (.error k, s)
    | .ok () =>
      match ending with
      | .finish => finish env G e
      | .drop => do
        let s ← drop env G e
        return (.ok (), s)

end Log
end Zopfli
