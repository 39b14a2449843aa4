import Verif.Model.BlockSplitter
/-!
# Model of the second half of `src/deflate.rs`: emitting blocks

The functions that write take a `BitwiseWriter`; the model collects the writer operations they perform, in order,
as a list of `WOp`, which `Verif.Model.Writer` executes on a writer (stopping at the first error, as `?` does).
-/

namespace Zopfli
open Katajainen

/-- src/lib.rs:88-112 `Options` (`NonZeroU64`, `NonZeroU64`, `u16`) -/
structure Options where
  iterationCount : Nat
  iterationsWithoutImprovement : Nat
  maximumBlockSplits : Nat

/-- src/lib.rs:114-122 `Options::default` -/
def Options.default : Options := ⟨15, 2 ^ 64 - 1, 15⟩

/-- One operation on a `BitwiseWriter`: src/deflate.rs:1338 `add_bit`, 1370 `finish_partial_bits`, 1333 `add_bytes` -/
inductive WOp where
  | bit (b : Bool)
  | align
  | bytes (l : List UInt8)
deriving DecidableEq, Repr

/-- src/deflate.rs:1348-1356 `add_bits` -/
def addBits (symbol length : Nat) : List WOp := (List.range length).map fun i => .bit (symbol.testBit i)

/-- src/deflate.rs:1360-1368 `add_huffman_bits` -/
def addHuffmanBits (symbol length : Nat) : List WOp :=
  (List.range length).map fun i => .bit (symbol.testBit (length - i - 1))

/-- src/deflate.rs:1328-1330 `add_byte` -/
def addByte (b : Nat) : List WOp := [.bytes [UInt8.ofNat b]]

/-! ## Trees -/

/-- The variables of `encode_tree` that accumulate its result. -/
structure RleOut where
  clcounts : Array Nat
  rle : Array Nat
  rleBits : Array Nat

/-- src/deflate.rs:686-688, 695-697, 712-714: push one run-length symbol and count it -/
def RleOut.push (o : RleOut) (symbol bits : Nat) : Option RleOut := do
  return ⟨← amod o.clcounts symbol (· + 1), o.rle.push symbol, o.rleBits.push bits⟩

/-- src/deflate.rs:684-690 -/
def rleLoop18 (o : RleOut) (count : Nat) : Option (RleOut × Nat) :=
  if 11 ≤ count then do
    let count2 := if count > 138 then 138 else count
    let o ← o.push 18 (count2 - 11)
    rleLoop18 o (count - count2)
  else some (o, count)
termination_by count
decreasing_by split <;> omega

/-- src/deflate.rs:693-699 -/
def rleLoop17 (o : RleOut) (count : Nat) : Option (RleOut × Nat) :=
  if 3 ≤ count then do
    let count2 := if count > 10 then 10 else count
    let o ← o.push 17 (count2 - 3)
    rleLoop17 o (count - count2)
  else some (o, count)
termination_by count
decreasing_by split <;> omega

/-- src/deflate.rs:710-716 -/
def rleLoop16 (o : RleOut) (count : Nat) : Option (RleOut × Nat) :=
  if 3 ≤ count then do
    let count2 := if count > 6 then 6 else count
    let o ← o.push 16 (count2 - 3)
    rleLoop16 o (count - count2)
  else some (o, count)
termination_by count
decreasing_by split <;> omega

/-- src/deflate.rs:720-725: the remaining items one by one -/
def rleRest (o : RleOut) (symbol : Nat) : Nat → Option RleOut
  | 0 => some o
  | count + 1 => do rleRest (← o.push symbol 0) symbol count

/-- src/deflate.rs:651-727: one iteration of the main loop of `encode_tree` -/
def rleEncodeStep (llLengths dLengths : Array Nat) (hlit2 lldTotal : Nat) (use16 use17 use18 : Bool) :
    Nat × RleOut → Option ((Nat × RleOut) ⊕ RleOut)
  | (i, o) =>
    if i < lldTotal then do
      let symbol ← lenAt llLengths dLengths hlit2 i
      let count ←
        (if use16 ∨ (symbol = 0 ∧ (use17 ∨ use18)) then do
          let s ← lenAt llLengths dLengths hlit2 (i + 1)
          countRun (lenAt llLengths dLengths hlit2) lldTotal symbol (i + 1) s 1
        else some 1)
      let i := i + (count - 1)
      let (o, count) ←
        (if symbol = 0 ∧ count ≥ 3 then do
          let (o, count) ← (if use18 then rleLoop18 o count else some (o, count))
          if use17 then rleLoop17 o count else some (o, count)
        else some (o, count))
      let (o, count) ←
        (if use16 ∧ count ≥ 4 then do
          let o ← o.push symbol 0
          rleLoop16 o (count - 1)
        else some (o, count))
      let o ← rleRest o symbol count
      return .inl (i + 1, o)
    else return .inr o

/-- src/deflate.rs:746-759: one run-length symbol and its extra bits -/
def rleOps (clcl clsymbols : Array Nat) (rleI rleBitsI : Nat) : Option (List WOp) := do
  let sym ← clsymbols[rleI]?
  let extra := if rleI = 16 then addBits rleBitsI 2 else if rleI = 17 then addBits rleBitsI 3
    else if rleI = 18 then addBits rleBitsI 7 else []
  return addHuffmanBits sym (← clcl[rleI]?) ++ extra

/-- src/deflate.rs:617-772 `encode_tree` (its return value is unused by the code and omitted) -/
def encodeTree (llLengths dLengths : Array Nat) (use16 use17 use18 : Bool) : Option (List WOp) := do
  let hlit ← trimZeros (fun h => llLengths[257 + h]?) 29
  let hdist ← trimZeros (fun h => dLengths[1 + h]?) 29
  let hlit2 := hlit + 257
  let lldTotal := hlit2 + hdist + 1
  let o ← loopM (rleEncodeStep llLengths dLengths hlit2 lldTotal use16 use17 use18)
    (0, ⟨Array.replicate 19 0, #[], #[]⟩)
  let clcl ← lengthLimitedCodeLengths o.clcounts 7
  let clsymbols ← lengthsToSymbols clcl 7
  let hclen ← trimZeros (fun h => do o.clcounts[← clOrder[h + 4]?]?) 15
  let lens ← (clOrder.toList.take (hclen + 4)).mapM fun item => do return addBits (← clcl[item]?) 3
  let items ← (o.rle.toList.zip o.rleBits.toList).mapM fun (r, b) => rleOps clcl clsymbols r b
  return addBits hlit 5 ++ addBits hdist 5 ++ addBits hclen 4 ++ lens.flatten ++ items.flatten

/-- src/deflate.rs:774-799 `add_dynamic_tree` -/
def addDynamicTree (llLengths dLengths : Array Nat) : Option (List WOp) := do
  let (best, _) ← forRange 0 8 (0, 0) fun i (best, bestsize) => do
    let size ← encodeTreeNoOutput llLengths dLengths (decide (i &&& 1 > 0)) (decide (i &&& 2 > 0)) (decide (i &&& 4 > 0))
    if bestsize = 0 ∨ size < bestsize then return (i, size) else return (best, bestsize)
  encodeTree llLengths dLengths (decide (best &&& 1 > 0)) (decide (best &&& 2 > 0)) (decide (best &&& 4 > 0))

/-! ## Blocks -/

/-- src/iter.rs:3-25 `flag_last` -/
def flagLast {α : Type} : List α → List (α × Bool)
  | [] => []
  | [x] => [(x, true)]
  | x :: y :: l => (x, false) :: flagLast (y :: l)

/-- `slice.chunks(n)` for `n > 0` (std) -/
def chunksOf {α : Type} (n : Nat) (l : List α) : List (List α) :=
  if h : l = [] ∨ n = 0 then [] else l.take n :: chunksOf n (l.drop n)
termination_by l.length
decreasing_by
  have h1 : l ≠ [] := fun e => h (.inl e)
  have h2 : n ≠ 0 := fun e => h (.inr e)
  have h3 : 0 < l.length := List.length_pos_iff.2 h1
  simp only [List.length_drop]
  omega

/-- src/deflate.rs:1285-1300: one stored block; `nlen = !blocksize` on a 64-bit `usize` -/
def storedBlock (final : Bool) (chunk : List UInt8) : List WOp :=
  let blocksize := chunk.length
  let nlen := 2 ^ 64 - 1 - blocksize
  [.bit final, .bit false, .bit false, .align]
    ++ addByte (blocksize % 256) ++ addByte (blocksize / 256 % 256)
    ++ addByte (nlen % 256) ++ addByte (nlen / 256 % 256) ++ [.bytes chunk]

/-- src/deflate.rs:1263-1304 `add_non_compressed_block` -/
def addNonCompressedBlock (finalBlock : Bool) (inData : Array UInt8) (instart inend : Nat) : Option (List WOp) := do
  let data ← slice inData instart inend
  let chunks := chunksOf 65535 data.toList
  let items := (flagLast chunks ++ [([], true)]).take (if finalBlock then max chunks.length 1 else chunks.length)
  return (items.map fun (chunk, isFinal) => storedBlock (finalBlock && isFinal) chunk).flatten

/-- src/deflate.rs:1014-1043: the operations for one item -/
def itemOps (llSymbols llLengths dSymbols dLengths : Array Nat) : LitLen → Option (List WOp)
  | .literal lit => do
    guardR (lit < 256)                                                        -- line 1018
    guardR ((← llLengths[lit]?) > 0)                                          -- line 1019
    return addHuffmanBits (← llSymbols[lit]?) (← llLengths[lit]?)
  | .lengthDist len dist => do
    guardR (3 ≤ len ∧ len ≤ 288)
    let lls ← getLengthSymbol len
    let ds := getDistSymbol dist
    guardR ((← llLengths[lls]?) > 0)                                          -- line 1028
    guardR ((← dLengths[ds]?) > 0)                                            -- line 1029
    return addHuffmanBits (← llSymbols[lls]?) (← llLengths[lls]?)
      ++ addBits (← getLengthExtraBitsValue len) (← getLengthExtraBits len)
      ++ addHuffmanBits (← dSymbols[ds]?) (← dLengths[ds]?)
      ++ addBits (getDistExtraBitsValue dist) (getDistExtraBits dist)

/-- src/deflate.rs:1001-1046 `add_lz77_data`; the debug assertion at the end is about `expected_data_size`, which is zero (no
expectation) at every call -/
def addLz77Data (lz77 : Lz77Store) (lstart lend : Nat) (llSymbols llLengths dSymbols dLengths : Array Nat) :
    Option (List WOp) := do
  let items ← slice lz77.litlens lstart lend
  let ops ← items.toList.mapM (itemOps llSymbols llLengths dSymbols dLengths)
  return ops.flatten

/-- src/deflate.rs:856-873: the data and the end symbol -/
def addBlockData (lz77 : Lz77Store) (lstart lend : Nat) (llLengths dLengths : Array Nat) : Option (List WOp) := do
  let llSymbols ← lengthsToSymbols llLengths 15
  let dSymbols ← lengthsToSymbols dLengths 15
  let data ← addLz77Data lz77 lstart lend llSymbols llLengths dSymbols dLengths
  return data ++ addHuffmanBits (← llSymbols[256]?) (← llLengths[256]?)

/-- src/deflate.rs:815-889 `add_lz77_block` (the log messages: `Model/Logging.lean`) -/
def addLz77Block [Checks] (btype : BlockType) (finalBlock : Bool) (inData : Array UInt8) (lz77 : Lz77Store)
    (lstart lend : Nat) : Option (List WOp) :=
  match btype with
  | .uncompressed => do
    let length ← lz77.getByteRange lstart lend
    let pos ← (if lstart = lend then some 0 else lz77.pos[lstart]?)
    addNonCompressedBlock finalBlock inData pos (pos + length)
  | .fixed => do
    let (llLengths, dLengths) := fixedTree
    return [.bit finalBlock, .bit true, .bit false] ++ (← addBlockData lz77 lstart lend llLengths dLengths)
  | .dynamic => do
    let (_, llLengths, dLengths) ← getDynamicLengths lz77 lstart lend
    let tree ← addDynamicTree llLengths dLengths
    return [.bit finalBlock, .bit false, .bit true] ++ tree ++ (← addBlockData lz77 lstart lend llLengths dLengths)

/-- src/deflate.rs:1049-1137 `add_lz77_block_auto_type` -/
def addLz77BlockAutoType [Checks] (F : FloatOps) (finalBlock : Bool) (inData : Array UInt8) (lz77 : Lz77Store)
    (lstart lend : Nat) : Option (List WOp) := do
  let uncompressedcost ← calculateBlockSize F lz77 lstart lend .uncompressed
  let fixedcost ← calculateBlockSize F lz77 lstart lend .fixed
  let dyncost ← calculateBlockSize F lz77 lstart lend .dynamic
  let expensivefixed := lz77.size < 1000 ∨ F.le fixedcost (F.mul dyncost F.c11)
  if lstart = lend then
    return addBits finalBlock.toNat 1 ++ addBits 1 2 ++ addBits 0 7
  else do
    let (fixedstore, fixedcost) ←
      (if expensivefixed then do
        let instart ← lz77.pos[lstart]?
        let inend := instart + (← lz77.getByteRange lstart lend)
        let (fixedstore, _) ←
          lz77OptimalFixed F (.lmc (.new (inend - instart))) inData instart inend Lz77Store.new
        some (fixedstore, ← calculateBlockSize F fixedstore 0 fixedstore.size .fixed)
      else some (Lz77Store.new, fixedcost))
    if F.le uncompressedcost fixedcost ∧ F.le uncompressedcost dyncost then
      addLz77Block .uncompressed finalBlock inData lz77 lstart lend
    else if F.le fixedcost dyncost then
      if expensivefixed then addLz77Block .fixed finalBlock inData fixedstore 0 fixedstore.size
      else addLz77Block .fixed finalBlock inData lz77 lstart lend
    else addLz77Block .dynamic finalBlock inData lz77 lstart lend

/-- src/deflate.rs:1161-1164: the non-last blocks; returns the operations and `last` -/
def addSplitBlocks [Checks] (F : FloatOps) (lz77 : Lz77Store) (inData : Array UInt8) :
    List Nat → (last : Nat) → Option (List WOp × Nat)
  | [], last => some ([], last)
  | item :: rest, last => do
    let ops ← addLz77BlockAutoType F false inData lz77 last item
    let (ops', last) ← addSplitBlocks F lz77 inData rest item
    return (ops ++ ops', last)

/-- src/deflate.rs:1153-1174 `add_all_blocks` -/
def addAllBlocks [Checks] (F : FloatOps) (splitpoints : List Nat) (lz77 : Lz77Store) (finalBlock : Bool)
    (inData : Array UInt8) : Option (List WOp) := do
  let (ops, last) ← addSplitBlocks F lz77 inData splitpoints 0
  return ops ++ (← addLz77BlockAutoType F finalBlock inData lz77 last lz77.size)

/-- src/deflate.rs:1214-1216, 1235-1237: append a store to another, item by item -/
def appendStore (lz77 store : Lz77Store) : Option Lz77Store :=
  (store.litlens.toList.zip store.pos.toList).foldlM (fun s (x, p) => s.appendStoreItem x p) lz77

/-- src/deflate.rs:1200-1221: optimise the parts before the split points; the state is
`(lz77, splitpoints, totalcost, last)`.  The debug assertion of line 1213 allows an empty store when the whole part is
empty; there are no split points then. -/
def optimizeParts [Checks] (F : FloatOps) (options : Options) (inData : Array UInt8) :
    List Nat → Lz77Store × List Nat × F.F64 × Nat → Option (Lz77Store × List Nat × F.F64 × Nat)
  | [], st => some st
  | item :: rest, (lz77, splitpoints, totalcost, last) => do
    let store ← lz77Optimal F (.lmc (.new (← usub item last))) inData last item options.iterationCount
      options.iterationsWithoutImprovement
    let totalcost := F.add totalcost (← calculateBlockSizeAutoType F store 0 store.size)
    guardR (store.size > 0)                                                   -- line 1213
    let lz77 ← appendStore lz77 store
    optimizeParts F options inData rest (lz77, splitpoints ++ [lz77.size], totalcost, item)

/-- src/deflate.rs:1242, 1246-1251: the estimated cost of the blocks given by split points -/
def totalCostOf [Checks] (F : FloatOps) (lz77 : Lz77Store) : List Nat → (last : Nat) → F.F64 → Option F.F64
  | [], last, acc => do return F.add acc (← calculateBlockSizeAutoType F lz77 last lz77.size)
  | item :: rest, last, acc => do
    totalCostOf F lz77 rest item (F.add acc (← calculateBlockSizeAutoType F lz77 last item))

/-- src/deflate.rs:1184-1256: the LZ77 data of a part and its block boundaries (as LZ77 indices) -/
def blocksplitPlan [Checks] (F : FloatOps) (options : Options) (inData : Array UInt8) (instart inend : Nat) :
    Option (Lz77Store × List Nat) := do
  let splitpointsUncompressed ← blocksplit F inData instart inend options.maximumBlockSplits
  let (lz77, splitpoints, totalcost, last) ←
    optimizeParts F options inData splitpointsUncompressed (Lz77Store.new, [], F.ofUsize 0, instart)
  let store ← lz77Optimal F (.lmc (.new (← usub inend last))) inData last inend options.iterationCount
    options.iterationsWithoutImprovement
  let totalcost := F.add totalcost (← calculateBlockSizeAutoType F store 0 store.size)
  guardR (instart = inend ∨ store.size > 0)                                   -- line 1234
  let lz77 ← appendStore lz77 store
  if splitpointsUncompressed.length > 1 then do
    let splitpoints2 ← blocksplitLz77 F lz77 options.maximumBlockSplits
    let totalcost2 ← totalCostOf F lz77 splitpoints2 0 (F.ofUsize 0)
    if F.lt totalcost2 totalcost then return (lz77, splitpoints2) else return (lz77, splitpoints)
  else return (lz77, splitpoints)

/-- src/deflate.rs:1176-1259 `blocksplit_attempt` -/
def blocksplitAttempt [Checks] (F : FloatOps) (options : Options) (finalBlock : Bool) (inData : Array UInt8)
    (instart inend : Nat) : Option (List WOp) := do
  let (lz77, splitpoints) ← blocksplitPlan F options inData instart inend
  addAllBlocks F splitpoints lz77 finalBlock inData

/-- src/deflate.rs:186-232 `deflate_part` -/
def deflatePart [Checks] (F : FloatOps) (options : Options) (btype : BlockType) (finalBlock : Bool) (inData : Array UInt8)
    (instart inend : Nat) : Option (List WOp) :=
  match btype with
  | .uncompressed => addNonCompressedBlock finalBlock inData instart inend
  | .fixed => do
    let (store, _) ←
      lz77OptimalFixed F (.lmc (.new (← usub inend instart))) inData instart inend Lz77Store.new
    addLz77Block .fixed finalBlock inData store 0 store.size
  | .dynamic => blocksplitAttempt F options finalBlock inData instart inend

end Zopfli
