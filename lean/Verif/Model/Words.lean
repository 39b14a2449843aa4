import Verif.Model.BlockSize
/-!
# Code lengths and block sizes in machine words

In the other models a `usize` is a natural number.  Here the computations on counts and weights, the only ones whose results are not indices
into data in memory, are done again with numbers of `W` bits: a result that does not fit panics in a build with overflow checks and loses
its upper bits in another.  The functions are those of `Model/Katajainen.lean` and `Model/BlockSize.lean`, with `usize` around every
addition and multiplication of such numbers; `u32` computations are as there.
-/

namespace Zopfli.Words
open Katajainen

/-- The result of an operation on `usize` of `W` bits: panic or loss of the upper bits if it does not fit. -/
def usize [Checks] (W x : Nat) : Option Nat :=
  if x < 2 ^ W then some x else if Checks.on = true then none else some (x % 2 ^ W)

/-- src/katajainen.rs:135-181 `Thing::boundary_pm` -/
def boundaryPm [Checks] (W : Nat) (leaves : Array Leaf) : (index : Nat) → Array PmList → Option (Array PmList)
  | 0, lists => do
    let l ← lists[0]?
    let lastCount := l.lookahead1.count
    if lastCount ≥ leaves.size then return lists
    else do
      let leaf ← leaves[lastCount]?
      aset lists 0 ⟨l.lookahead1, .mk leaf.weight (← usize W (lastCount + 1)) l.lookahead1.tail⟩
  | index + 1, lists => do
    let l ← lists[index + 1]?
    let lastCount := l.lookahead1.count
    let prev ← lists[index]?
    let weightSum ← usize W (prev.lookahead0.weight + prev.lookahead1.weight)
    match leaves[lastCount]? with
    | some leaf =>
      if weightSum > leaf.weight then do
        aset lists (index + 1) ⟨l.lookahead1, .mk leaf.weight (← usize W (lastCount + 1)) l.lookahead1.tail⟩
      else do
        let lists ← aset lists (index + 1) ⟨l.lookahead1, .chain weightSum lastCount prev.lookahead1⟩
        let lists ← boundaryPm W leaves index lists
        boundaryPm W leaves index lists
    | none => do
      let lists ← aset lists (index + 1) ⟨l.lookahead1, .chain weightSum lastCount prev.lookahead1⟩
      let lists ← boundaryPm W leaves index lists
      boundaryPm W leaves index lists

/-- src/katajainen.rs:183-207 `Thing::boundary_pm_final` -/
def boundaryPmFinal [Checks] (W : Nat) (leaves : Array Leaf) (index : Nat) (lists : Array PmList) : Option (Array PmList) := do
  let l ← lists[index]?
  let lastCount := l.lookahead1.count
  if index = 0 then none
  else do
    let prev ← lists[index - 1]?
    let weightSum ← usize W (prev.lookahead0.weight + prev.lookahead1.weight)
    match leaves[lastCount]? with
    | some leaf =>
      if weightSum > leaf.weight then do
        aset lists index ⟨l.lookahead0, .mk 0 (← usize W (lastCount + 1)) l.lookahead1.tail⟩
      else
        aset lists index ⟨l.lookahead0, .chain l.lookahead1.weight l.lookahead1.count prev.lookahead1⟩
    | none =>
      aset lists index ⟨l.lookahead0, .chain l.lookahead1.weight l.lookahead1.count prev.lookahead1⟩

/-- src/katajainen.rs:54-132 `length_limited_code_lengths`.  The numbers in `extract_bit_lengths` are counts of symbols and are not computed
but copied. -/
def lengthLimitedCodeLengths [Checks] (W : Nat) (frequencies : Array Nat) (maxBits : Nat) : Option (Array Nat) := do
  let numFreqs := frequencies.size
  guardR (numFreqs ≤ 288)
  let leaves := (usedLeaves frequencies).toArray
  let numSymbols := leaves.size
  if numSymbols ≤ 2 then
    forRange 0 numSymbols (Array.replicate numFreqs 0) fun i bl => do aset bl (← leaves[i]?).count 1
  else do
    let leaves := (leaves.toList.mergeSort fun a b => a.weight ≤ b.weight).toArray
    let maxBits := min (numSymbols - 1) maxBits
    guardR (maxBits ≤ 15)
    let node0 := Node.root (← leaves[0]?).weight 1
    let node1 := Node.root (← leaves[1]?).weight 2
    let lists := Array.replicate 15 (⟨node0, node1⟩ : PmList)
    let numBoundaryPmRuns ← usub (← usize W (2 * numSymbols)) 4
    if maxBits = 0 then none
    else do
      let lists ← forRange 0 (numBoundaryPmRuns - 1) lists fun _ lists => boundaryPm W leaves (maxBits - 1) lists
      let lists ← boundaryPmFinal W leaves (maxBits - 1) lists
      extractBitLengths leaves lists maxBits numFreqs

/-- src/deflate.rs:322-351: one iteration -/
def rleStep [Checks] (W length : Nat) (good : Array Bool) (i : Nat) : RleState → Option RleState
  | ⟨counts, stride, limit, sum⟩ => do
    let collapse ←
      (if i = length then some true
      else do if ← good[i]? then some true else farFrom (← counts[i]?) limit)
    let (counts, stride, limit, sum) ←
      (if collapse then do
        let counts ←
          (if stride ≥ 4 ∨ (stride ≥ 3 ∧ sum = 0) then do
            let count ← (if sum = 0 then some 0 else do some (max ((← usize W (sum + stride / 2)) / stride) 1))
            setCountsToCount counts count i stride
          else some counts)
        let limit ←
          (if length > 2 ∧ i < length - 3 then do
            let s ← usize W ((← counts[i]?) + (← counts[i + 1]?))
            let s ← usize W (s + (← counts[i + 2]?))
            let s ← usize W (s + (← counts[i + 3]?))
            some ((← usize W (s + 2)) / 4)
          else if i < length then counts[i]?
          else some 0)
        some (counts, 0, limit, 0)
      else some (counts, stride, limit, sum))
    let sum ← (if i ≠ length then do usize W (sum + (← counts[i]?)) else some sum)
    return ⟨counts, stride + 1, limit, sum⟩

/-- src/deflate.rs:280-352 `optimize_huffman_for_rle` -/
def optimizeHuffmanForRle [Checks] (W : Nat) (counts : Array Nat) : Option (Array Nat) := do
  let length ← trimTrailing counts counts.size
  if length = 0 then return counts
  else do
    let good ← markGoodForRle counts length
    let limit ← counts[0]?
    let st ← forRange 0 (length + 1) ⟨counts, 0, limit, 0⟩ fun i st => rleStep W length good i st
    return st.counts

/-- src/deflate.rs:420-447 `calculate_block_symbol_size_given_counts` -/
def blockSymbolSizeGivenCounts [Checks] (W : Nat) (llCounts dCounts llLengths dLengths : Array Nat) (lz77 : Lz77Store)
    (lstart lend : Nat) : Option Nat :=
  if lstart + NUM_LL * 3 > lend then blockSymbolSizeSmall llLengths dLengths lz77 lstart lend
  else do
    let result ← forRange 0 256 0 fun i r => do
      u32 (r + (← u32 ((← llLengths[i]?) * ((← llCounts[i]?) % 2 ^ 32))))
    let result ← forRange 257 286 result fun i r => do
      let r ← u32 (r + (← u32 ((← llLengths[i]?) * ((← llCounts[i]?) % 2 ^ 32))))
      u32 (r + (← usize W ((← getLengthSymbolExtraBits i) * (← llCounts[i]?))) % 2 ^ 32)
    let result ← forRange 0 30 result fun i r => do
      let r ← u32 (r + (← u32 ((← dLengths[i]?) * ((← dCounts[i]?) % 2 ^ 32))))
      u32 (r + (← usize W ((← getDistSymbolExtraBits i) * (← dCounts[i]?))) % 2 ^ 32)
    u32 (result + (← llLengths[256]?))

/-- src/deflate.rs:450-471 `calculate_block_symbol_size` -/
def blockSymbolSize [Checks] (W : Nat) (llLengths dLengths : Array Nat) (lz77 : Lz77Store) (lstart lend : Nat) : Option Nat :=
  if lstart + NUM_LL * 3 > lend then blockSymbolSizeSmall llLengths dLengths lz77 lstart lend
  else do
    let (llCounts, dCounts) ← lz77.getHistogram lstart lend
    blockSymbolSizeGivenCounts W llCounts dCounts llLengths dLengths lz77 lstart lend

/-- src/deflate.rs:580-590, 761-771: `result_size` -/
def treeBits [Checks] (W : Nat) (clcl clcounts : Array Nat) (hclen : Nat) : Option Nat := do
  let size ← forRange 0 19 (14 + (hclen + 4) * 3) fun i r => do usize W (r + (← usize W ((← clcl[i]?) * (← clcounts[i]?))))
  let size ← usize W (size + (← usize W ((← clcounts[16]?) * 2)))
  let size ← usize W (size + (← usize W ((← clcounts[17]?) * 3)))
  usize W (size + (← usize W ((← clcounts[18]?) * 7)))

/-- src/deflate.rs:475-591 `encode_tree_no_output` -/
def encodeTreeNoOutput [Checks] (W : Nat) (llLengths dLengths : Array Nat) (use16 use17 use18 : Bool) : Option Nat := do
  let hlit ← trimZeros (fun h => llLengths[257 + h]?) 29
  let hdist ← trimZeros (fun h => dLengths[1 + h]?) 29
  let hlit2 := hlit + 257
  let lldTotal := hlit2 + hdist + 1
  let clcounts ← loopM (sizeStep llLengths dLengths hlit2 lldTotal use16 use17 use18) (0, Array.replicate 19 0)
  let clcl ← lengthLimitedCodeLengths W clcounts 7
  let hclen ← trimZeros (fun h => do clcounts[← clOrder[h + 4]?]?) 15
  treeBits W clcl clcounts hclen

/-- src/deflate.rs:594-613 `calculate_tree_size` -/
def calculateTreeSize [Checks] (W : Nat) (llLengths dLengths : Array Nat) : Option Nat := do
  let s0 ← encodeTreeNoOutput W llLengths dLengths false false false
  let s1 ← encodeTreeNoOutput W llLengths dLengths true false false
  let s2 ← encodeTreeNoOutput W llLengths dLengths false true false
  let s3 ← encodeTreeNoOutput W llLengths dLengths true true false
  let s4 ← encodeTreeNoOutput W llLengths dLengths false false true
  let s5 ← encodeTreeNoOutput W llLengths dLengths true false true
  let s6 ← encodeTreeNoOutput W llLengths dLengths false true true
  let s7 ← encodeTreeNoOutput W llLengths dLengths true true true
  return min (min (min (min (min (min (min s0 s1) s2) s3) s4) s5) s6) s7

/-- src/deflate.rs:924-970 `try_optimize_huffman_for_rle` -/
def tryOptimizeHuffmanForRle [Checks] (W : Nat) (lz77 : Lz77Store) (lstart lend : Nat) (llCounts dCounts llLengths dLengths : Array Nat) :
    Option (Nat × Array Nat × Array Nat) := do
  let treesize ← calculateTreeSize W llLengths dLengths
  let datasize ← blockSymbolSizeGivenCounts W llCounts dCounts llLengths dLengths lz77 lstart lend
  let llCounts2 ← optimizeHuffmanForRle W llCounts
  let dCounts2 ← optimizeHuffmanForRle W dCounts
  let llLengths2 ← lengthLimitedCodeLengths W llCounts2 15
  let dLengths2 ← patchDistanceCodes (← lengthLimitedCodeLengths W dCounts2 15)
  let treesize2 ← calculateTreeSize W llLengths2 dLengths2
  let datasize2 ← blockSymbolSizeGivenCounts W llCounts dCounts llLengths2 dLengths2 lz77 lstart lend
  let size2 ← usize W (treesize2 + datasize2)
  let size ← usize W (treesize + datasize)
  if size2 < size then return (size2, llLengths2, dLengths2) else return (size, llLengths, dLengths)

/-- src/deflate.rs:977-995 `get_dynamic_lengths` -/
def getDynamicLengths [Checks] (W : Nat) (lz77 : Lz77Store) (lstart lend : Nat) : Option (Nat × Array Nat × Array Nat) := do
  let (llCounts, dCounts) ← lz77.getHistogram lstart lend
  let llCounts ← aset llCounts 256 1
  let llLengths ← lengthLimitedCodeLengths W llCounts 15
  let dLengths ← patchDistanceCodes (← lengthLimitedCodeLengths W dCounts 15)
  tryOptimizeHuffmanForRle W lz77 lstart lend llCounts dCounts llLengths dLengths

/-- src/lz77.rs:370-377 `get_byte_range` -/
def getByteRange [Checks] (W : Nat) (s : Lz77Store) (lstart lend : Nat) : Option Nat :=
  if lstart = lend then some 0
  else do
    let l ← usub lend 1
    let e ← usize W ((← s.pos[l]?) + (← s.litlens[l]?).size)
    usub e (← s.pos[lstart]?)

/-- src/deflate.rs:898-906: the size of a stored block in bits -/
def uncompressedSize [Checks] (W : Nat) (lz77 : Lz77Store) (lstart lend : Nat) : Option Nat := do
  let length ← getByteRange W lz77 lstart lend
  let rem := length % 65535
  let blocks := length / 65535 + (if rem > 0 then 1 else 0)
  usize W ((← usize W ((← usize W (blocks * 5)) * 8)) + (← usize W (length * 8)))

/-- src/deflate.rs:896-919 `calculate_block_size` -/
def calculateBlockSize [Checks] (W : Nat) (F : FloatOps) (lz77 : Lz77Store) (lstart lend : Nat) : BlockType → Option F.F64
  | .uncompressed => do return F.ofUsize (← uncompressedSize W lz77 lstart lend)
  | .fixed => do
    let (llLengths, dLengths) := fixedTree
    return F.add (F.ofUsize 3) (F.ofUsize (← blockSymbolSize W llLengths dLengths lz77 lstart lend))
  | .dynamic => do
    let (size, _, _) ← getDynamicLengths W lz77 lstart lend
    return F.add (F.ofUsize size) (F.ofUsize 3)

/-- src/deflate.rs:1140-1151 `calculate_block_size_auto_type` -/
def calculateBlockSizeAutoType [Checks] (W : Nat) (F : FloatOps) (lz77 : Lz77Store) (lstart lend : Nat) : Option F.F64 := do
  let uncompressedcost ← calculateBlockSize W F lz77 lstart lend .uncompressed
  let fixedcost ←
    (if lz77.size > 1000 then some uncompressedcost else calculateBlockSize W F lz77 lstart lend .fixed)
  let dyncost ← calculateBlockSize W F lz77 lstart lend .dynamic
  return F.min (F.min uncompressedcost fixedcost) dyncost

end Zopfli.Words
