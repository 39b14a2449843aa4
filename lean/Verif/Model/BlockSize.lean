import Verif.Model.Katajainen
import Verif.Model.Tree
import Verif.Model.Lz77
import Verif.Model.Float
/-!
# Model of the first half of `src/deflate.rs`: block types, code lengths and block sizes

`Vec<u32>` of code lengths are arrays of naturals.  `u32` sums that can overflow are computed by `u32`.
-/

namespace Zopfli
open Katajainen

/-- src/deflate.rs:237-259 `BlockType` -/
inductive BlockType where
  | uncompressed
  | fixed
  | dynamic
deriving DecidableEq, Repr

/-- src/deflate.rs:267-275 `fixed_tree` -/
def fixedTree : Array Nat × Array Nat :=
  (Array.replicate 144 8 ++ Array.replicate 112 9 ++ Array.replicate 24 7 ++ Array.replicate 8 8,
   Array.replicate NUM_D 5)

/-- src/deflate.rs:1381-1385 `set_counts_to_count` -/
def setCountsToCount (counts : Array Nat) (count i stride : Nat) : Option (Array Nat) :=
  if stride ≤ i ∧ i ≤ counts.size then
    some (counts.mapIdx fun k x => if i - stride ≤ k ∧ k < i then count else x)
  else none

/-- src/deflate.rs:284-293: the length without trailing zeros -/
def trimTrailing (counts : Array Nat) : Nat → Option Nat
  | 0 => some 0
  | length + 1 => do
    if (← counts[length]?) ≠ 0 then return length + 1
    else trimTrailing counts length

/-- src/deflate.rs:302-316: mark the runs that already encode well -/
def markGoodForRle (counts : Array Nat) (length : Nat) : Option (Array Bool) := do
  let (good, _, _) ← forRange 0 length (Array.replicate length false, ← counts[0]?, 0)
    fun i ((good : Array Bool), symbol, stride) => do
      let count ← counts[i]?
      if count = symbol then return (good, symbol, stride + 1)
      else do
        let good ←
          (if (symbol = 0 ∧ stride ≥ 5) ∨ (symbol ≠ 0 ∧ stride ≥ 7) then
            forRange 0 stride good fun k good => do aset good (← usub (i - k) 1) true
          else some good)
        return (good, count, 1)
  return good

/-- `x as i32` for a `usize`, and the value of a wrapped `i32` computation -/
def wrapI32 (x : Int) : Int := (x + 2 ^ 31) % 2 ^ 32 - 2 ^ 31

/-- src/deflate.rs:324: `(counts[i] as i32 - limit as i32).abs() >= 4` in `i32` arithmetic.  The subtraction and `abs` panic
on overflow in a build with overflow checks; otherwise they wrap (`i32::MIN.abs()` to itself). -/
def farFrom [Checks] (count limit : Nat) : Option Bool :=
  let e := wrapI32 count - wrapI32 limit
  if Checks.on = true ∧ (e ≤ -2 ^ 31 ∨ 2 ^ 31 ≤ e) then none
  else
    let d := wrapI32 e
    some (4 ≤ wrapI32 d.natAbs)

/-- The mutable state of the loop at src/deflate.rs:322-351. -/
structure RleState where
  counts : Array Nat
  stride : Nat
  limit : Nat
  sum : Nat

/-- src/deflate.rs:322-351: one iteration -/
def rleStep [Checks] (length : Nat) (good : Array Bool) (i : Nat) : RleState → Option RleState
  | ⟨counts, stride, limit, sum⟩ => do
    let collapse ←
      (if i = length then some true
      else do if ← good[i]? then some true else farFrom (← counts[i]?) limit)
    let (counts, stride, limit, sum) ←
      (if collapse then do
        let counts ←
          (if stride ≥ 4 ∨ (stride ≥ 3 ∧ sum = 0) then
            setCountsToCount counts (if sum = 0 then 0 else max ((sum + stride / 2) / stride) 1) i stride
          else some counts)
        let limit ←
          (if length > 2 ∧ i < length - 3 then do
            some (((← counts[i]?) + (← counts[i + 1]?) + (← counts[i + 2]?) + (← counts[i + 3]?) + 2) / 4)
          else if i < length then counts[i]?
          else some 0)
        some (counts, 0, limit, 0)
      else some (counts, stride, limit, sum))
    let sum ← (if i ≠ length then do some (sum + (← counts[i]?)) else some sum)
    return ⟨counts, stride + 1, limit, sum⟩

/-- src/deflate.rs:280-352 `optimize_huffman_for_rle` -/
def optimizeHuffmanForRle [Checks] (counts : Array Nat) : Option (Array Nat) := do
  let length ← trimTrailing counts counts.size
  if length = 0 then return counts
  else do
    let good ← markGoodForRle counts length
    let limit ← counts[0]?
    let st ← forRange 0 (length + 1) ⟨counts, 0, limit, 0⟩ fun i st => rleStep length good i st
    return st.counts

/-- src/deflate.rs:364-383 `patch_distance_codes_for_buggy_decoders` -/
def patchDistanceCodes (dLengths : Array Nat) : Option (Array Nat) := do
  let num := ((dLengths.toList.take 30).filter (· ≠ 0)).length
  if num = 0 then do aset (← aset dLengths 0 1) 1 1
  else if num = 1 then do
    let index := if (← dLengths[0]?) ≠ 0 then 1 else 0
    aset dLengths index 1
  else return dLengths

/-- src/deflate.rs:399-413: the contribution of one item -/
def itemSize (llLengths dLengths : Array Nat) : LitLen → Option Nat
  | .literal b => do
    guardR (b < 259)                                                          -- line 401
    llLengths[b]?
  | .lengthDist len dist => do
    guardR (len < 259)                                                        -- line 405
    let llSymbol ← getLengthSymbol len
    let dSymbol := getDistSymbol dist
    return (← llLengths[llSymbol]?) + (← dLengths[dSymbol]?) + (← getLengthSymbolExtraBits llSymbol)
      + (← getDistSymbolExtraBits dSymbol)

/-- src/deflate.rs:387-417 `calculate_block_symbol_size_small`; the sum is a `u32`.  The debug assertion of line 396
is implied by the bounds of the slice. -/
def blockSymbolSizeSmall [Checks] (llLengths dLengths : Array Nat) (lz77 : Lz77Store) (lstart lend : Nat) : Option Nat := do
  let items ← slice lz77.litlens lstart lend
  let result ← forRange 0 items.size 0 fun i r => do u32 (r + (← itemSize llLengths dLengths (← items[i]?)))
  u32 (result + (← llLengths[256]?))

/-- src/deflate.rs:420-447 `calculate_block_symbol_size_given_counts`; sums and products are `u32`, except the products at
lines 438 and 442, which are `usize` and then cut to 32 bits -/
def blockSymbolSizeGivenCounts [Checks] (llCounts dCounts llLengths dLengths : Array Nat) (lz77 : Lz77Store)
    (lstart lend : Nat) : Option Nat :=
  if lstart + NUM_LL * 3 > lend then blockSymbolSizeSmall llLengths dLengths lz77 lstart lend
  else do
    let result ← forRange 0 256 0 fun i r => do
      u32 (r + (← u32 ((← llLengths[i]?) * ((← llCounts[i]?) % 2 ^ 32))))
    let result ← forRange 257 286 result fun i r => do
      let r ← u32 (r + (← u32 ((← llLengths[i]?) * ((← llCounts[i]?) % 2 ^ 32))))
      u32 (r + (← getLengthSymbolExtraBits i) * (← llCounts[i]?) % 2 ^ 32)
    let result ← forRange 0 30 result fun i r => do
      let r ← u32 (r + (← u32 ((← dLengths[i]?) * ((← dCounts[i]?) % 2 ^ 32))))
      u32 (r + (← getDistSymbolExtraBits i) * (← dCounts[i]?) % 2 ^ 32)
    u32 (result + (← llLengths[256]?))

/-- src/deflate.rs:450-471 `calculate_block_symbol_size` -/
def blockSymbolSize [Checks] (llLengths dLengths : Array Nat) (lz77 : Lz77Store) (lstart lend : Nat) : Option Nat :=
  if lstart + NUM_LL * 3 > lend then blockSymbolSizeSmall llLengths dLengths lz77 lstart lend
  else do
    let (llCounts, dCounts) ← lz77.getHistogram lstart lend
    blockSymbolSizeGivenCounts llCounts dCounts llLengths dLengths lz77 lstart lend

/-! ## Size of the encoded trees -/

/-- src/deflate.rs:487-489, 630-632 `order` -/
def clOrder : Array Nat := #[16, 17, 18, 0, 8, 7, 9, 6, 10, 5, 11, 4, 12, 3, 13, 2, 14, 1, 15]

/-- src/deflate.rs:493-498, 576-578, 639-644, 734-736: `while n > 0 && get(n - 1) == 0 { n -= 1 }` -/
def trimZeros (get : Nat → Option Nat) : Nat → Option Nat
  | 0 => some 0
  | n + 1 => do
    if (← get n) = 0 then trimZeros get n else return n + 1

/-- src/deflate.rs:507-511 (also 516-520, 525-529, 653-657, ..): the `i`-th length of the two concatenated lists,
`as u8` -/
def lenAt (llLengths dLengths : Array Nat) (hlit2 i : Nat) : Option Nat := do
  let v ← (if i < hlit2 then llLengths[i]? else dLengths[i - hlit2]?)
  return v % 256

/-- src/deflate.rs:522-530, 668-676: extend a run of equal lengths; returns the final `count` -/
def countRun (get : Nat → Option Nat) (lldTotal symbol : Nat) (j symbolCalc count : Nat) : Option Nat :=
  if j < lldTotal ∧ symbol = symbolCalc then do
    let s ← get (j + 1)
    countRun get lldTotal symbol (j + 1) s (count + 1)
  else some count
termination_by lldTotal - j

/-- src/deflate.rs:538-542 -/
def sizeLoop18 (cl : Array Nat) (count : Nat) : Option (Array Nat × Nat) :=
  if 11 ≤ count then do
    let count2 := if count > 138 then 138 else count
    let cl ← amod cl 18 (· + 1)
    sizeLoop18 cl (count - count2)
  else some (cl, count)
termination_by count
decreasing_by split <;> omega

/-- src/deflate.rs:545-549 -/
def sizeLoop17 (cl : Array Nat) (count : Nat) : Option (Array Nat × Nat) :=
  if 3 ≤ count then do
    let count2 := if count > 10 then 10 else count
    let cl ← amod cl 17 (· + 1)
    sizeLoop17 cl (count - count2)
  else some (cl, count)
termination_by count
decreasing_by split <;> omega

/-- src/deflate.rs:557-561 -/
def sizeLoop16 (cl : Array Nat) (count : Nat) : Option (Array Nat × Nat) :=
  if 3 ≤ count then do
    let count2 := if count > 6 then 6 else count
    let cl ← amod cl 16 (· + 1)
    sizeLoop16 cl (count - count2)
  else some (cl, count)
termination_by count
decreasing_by split <;> omega

/-- src/deflate.rs:505-570: one iteration of the main loop of `encode_tree_no_output` -/
def sizeStep (llLengths dLengths : Array Nat) (hlit2 lldTotal : Nat) (use16 use17 use18 : Bool) :
    Nat × Array Nat → Option ((Nat × Array Nat) ⊕ Array Nat)
  | (i, cl) =>
    if i < lldTotal then do
      let symbol ← lenAt llLengths dLengths hlit2 i
      let count ←
        (if use16 ∨ (symbol = 0 ∧ (use17 ∨ use18)) then do
          let s ← lenAt llLengths dLengths hlit2 (i + 1)
          countRun (lenAt llLengths dLengths hlit2) lldTotal symbol (i + 1) s 1
        else some 1)
      let i := i + (count - 1)
      let (cl, count) ←
        (if symbol = 0 ∧ count ≥ 3 then do
          let (cl, count) ← (if use18 then sizeLoop18 cl count else some (cl, count))
          if use17 then sizeLoop17 cl count else some (cl, count)
        else some (cl, count))
      let (cl, count) ←
        (if use16 ∧ count ≥ 4 then do
          let cl ← amod cl symbol (· + 1)
          sizeLoop16 cl (count - 1)
        else some (cl, count))
      let cl ← amod cl symbol (· + count)
      return .inl (i + 1, cl)
    else return .inr cl

/-- src/deflate.rs:580-590, 761-771: `result_size` -/
def treeBits (clcl clcounts : Array Nat) (hclen : Nat) : Option Nat := do
  let size ← forRange 0 19 (14 + (hclen + 4) * 3) fun i r => do some (r + (← clcl[i]?) * (← clcounts[i]?))
  return size + (← clcounts[16]?) * 2 + (← clcounts[17]?) * 3 + (← clcounts[18]?) * 7

/-- src/deflate.rs:475-591 `encode_tree_no_output` -/
def encodeTreeNoOutput (llLengths dLengths : Array Nat) (use16 use17 use18 : Bool) : Option Nat := do
  let hlit ← trimZeros (fun h => llLengths[257 + h]?) 29
  let hdist ← trimZeros (fun h => dLengths[1 + h]?) 29
  let hlit2 := hlit + 257
  let lldTotal := hlit2 + hdist + 1
  let clcounts ← loopM (sizeStep llLengths dLengths hlit2 lldTotal use16 use17 use18) (0, Array.replicate 19 0)
  let clcl ← lengthLimitedCodeLengths clcounts 7
  let hclen ← trimZeros (fun h => do clcounts[← clOrder[h + 4]?]?) 15
  treeBits clcl clcounts hclen

/-- src/deflate.rs:594-613 `calculate_tree_size`: the minimum over all eight combinations -/
def calculateTreeSize (llLengths dLengths : Array Nat) : Option Nat := do
  let s0 ← encodeTreeNoOutput llLengths dLengths false false false
  let s1 ← encodeTreeNoOutput llLengths dLengths true false false
  let s2 ← encodeTreeNoOutput llLengths dLengths false true false
  let s3 ← encodeTreeNoOutput llLengths dLengths true true false
  let s4 ← encodeTreeNoOutput llLengths dLengths false false true
  let s5 ← encodeTreeNoOutput llLengths dLengths true false true
  let s6 ← encodeTreeNoOutput llLengths dLengths false true true
  let s7 ← encodeTreeNoOutput llLengths dLengths true true true
  return min (min (min (min (min (min (min s0 s1) s2) s3) s4) s5) s6) s7

/-- src/deflate.rs:924-970 `try_optimize_huffman_for_rle`.  The size is returned as a `usize`; the code converts it
to `f64` here (lines 966, 968), the model in `calculateBlockSize`, its only consumer. -/
def tryOptimizeHuffmanForRle [Checks] (lz77 : Lz77Store) (lstart lend : Nat) (llCounts dCounts llLengths dLengths : Array Nat) :
    Option (Nat × Array Nat × Array Nat) := do
  let treesize ← calculateTreeSize llLengths dLengths
  let datasize ← blockSymbolSizeGivenCounts llCounts dCounts llLengths dLengths lz77 lstart lend
  let llCounts2 ← optimizeHuffmanForRle llCounts
  let dCounts2 ← optimizeHuffmanForRle dCounts
  let llLengths2 ← lengthLimitedCodeLengths llCounts2 15
  let dLengths2 ← patchDistanceCodes (← lengthLimitedCodeLengths dCounts2 15)
  let treesize2 ← calculateTreeSize llLengths2 dLengths2
  let datasize2 ← blockSymbolSizeGivenCounts llCounts dCounts llLengths2 dLengths2 lz77 lstart lend
  if treesize2 + datasize2 < treesize + datasize then return (treesize2 + datasize2, llLengths2, dLengths2)
  else return (treesize + datasize, llLengths, dLengths)

/-- src/deflate.rs:977-995 `get_dynamic_lengths` -/
def getDynamicLengths [Checks] (lz77 : Lz77Store) (lstart lend : Nat) : Option (Nat × Array Nat × Array Nat) := do
  let (llCounts, dCounts) ← lz77.getHistogram lstart lend
  let llCounts ← aset llCounts 256 1
  let llLengths ← lengthLimitedCodeLengths llCounts 15
  let dLengths ← patchDistanceCodes (← lengthLimitedCodeLengths dCounts 15)
  tryOptimizeHuffmanForRle lz77 lstart lend llCounts dCounts llLengths dLengths

/-- src/deflate.rs:898-906: the size of a stored block in bits -/
def uncompressedSize (lz77 : Lz77Store) (lstart lend : Nat) : Option Nat := do
  let length ← lz77.getByteRange lstart lend
  let rem := length % 65535
  let blocks := length / 65535 + (if rem > 0 then 1 else 0)
  return blocks * 5 * 8 + length * 8

/-- src/deflate.rs:896-919 `calculate_block_size` -/
def calculateBlockSize [Checks] (F : FloatOps) (lz77 : Lz77Store) (lstart lend : Nat) : BlockType → Option F.F64
  | .uncompressed => do return F.ofUsize (← uncompressedSize lz77 lstart lend)
  | .fixed => do
    let (llLengths, dLengths) := fixedTree
    return F.add (F.ofUsize 3) (F.ofUsize (← blockSymbolSize llLengths dLengths lz77 lstart lend))
  | .dynamic => do
    let (size, _, _) ← getDynamicLengths lz77 lstart lend
    return F.add (F.ofUsize size) (F.ofUsize 3)

/-- src/deflate.rs:1140-1151 `calculate_block_size_auto_type` -/
def calculateBlockSizeAutoType [Checks] (F : FloatOps) (lz77 : Lz77Store) (lstart lend : Nat) : Option F.F64 := do
  let uncompressedcost ← calculateBlockSize F lz77 lstart lend .uncompressed
  let fixedcost ←
    (if lz77.size > 1000 then some uncompressedcost else calculateBlockSize F lz77 lstart lend .fixed)
  let dyncost ← calculateBlockSize F lz77 lstart lend .dynamic
  return F.min (F.min uncompressedcost fixedcost) dyncost

end Zopfli
