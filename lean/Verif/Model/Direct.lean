import Verif.Spec.Session
/-!
# The compressor writing while it computes

In the main model a function that takes a `&mut BitwiseWriter<W>` computes the list of the operations that it performs on the writer, and the list
is executed afterwards (Model/Deflate.lean, Model/Writer.lean).  Here are the functions of src/deflate.rs that write again, in the order of
the source: they compute and write by turns, every call of the writer may fail, and a failure ends the function at that point (`?`).  The
iterators are those of the source: lazy state machines, among them `FlagLastIterator` (src/iter.rs) over a `Peekable`.

Numbers are shifted as in the source: `symbol >> i` on `u32` panics for `i >= 32` in a build with overflow checks, and uses `i` modulo 32 in
a release build.
-/

namespace Zopfli
namespace Direct

/-- A computation that may panic or diverge (`none`), may fail, and writes to a `BitwiseWriter` on its way: a Rust function that takes a
`&mut BitwiseWriter<W>` and returns a `Result<_, Error>`. -/
def Dm (σ α : Type) : Type := BitwiseWriter σ → Option (Except ErrKind α × BitwiseWriter σ)

/-- One after the other: `?` after a call. -/
def Dm.andThen {σ α β : Type} (x : Dm σ α) (f : α → Dm σ β) : Dm σ β := fun w =>
  match x w with
  | none => none
  | some (.error k, w) => some (.error k, w)
  | some (.ok a, w) => f a w

instance {σ : Type} : Monad (Dm σ) where
  pure a := fun w => some (.ok a, w)
  bind := Dm.andThen

/-- A computation that does not touch the writer. -/
def lift {σ α : Type} (o : Option α) : Dm σ α := fun w => o.map fun a => (.ok a, w)

/-- `for x in list { body }` with a body that may fail -/
def each {σ α : Type} : List α → (α → Dm σ Unit) → Dm σ Unit
  | [], _ => pure ()
  | x :: l, body => do body x; each l body

/-! ## `BitwiseWriter` -/

variable {σ : Type} (S : Sink σ)

/-- src/deflate.rs:1333-1336 `add_bytes` -/
def addBytes (bytes : List UInt8) : Dm σ Unit := fun w => w.addBytes S bytes

/-- src/deflate.rs:1328-1330 `add_byte` -/
def addByte (byte : UInt8) : Dm σ Unit := addBytes S [byte]

/-- src/deflate.rs:1370-1378 `finish_partial_bits` -/
def finishPartialBits : Dm σ Unit := fun w => w.finishPartialBits S

/-- src/deflate.rs:1338-1346 `add_bit`, of any `u8` -/
def addBit [Checks] (bit : UInt8) : Dm σ Unit := fun w =>
  if Checks.on = true ∧ 8 ≤ w.bp then none
  else
    let w := { w with bit := w.bit ||| (bit <<< w.bp), bp := w.bp + 1 }
    if w.bp = 8 then w.finishPartialBits S else some (.ok (), w)

/-- `symbol >> i` on `u32` -/
def shr [Checks] (symbol i : Nat) : Option Nat := if Checks.on = true ∧ 32 ≤ i then none else some (symbol >>> (i % 32))

/-- src/deflate.rs:1348-1356 `add_bits` -/
def addBits [Checks] (symbol length : Nat) : Dm σ Unit :=
  each (List.range length) fun i => do
    let x ← lift (shr symbol i)
    addBit S (UInt8.ofNat (x &&& 1))

/-- src/deflate.rs:1360-1368 `add_huffman_bits` -/
def addHuffmanBits [Checks] (symbol length : Nat) : Dm σ Unit :=
  each (List.range length) fun i => do
    let j ← lift (usub length i)
    let j ← lift (usub j 1)
    let x ← lift (shr symbol j)
    addBit S (UInt8.ofNat (x &&& 1))

/-! ## Trees -/

/-- src/deflate.rs:746-759: one run-length symbol and its extra bits -/
def rleItem [Checks] (clcl clsymbols rle rleBits : Array Nat) (i : Nat) : Dm σ Unit := do
  let rleI ← lift rle[i]?
  let rleBitsI ← lift rleBits[i]?
  let sym ← lift clsymbols[rleI]?
  let len ← lift clcl[rleI]?
  addHuffmanBits S sym len
  if rleI = 16 then addBits S rleBitsI 2
  else if rleI = 17 then addBits S rleBitsI 3
  else if rleI = 18 then addBits S rleBitsI 7
  else pure ()

/-- src/deflate.rs:617-772 `encode_tree` (its return value is unused by the code and omitted) -/
def encodeTree [Checks] (llLengths dLengths : Array Nat) (use16 use17 use18 : Bool) : Dm σ Unit := do
  let hlit ← lift (trimZeros (fun h => llLengths[257 + h]?) 29)
  let hdist ← lift (trimZeros (fun h => dLengths[1 + h]?) 29)
  let hlit2 := hlit + 257
  let lldTotal := hlit2 + hdist + 1
  let o ← lift (loopM (rleEncodeStep llLengths dLengths hlit2 lldTotal use16 use17 use18) (0, ⟨Array.replicate 19 0, #[], #[]⟩))
  let clcl ← lift (Katajainen.lengthLimitedCodeLengths o.clcounts 7)
  let clsymbols ← lift (lengthsToSymbols clcl 7)
  let hclen ← lift (trimZeros (fun h => do o.clcounts[← clOrder[h + 4]?]?) 15)
  addBits S hlit 5
  addBits S hdist 5
  addBits S hclen 4
  each (clOrder.toList.take (hclen + 4)) fun item => do
    let len ← lift clcl[item]?
    addBits S len 3
  each (List.range o.rle.size) (rleItem S clcl clsymbols o.rle o.rleBits)

/-- src/deflate.rs:774-799 `add_dynamic_tree` -/
def addDynamicTree [Checks] (llLengths dLengths : Array Nat) : Dm σ Unit := do
  let (best, _) ← lift (forRange 0 8 (0, 0) fun i (best, bestsize) => do
    let size ← encodeTreeNoOutput llLengths dLengths (decide (i &&& 1 > 0)) (decide (i &&& 2 > 0)) (decide (i &&& 4 > 0))
    if bestsize = 0 ∨ size < bestsize then return (i, size) else return (best, bestsize))
  encodeTree S llLengths dLengths (decide (best &&& 1 > 0)) (decide (best &&& 2 > 0)) (decide (best &&& 4 > 0))

/-! ## Iterators -/

/-- `Iterator::next`: the item, if there is one, and the iterator afterwards -/
abbrev Next (ι α : Type) : Type := ι → Option α × ι

/-- `std::slice::Chunks`: the rest of the slice is the state; `chunks(n)` for `n > 0` -/
def chunksNext {α : Type} (n : Nat) : Next (List α) (List α) := fun v =>
  if v = [] then (none, v)
  else
    let k := min v.length n
    (some (v.take k), v.drop k)

/-- `std::slice::Chunks::size_hint().0` -/
def chunksSizeHint {α : Type} (n : Nat) (v : List α) : Nat :=
  if v = [] then 0 else v.length / n + if v.length % n > 0 then 1 else 0

/-- `std::iter::Peekable`: the iterator, and the item that has been looked at, if any (which may be that there is none) -/
structure Peekable (ι α : Type) where
  iter : ι
  peeked : Option (Option α)

variable {ι α : Type}

/-- `Peekable::next` -/
def peekableNext (next : Next ι α) : Next (Peekable ι α) α := fun p =>
  match p.peeked with
  | some v => (v, { p with peeked := none })
  | none => let (v, it) := next p.iter; (v, ⟨it, none⟩)

/-- `Peekable::peek` -/
def peek (next : Next ι α) (p : Peekable ι α) : Option α × Peekable ι α :=
  match p.peeked with
  | some v => (v, p)
  | none => let (v, it) := next p.iter; (v, ⟨it, some v⟩)

/-- src/iter.rs:7-15 `FlagLastIterator::next` -/
def flagLastNext (next : Next ι α) : Next (Peekable ι α) (α × Bool) := fun p =>
  match peekableNext next p with
  | (none, p) => (none, p)
  | (some val, p) =>
    let (x, p) := peek next p
    (some (val, x.isNone), p)

/-- src/iter.rs:17-23 `flag_last` -/
def flagLast (it : ι) : Peekable ι α := ⟨it, none⟩

/-- `std::iter::Chain` with `std::iter::once`: the first iterator, until it has returned `None`, and the one item -/
structure ChainOnce (ι α : Type) where
  a : Option ι
  b : Option α

/-- `Chain::next` -/
def chainNext (next : Next ι α) : Next (ChainOnce ι α) α := fun c =>
  match c.a with
  | none => (c.b, ⟨none, none⟩)
  | some it =>
    match next it with
    | (some x, it) => (some x, { c with a := some it })
    | (none, _) => (c.b, ⟨none, none⟩)

/-- `std::iter::Take`: the iterator and the number of items left -/
structure Take (ι : Type) where
  iter : ι
  n : Nat

/-- `Take::next` -/
def takeNext (next : Next ι α) : Next (Take ι) α := fun t =>
  if t.n ≠ 0 then let (x, it) := next t.iter; (x, ⟨it, t.n - 1⟩) else (none, t)

/-- `for x in it { body }`: ask for the next item and run the body, until there is none or the body fails -/
def forIter (next : Next ι α) (body : α → Dm σ Unit) (it : ι) (w : BitwiseWriter σ) : Option (Except ErrKind Unit × BitwiseWriter σ) :=
  match next it with
  | (none, _) => some (.ok (), w)
  | (some x, it) => body x w >>= fun p =>
    match p with
    | (.ok (), w) => forIter next body it w
    | (.error k, w) => some (.error k, w)
partial_fixpoint

/-! ## Blocks -/

/-- src/deflate.rs:1285-1300: one stored block; `nlen = !blocksize` on a 64-bit `usize` -/
def storedBlock [Checks] (finalBlock : Bool) (x : List UInt8 × Bool) : Dm σ Unit := do
  let (chunk, isFinal) := x
  let blocksize := chunk.length
  let nlen := 2 ^ 64 - 1 - blocksize
  addBit S (if finalBlock && isFinal then 1 else 0)
  addBit S 0
  addBit S 0
  finishPartialBits S
  addByte S (UInt8.ofNat (blocksize % 256))
  addByte S (UInt8.ofNat (blocksize / 256 % 256))
  addByte S (UInt8.ofNat (nlen % 256))
  addByte S (UInt8.ofNat (nlen / 256 % 256))
  addBytes S chunk

/-- src/deflate.rs:1263-1304 `add_non_compressed_block` -/
def addNonCompressedBlock [Checks] (finalBlock : Bool) (inData : Array UInt8) (instart inend : Nat) : Dm σ Unit := do
  let data ← lift (slice inData instart inend)
  let inDataChunks := chunksSizeHint 65535 data.toList
  forIter (takeNext (chainNext (flagLastNext (chunksNext 65535)))) (storedBlock S finalBlock)
    ⟨⟨some (flagLast data.toList), some ([], true)⟩, if finalBlock then max inDataChunks 1 else inDataChunks⟩

/-- src/deflate.rs:1014-1043: one item -/
def item [Checks] (llSymbols llLengths dSymbols dLengths : Array Nat) : LitLen → Dm σ Unit
  | .literal lit => do
    lift (guardR (lit < 256))                                                 -- line 1018
    let n ← lift llLengths[lit]?
    lift (guardR (n > 0))                                                     -- line 1019
    let sym ← lift llSymbols[lit]?
    let len ← lift llLengths[lit]?
    addHuffmanBits S sym len
  | .lengthDist len dist => do
    lift (guardR (3 ≤ len ∧ len ≤ 288))
    let lls ← lift (getLengthSymbol len)
    let ds := getDistSymbol dist
    let n ← lift llLengths[lls]?
    lift (guardR (n > 0))                                                     -- line 1028
    let n ← lift dLengths[ds]?
    lift (guardR (n > 0))                                                     -- line 1029
    let sym ← lift llSymbols[lls]?
    let n ← lift llLengths[lls]?
    addHuffmanBits S sym n
    let v ← lift (getLengthExtraBitsValue len)
    let n ← lift (getLengthExtraBits len)
    addBits S v n
    let sym ← lift dSymbols[ds]?
    let n ← lift dLengths[ds]?
    addHuffmanBits S sym n
    addBits S (getDistExtraBitsValue dist) (getDistExtraBits dist)

/-- src/deflate.rs:1001-1046 `add_lz77_data`; the debug assertion at the end is about `expected_data_size`, which is zero (no
expectation) at every call, and `testlength` is used for nothing else -/
def addLz77Data [Checks] (lz77 : Lz77Store) (lstart lend : Nat) (llSymbols llLengths dSymbols dLengths : Array Nat) : Dm σ Unit := do
  let items ← lift (slice lz77.litlens lstart lend)
  each items.toList (item S llSymbols llLengths dSymbols dLengths)

/-- src/deflate.rs:856-873: the data and the end symbol -/
def addBlockData [Checks] (lz77 : Lz77Store) (lstart lend : Nat) (llLengths dLengths : Array Nat) : Dm σ Unit := do
  let llSymbols ← lift (lengthsToSymbols llLengths 15)
  let dSymbols ← lift (lengthsToSymbols dLengths 15)
  addLz77Data S lz77 lstart lend llSymbols llLengths dSymbols dLengths
  let sym ← lift llSymbols[256]?
  let len ← lift llLengths[256]?
  addHuffmanBits S sym len

/-- src/deflate.rs:815-889 `add_lz77_block` (the log messages: Model/Logging.lean) -/
def addLz77Block [Checks] (btype : BlockType) (finalBlock : Bool) (inData : Array UInt8) (lz77 : Lz77Store) (lstart lend : Nat) : Dm σ Unit :=
  match btype with
  | .uncompressed => do
    let length ← lift (lz77.getByteRange lstart lend)
    let pos ← lift (if lstart = lend then some 0 else lz77.pos[lstart]?)
    addNonCompressedBlock S finalBlock inData pos (pos + length)
  | .fixed => do
    addBit S (if finalBlock then 1 else 0)
    addBit S 1
    addBit S 0
    let (llLengths, dLengths) := fixedTree
    addBlockData S lz77 lstart lend llLengths dLengths
  | .dynamic => do
    addBit S (if finalBlock then 1 else 0)
    addBit S 0
    addBit S 1
    let (_, llLengths, dLengths) ← lift (getDynamicLengths lz77 lstart lend)
    addDynamicTree S llLengths dLengths
    addBlockData S lz77 lstart lend llLengths dLengths

/-- src/deflate.rs:1049-1137 `add_lz77_block_auto_type` -/
def addLz77BlockAutoType [Checks] (F : FloatOps) (finalBlock : Bool) (inData : Array UInt8) (lz77 : Lz77Store) (lstart lend : Nat) :
    Dm σ Unit := do
  let uncompressedcost ← lift (calculateBlockSize F lz77 lstart lend .uncompressed)
  let fixedcost ← lift (calculateBlockSize F lz77 lstart lend .fixed)
  let dyncost ← lift (calculateBlockSize F lz77 lstart lend .dynamic)
  let expensivefixed := lz77.size < 1000 ∨ F.le fixedcost (F.mul dyncost F.c11)
  if lstart = lend then do
    addBits S finalBlock.toNat 1
    addBits S 1 2
    addBits S 0 7
  else do
    let (fixedstore, fixedcost) ← lift
      (if expensivefixed then do
        let instart ← lz77.pos[lstart]?
        let inend := instart + (← lz77.getByteRange lstart lend)
        let (fixedstore, _) ←
          lz77OptimalFixed F (.lmc (.new (inend - instart))) inData instart inend Lz77Store.new
        some (fixedstore, ← calculateBlockSize F fixedstore 0 fixedstore.size .fixed)
      else some (Lz77Store.new, fixedcost))
    if F.le uncompressedcost fixedcost ∧ F.le uncompressedcost dyncost then
      addLz77Block S .uncompressed finalBlock inData lz77 lstart lend
    else if F.le fixedcost dyncost then
      if expensivefixed then addLz77Block S .fixed finalBlock inData fixedstore 0 fixedstore.size
      else addLz77Block S .fixed finalBlock inData lz77 lstart lend
    else addLz77Block S .dynamic finalBlock inData lz77 lstart lend

/-- src/deflate.rs:1161-1164: the non-last blocks; returns `last` -/
def addSplitBlocks [Checks] (F : FloatOps) (lz77 : Lz77Store) (inData : Array UInt8) : List Nat → (last : Nat) → Dm σ Nat
  | [], last => pure last
  | item :: rest, last => do
    addLz77BlockAutoType S F false inData lz77 last item
    addSplitBlocks F lz77 inData rest item

/-- src/deflate.rs:1153-1174 `add_all_blocks` -/
def addAllBlocks [Checks] (F : FloatOps) (splitpoints : List Nat) (lz77 : Lz77Store) (finalBlock : Bool) (inData : Array UInt8) : Dm σ Unit := do
  let last ← addSplitBlocks S F lz77 inData splitpoints 0
  addLz77BlockAutoType S F finalBlock inData lz77 last lz77.size

/-- src/deflate.rs:1176-1259 `blocksplit_attempt`; nothing is written before `add_all_blocks` -/
def blocksplitAttempt [Checks] (F : FloatOps) (options : Options) (finalBlock : Bool) (inData : Array UInt8) (instart inend : Nat) :
    Dm σ Unit := do
  let (lz77, splitpoints) ← lift (blocksplitPlan F options inData instart inend)
  addAllBlocks S F splitpoints lz77 finalBlock inData

/-- src/deflate.rs:186-232 `deflate_part` -/
def deflatePart [Checks] (F : FloatOps) (options : Options) (btype : BlockType) (finalBlock : Bool) (inData : Array UInt8) (instart inend : Nat) :
    Dm σ Unit :=
  match btype with
  | .uncompressed => addNonCompressedBlock S finalBlock inData instart inend
  | .fixed => do
    let n ← lift (usub inend instart)
    let (store, _) ← lift (lz77OptimalFixed F (.lmc (.new n)) inData instart inend Lz77Store.new)
    addLz77Block S .fixed finalBlock inData store 0 store.size
  | .dynamic => blocksplitAttempt S F options finalBlock inData instart inend

end Direct
end Zopfli
