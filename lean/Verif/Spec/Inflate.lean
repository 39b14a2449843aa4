/-!
# RFC 1951 (DEFLATE), as a specification

Written from the RFC alone; it does not mention the model of zopfli.  A byte string is first *parsed* into a list
of blocks of literal / back-reference symbols (`parse`), then the back-references are resolved (`expand`).
`inflate` is the composition.

The parser is strict, like zlib's `inflate` and stricter than the RFC: all three Huffman codes of a dynamic block
must be complete, the end-of-block symbol must have a code, at most 286 / 30 codes may be declared, and symbols
286, 287 (literal/length) and 30, 31 (distance) are rejected.
-/

namespace Rfc

/-- A bit source: the unread bits, and how many bits have been read so far (needed for byte alignment). -/
structure Bits where
  bits : List Bool
  pos : Nat
deriving Repr, DecidableEq

/-- RFC 1951 section 3.1.1: within a byte, bits are read starting with the least significant one. -/
def byteBits (b : UInt8) : List Bool := (List.range 8).map fun i => b.toNat.testBit i

/-- The bits of a byte string in reading order. -/
def bytesBits (bs : List UInt8) : List Bool := bs.flatMap byteBits

/-- Read one bit. -/
def Bits.next : Bits → Option (Bool × Bits)
  | ⟨[], _⟩ => none
  | ⟨b :: r, p⟩ => some (b, ⟨r, p + 1⟩)

/-- Read an `n`-bit integer, least significant bit first (3.1.1: "data elements other than Huffman codes are
packed starting with the least-significant bit"). -/
def Bits.nat : Nat → Bits → Option (Nat × Bits)
  | 0, s => some (0, s)
  | n + 1, s => do
    let (b, s) ← s.next
    let (v, s) ← Bits.nat n s
    return (b.toNat + 2 * v, s)

/-- Skip to the next byte boundary. -/
def Bits.align (s : Bits) : Option Bits :=
  let k := (8 - s.pos % 8) % 8
  if k ≤ s.bits.length then some ⟨s.bits.drop k, s.pos + k⟩ else none

/-- Read `n` whole bytes. -/
def Bits.bytes : Nat → Bits → Option (List UInt8 × Bits)
  | 0, s => some ([], s)
  | n + 1, s => do
    let (v, s) ← s.nat 8
    let (l, s) ← Bits.bytes n s
    return (UInt8.ofNat v :: l, s)

/-! ## Huffman codes (3.2.1, 3.2.2) -/

/-- The symbols having code length `len`, in increasing order. -/
def symsOfLen (lens : List Nat) (len : Nat) : List Nat :=
  (List.range lens.length).filter fun i => lens[i]? == some len

/-- Kraft sum of the non-zero lengths, in units of `2^-15`. -/
def kraft15 (lens : List Nat) : Nat := (lens.map fun l => if l = 0 then 0 else 2 ^ (15 - l)).sum

/-- All lengths are at most `limit`, and the code is complete: every sufficiently long bit string starts with
exactly one codeword. -/
def completeCode (limit : Nat) (lens : List Nat) : Bool :=
  lens.all (· ≤ limit) && kraft15 lens == 2 ^ 15

/-- Decode one symbol.  `len` bits with value `code` (first bit most significant) have been read;
`first` is the value of the first codeword of length `len + 1`.  3.2.2: all codes of a given bit length have
consecutive values in the order of the symbols, and shorter codes lexicographically precede longer codes, so the
first codeword of length `l + 1` is twice (first codeword of length `l` + number of codewords of length `l`). -/
def decodeFrom (lens : List Nat) : (fuel len code first : Nat) → Bits → Option (Nat × Bits)
  | 0, _, _, _, _ => none
  | fuel + 1, len, code, first, s => do
    let (b, s) ← s.next
    let code := 2 * code + b.toNat
    match (symsOfLen lens (len + 1))[code - first]? with
    | some sym => return (sym, s)
    | none => decodeFrom lens fuel (len + 1) code (2 * (first + (symsOfLen lens (len + 1)).length)) s

/-- Decode one symbol of the canonical Huffman code with code lengths `lens` (at most 15 bits). -/
def decodeSym (lens : List Nat) (s : Bits) : Option (Nat × Bits) := decodeFrom lens 15 0 0 0 s

/-! ## Symbols (3.2.5) -/

/-- A decoded LZ77 symbol: a literal byte, or "copy `len` bytes from `dist` bytes back". -/
inductive Sym where
  | lit (b : UInt8)
  | copy (len dist : Nat)
deriving Repr, DecidableEq

/-- First length of length code 257 + i. -/
def lengthBase : List Nat :=
  [3, 4, 5, 6, 7, 8, 9, 10, 11, 13, 15, 17, 19, 23, 27, 31, 35, 43, 51, 59, 67, 83, 99, 115, 131, 163, 195, 227, 258]
/-- Extra bits of length code 257 + i. -/
def lengthExtra : List Nat :=
  [0, 0, 0, 0, 0, 0, 0, 0, 1, 1, 1, 1, 2, 2, 2, 2, 3, 3, 3, 3, 4, 4, 4, 4, 5, 5, 5, 5, 0]
/-- First distance of distance code i. -/
def distBase : List Nat :=
  [1, 2, 3, 4, 5, 7, 9, 13, 17, 25, 33, 49, 65, 97, 129, 193, 257, 385, 513, 769, 1025, 1537, 2049, 3073, 4097, 6145,
   8193, 12289, 16385, 24577]
/-- Extra bits of distance code i. -/
def distExtra : List Nat :=
  [0, 0, 0, 0, 1, 1, 2, 2, 3, 3, 4, 4, 5, 5, 6, 6, 7, 7, 8, 8, 9, 9, 10, 10, 11, 11, 12, 12, 13, 13]

/-- One element of a compressed block: `none` is the end-of-block symbol. -/
def readSym (ll d : List Nat) (s : Bits) : Option (Option Sym × Bits) := do
  let (v, s) ← decodeSym ll s
  if v < 256 then return (some (.lit (UInt8.ofNat v)), s)
  else if v = 256 then return (none, s)
  else
    let base ← lengthBase[v - 257]?
    let extra ← lengthExtra[v - 257]?
    let (e, s) ← s.nat extra
    let (dv, s) ← decodeSym d s
    let dbase ← distBase[dv]?
    let dextra ← distExtra[dv]?
    let (de, s) ← s.nat dextra
    return (some (.copy (base + e) (dbase + de)), s)

/-- The elements of a compressed block up to and including the end-of-block symbol. -/
def readSyms (ll d : List Nat) (s : Bits) : Option (List Sym × Bits) := do
  let (x, s) ← readSym ll d s
  match x with
  | none => return ([], s)
  | some x => do
    let (l, s) ← readSyms ll d s
    return (x :: l, s)
partial_fixpoint

/-! ## Blocks (3.2.3 - 3.2.7) -/

/-- 3.2.6 -/
def fixedLL : List Nat :=
  List.replicate 144 8 ++ List.replicate 112 9 ++ List.replicate 24 7 ++ List.replicate 8 8
/-- 3.2.6 -/
def fixedD : List Nat := List.replicate 32 5

/-- 3.2.7: the order in which the lengths of the code length code are stored. -/
def clOrder : List Nat := [16, 17, 18, 0, 8, 7, 9, 6, 10, 5, 11, 4, 12, 3, 13, 2, 14, 1, 15]

/-- Read `n` 3-bit numbers. -/
def readCl : Nat → Bits → Option (List Nat × Bits)
  | 0, s => some ([], s)
  | n + 1, s => do
    let (v, s) ← s.nat 3
    let (l, s) ← readCl n s
    return (v :: l, s)

/-- The length assigned to code-length symbol `i` by the stored list `vals` (missing ones are zero). -/
def clLens (vals : List Nat) : List Nat :=
  (List.range 19).map fun i => (vals[clOrder.idxOf i]?).getD 0

/-- 3.2.7: read code lengths until there are `total`; repeat codes may not overshoot. -/
def readLens (cl : List Nat) (total : Nat) (acc : List Nat) (s : Bits) : Option (List Nat × Bits) :=
  if acc.length = total then some (acc, s)
  else if acc.length > total then none
  else do
    let (v, s) ← decodeSym cl s
    if v < 16 then readLens cl total (acc ++ [v]) s
    else if v = 16 then do
      let prev ← acc.getLast?
      let (r, s) ← s.nat 2
      readLens cl total (acc ++ List.replicate (3 + r) prev) s
    else if v = 17 then do
      let (r, s) ← s.nat 3
      readLens cl total (acc ++ List.replicate (3 + r) 0) s
    else do
      let (r, s) ← s.nat 7
      readLens cl total (acc ++ List.replicate (11 + r) 0) s
partial_fixpoint

/-- The Huffman codes of a dynamic block: the code length code, and the two codes it describes. -/
structure DynHeader where
  cl : List Nat
  ll : List Nat
  d : List Nat
deriving Repr, DecidableEq

/-- 3.2.7, with the strictness described at the top of this file. -/
def readDynHeader (s : Bits) : Option (DynHeader × Bits) := do
  let (hlit, s) ← s.nat 5
  let (hdist, s) ← s.nat 5
  let (hclen, s) ← s.nat 4
  if hlit + 257 > 286 ∨ hdist + 1 > 30 then none
  let (vals, s) ← readCl (hclen + 4) s
  let cl := clLens vals
  if ¬ completeCode 7 cl then none
  let (lens, s) ← readLens cl (hlit + 257 + (hdist + 1)) [] s
  let ll := lens.take (hlit + 257)
  let d := lens.drop (hlit + 257)
  if ¬ completeCode 15 ll ∨ ¬ completeCode 15 d ∨ ll[256]? = some 0 then none
  return (⟨cl, ll, d⟩, s)

/-- The contents of a block. -/
inductive Body where
  | stored (data : List UInt8)
  | fixed (syms : List Sym)
  | dynamic (hdr : DynHeader) (syms : List Sym)
deriving Repr, DecidableEq

/-- A block: the BFINAL flag and the contents. -/
structure Block where
  final : Bool
  body : Body
deriving Repr, DecidableEq

/-- 3.2.3: one block. -/
def readBlock (s : Bits) : Option (Block × Bits) := do
  let (final, s) ← s.next
  let (btype, s) ← s.nat 2
  if btype = 0 then
    -- 3.2.4
    let s ← s.align
    let (len, s) ← s.nat 16
    let (nlen, s) ← s.nat 16
    if len + nlen ≠ 65535 then none
    let (data, s) ← s.bytes len
    return (⟨final, .stored data⟩, s)
  else if btype = 1 then
    let (syms, s) ← readSyms fixedLL fixedD s
    return (⟨final, .fixed syms⟩, s)
  else if btype = 2 then
    let (h, s) ← readDynHeader s
    let (syms, s) ← readSyms h.ll h.d s
    return (⟨final, .dynamic h syms⟩, s)
  else none

/-- 3.2.3: blocks up to and including the first one marked final. -/
def readBlocks (s : Bits) : Option (List Block × Bits) := do
  let (b, s) ← readBlock s
  if b.final then return ([b], s)
  else do
    let (l, s) ← readBlocks s
    return (b :: l, s)
partial_fixpoint

/-! ## Resolving back-references (3.2.3) -/

/-- Append `n` bytes, each a copy of the byte `dist` positions before the end. -/
def copyBytes (dist : Nat) : Nat → Array UInt8 → Option (Array UInt8)
  | 0, out => some out
  | n + 1, out => do
    if dist = 0 ∨ out.size < dist then none
    let b ← out[out.size - dist]?
    copyBytes dist n (out.push b)

/-- The effect of one symbol on the output; a distance beyond the 32 KiB window or beyond the start is an error. -/
def expandSym (out : Array UInt8) : Sym → Option (Array UInt8)
  | .lit b => some (out.push b)
  | .copy len dist => if 32768 < dist then none else copyBytes dist len out

/-- The effect of a list of symbols on the output. -/
def expandSyms : Array UInt8 → List Sym → Option (Array UInt8)
  | out, [] => some out
  | out, x :: l => do expandSyms (← expandSym out x) l

/-- The effect of a block on the output. -/
def expandBlock (out : Array UInt8) (b : Block) : Option (Array UInt8) :=
  match b.body with
  | .stored data => some (out ++ data.toArray)
  | .fixed syms => expandSyms out syms
  | .dynamic _ syms => expandSyms out syms

/-- The effect of a list of blocks on the output. -/
def expand : Array UInt8 → List Block → Option (Array UInt8)
  | out, [] => some out
  | out, b :: l => do expand (← expandBlock out b) l

/-! ## Streams -/

/-- Parse the DEFLATE stream at the start of `bytes`; returns the blocks and the bytes after the one in which the
stream ends (the padding bits of that byte are ignored). -/
def parse (bytes : List UInt8) : Option (List Block × List UInt8) := do
  let (blocks, s) ← readBlocks ⟨bytesBits bytes, 0⟩
  return (blocks, bytes.drop ((s.pos + 7) / 8))

/-- Decompress the DEFLATE stream at the start of `bytes`; returns the data and the bytes after the stream. -/
def inflatePrefix (bytes : List UInt8) : Option (List UInt8 × List UInt8) := do
  let (blocks, rest) ← parse bytes
  let out ← expand #[] blocks
  return (out.toList, rest)

/-- Decompress a byte string that consists of exactly one DEFLATE stream. -/
def inflate (bytes : List UInt8) : Option (List UInt8) := do
  let (data, rest) ← inflatePrefix bytes
  if rest = [] then some data else none

end Rfc
