import Mathlib.Data.Rat.Defs
import Mathlib.Algebra.Field.Rat
import Verif.Spec.Session
/-!
# Vocabulary for the shape of streams: prefix codes, block symbols, where the DEFLATE body sits
-/

namespace Rfc

/-- The Kraft sum `Σ 2^-l` over the used symbols (those with a non-zero length), as a rational number. -/
def kraftSum (lens : List Nat) : Rat := (lens.map fun l => if l = 0 then 0 else (1 / 2 : Rat) ^ l).sum

/-- How many symbols have a code. -/
def usedSymbols (lens : List Nat) : Nat := (lens.filter (· ≠ 0)).length

/-- The literals and back-references of a block, in order (a stored block has none). -/
def Block.syms (b : Block) : List Sym :=
  match b.body with
  | .stored _ => []
  | .fixed l => l
  | .dynamic _ l => l

/-- RFC 1951 section 3.1.1: eight bits (or fewer, with zeros for the missing ones) as a byte, the first bit least
significant. -/
def packByte (l : List Bool) : UInt8 := UInt8.ofNat (l.foldr (fun b v => b.toNat + 2 * v) 0)

/-- Bits packed into bytes; the last byte is padded with zeros. -/
def packBits : List Bool → List UInt8
  | [] => []
  | b :: l => packByte ((b :: l).take 8) :: packBits ((b :: l).drop 8)
termination_by l => l.length
decreasing_by simp only [List.length_drop, List.length_cons]; omega

end Rfc

namespace Zopfli

/-- How many bytes precede the DEFLATE body in each format. -/
def Format.headerSize : Format → Nat
  | .gzip => 10
  | .zlib => 2
  | .deflate => 0

/-- How many bytes follow the DEFLATE body in each format. -/
def Format.trailerSize : Format → Nat
  | .gzip => 8
  | .zlib => 4
  | .deflate => 0

/-- `body` is `stream` without the header and the trailer of the format. -/
def IsBody (fmt : Format) (stream body : List UInt8) : Prop :=
  ∃ header trailer, stream = header ++ body ++ trailer ∧ header.length = fmt.headerSize ∧ trailer.length = fmt.trailerSize

/-- RFC 1951 section 3.2.4, at a byte boundary: BFINAL and BTYPE = 00 padded to a byte, LEN, NLEN (the one's complement
of LEN), and the data. -/
def storedBlockBytes (final : Bool) (data : List UInt8) : List UInt8 :=
  [if final then 1 else 0, UInt8.ofNat (data.length % 256), UInt8.ofNat (data.length / 256),
   UInt8.ofNat (255 - data.length % 256), UInt8.ofNat (255 - data.length / 256)] ++ data

/-- A chunk as stored blocks of 65535 bytes, the last one possibly shorter and possibly final.  An empty chunk is not
written unless it is the last one. -/
def storedChunk (final : Bool) (data : List UInt8) : List UInt8 :=
  if data.length ≤ 65535 then
    if data = [] ∧ final = false then [] else storedBlockBytes final data
  else storedBlockBytes false (data.take 65535) ++ storedChunk final (data.drop 65535)
termination_by data.length
decreasing_by simp only [List.length_drop]; omega

/-- All the chunks, the last one final; without any chunk, one empty final block. -/
def storedStream : List (List UInt8) → List UInt8
  | [] => storedChunk true []
  | [w] => storedChunk true w
  | w :: v :: l => storedChunk false w ++ storedStream (v :: l)

/-- The bit sequence that writer operations stand for, after the bits `sofar`: a bit is appended; alignment appends zeros up
to a multiple of eight; whole bytes may only be appended at a multiple of eight. -/
def bitSequence : List Bool → List WOp → Option (List Bool)
  | sofar, [] => some sofar
  | sofar, .bit b :: ops => bitSequence (sofar ++ [b]) ops
  | sofar, .align :: ops => bitSequence (sofar ++ List.replicate ((8 - sofar.length % 8) % 8) false) ops
  | sofar, .bytes l :: ops => if sofar.length % 8 = 0 then bitSequence (sofar ++ Rfc.bytesBits l) ops else none

/-- What an encoder keeps in memory: history and pending chunk, and where the chunk starts. -/
def Encoder.retained {σ : Type} : Encoder σ → Option (List UInt8 × Nat)
  | .deflate e => some (e.windowAndChunk.toList, e.chunkStart)
  | .gzip e => e.deflate.map fun d => (d.windowAndChunk.toList, d.chunkStart)
  | .zlib e => e.deflate.map fun d => (d.windowAndChunk.toList, d.chunkStart)

end Zopfli
