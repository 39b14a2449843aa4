import Verif.Spec.Inflate
/-!
# RFC 1952 (gzip) and RFC 1950 (zlib) containers, and their checksums
-/

namespace Rfc

/-- RFC 1952 section 8: one step of the CRC, bit by bit (reflected polynomial 0xEDB88320). -/
def crcBit (c : UInt32) : UInt32 := if c &&& 1 = 1 then (c >>> 1) ^^^ 0xEDB88320 else c >>> 1

/-- RFC 1952 section 8: feed one byte. -/
def crcByte (c : UInt32) (b : UInt8) : UInt32 :=
  crcBit (crcBit (crcBit (crcBit (crcBit (crcBit (crcBit (crcBit (c ^^^ b.toUInt32))))))))

/-- CRC-32 of a byte string. -/
def crc32 (data : List UInt8) : UInt32 := (data.foldl crcByte 0xFFFFFFFF) ^^^ 0xFFFFFFFF

/-- RFC 1950 section 8.2: the two running sums modulo 65521. -/
def adlerStep (st : Nat × Nat) (b : UInt8) : Nat × Nat :=
  let a := (st.1 + b.toNat) % 65521
  (a, (st.2 + a) % 65521)

/-- Adler-32 of a byte string. -/
def adler32 (data : List UInt8) : Nat :=
  let (a, b) := data.foldl adlerStep (1, 0)
  b * 65536 + a

/-- Four little-endian bytes as a number, if there are exactly four. -/
def le32? : List UInt8 → Option Nat
  | [a, b, c, d] => some (a.toNat + 256 * b.toNat + 65536 * c.toNat + 16777216 * d.toNat)
  | _ => none

/-- Four big-endian bytes as a number, if there are exactly four. -/
def be32? (l : List UInt8) : Option Nat := le32? l.reverse

/-- RFC 1952: decompress a byte string that is exactly one gzip member without optional header fields (FLG = 0).
MTIME, XFL and OS are ignored, as the RFC allows. -/
def gunzip : List UInt8 → Option (List UInt8)
  | 31 :: 139 :: 8 :: 0 :: _ :: _ :: _ :: _ :: _xfl :: _os :: body => do
    let (data, trailer) ← inflatePrefix body
    let crc ← le32? (trailer.take 4)
    let isize ← le32? (trailer.drop 4)
    if crc = (crc32 data).toNat ∧ isize = data.length % 2 ^ 32 then some data else none
  | _ => none

/-- RFC 1950: decompress a byte string that is exactly one zlib stream with CM = 8, CINFO = 7 and no preset
dictionary. -/
def zlibDecode : List UInt8 → Option (List UInt8)
  | cmf :: flg :: body => do
    if cmf.toNat ≠ 0x78 then none                        -- CM = 8, CINFO = 7 (32 KiB window)
    if flg.toNat.testBit 5 then none                     -- FDICT
    if (256 * cmf.toNat + flg.toNat) % 31 ≠ 0 then none  -- FCHECK
    let (data, trailer) ← inflatePrefix body
    let adler ← be32? trailer
    if adler = adler32 data then some data else none
  | _ => none

end Rfc
