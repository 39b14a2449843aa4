import Verif.Spec.Session
import Verif.Spec.Main
/-!
# Streams followed by other bytes, and streams cut short
-/

namespace Rfc

/-- RFC 1952: decompress the gzip member (FLG = 0) at the start of a byte string; returns the data and the bytes after the
member. -/
def gunzipMember : List UInt8 → Option (List UInt8 × List UInt8)
  | 31 :: 139 :: 8 :: 0 :: _ :: _ :: _ :: _ :: _xfl :: _os :: body => do
    let (data, tail) ← inflatePrefix body
    let crc ← le32? (tail.take 4)
    let isize ← le32? ((tail.drop 4).take 4)
    if crc = (crc32 data).toNat ∧ isize = data.length % 2 ^ 32 then some (data, tail.drop 8) else none
  | _ => none

/-- RFC 1952 section 2.2: "A gzip file consists of a series of members".  The data of a file is the concatenation of the
data of its members. -/
def gunzipFile (bytes : List UInt8) : Option (List UInt8) :=
  if bytes = [] then some []
  else do
    let (data, rest) ← gunzipMember bytes
    let more ← gunzipFile rest
    return data ++ more
partial_fixpoint

/-- RFC 1950: decompress the zlib stream (CM = 8, CINFO = 7, no preset dictionary) at the start of a byte string; returns the
data and the bytes after the stream. -/
def zlibMember : List UInt8 → Option (List UInt8 × List UInt8)
  | cmf :: flg :: body => do
    if cmf.toNat ≠ 0x78 then none
    if flg.toNat.testBit 5 then none
    if (256 * cmf.toNat + flg.toNat) % 31 ≠ 0 then none
    let (data, tail) ← inflatePrefix body
    let adler ← be32? (tail.take 4)
    if adler = adler32 data then some (data, tail.drop 4) else none
  | _ => none

end Rfc

namespace Zopfli

/-- The decoder of a format for a stream that may be followed by other bytes, which are returned. -/
def decodeMember : Format → List UInt8 → Option (List UInt8 × List UInt8)
  | .gzip => Rfc.gunzipMember
  | .zlib => Rfc.zlibMember
  | .deflate => Rfc.inflatePrefix

/-- A session: the options, the block type and the calls. -/
structure Job where
  options : Options
  btype : BlockType
  calls : List Call

/-- The data of a job. -/
def Job.data (j : Job) : List UInt8 := (writesOf j.calls).flatten

/-- Sessions one after the other on the same sink, each ended by `finish`; the first error ends everything. -/
def sessions {σ : Type} (F : FloatOps) (S : Sink σ) (fmt : Format) : List Job → σ → Option (Except ErrKind Unit × σ)
  | [], s => some (.ok (), s)
  | j :: l, s => do
    let (r, s) ← session ⟨F, S, j.options, j.btype⟩ fmt j.calls .finish s
    match r with
    | .ok () => sessions F S fmt l s
    | .error k => return (.error k, s)

/-- The disk dies at time `T` (it is full, or removed, or the process is killed): until then writing does not fail, though
transfers may be cut and interrupted; from then on every attempt fails. -/
structure DiesAt (os : Os) (T : Nat) : Prop where
  before_write : ∀ w name len, w.time < T → os.writeFile w name len = .error .interrupted ∨ ∃ n, os.writeFile w name len = .ok (n + 1)
  before_flush : ∀ w name, w.time < T → os.flushFile w name = none
  after_write : ∀ w name len, T ≤ w.time → ∃ k, k ≠ .interrupted ∧ os.writeFile w name len = .error k
  after_flush : ∀ w name, T ≤ w.time → ∃ k, os.flushFile w name = some k

end Zopfli
