import Verif.Spec.Layout
import Verif.Spec.Session
/-!
# How large a compressed stream can be
-/

namespace Zopfli

/-- The most bits for a chunk of `n` bytes: stored, five bytes for each started piece of 65535 bytes; with the fixed codes, nine
bits for each byte and ten bits for the block; in the default mode, five bytes for each full 65535 bytes and 42 bits for each
of the at most `splits` pieces. -/
def chunkBound (bt : BlockType) (splits n : Nat) : Nat :=
  match bt with
  | .uncompressed => 8 * n + 40 * max 1 ((n + 65534) / 65535)
  | .fixed => 9 * n + 10
  | .dynamic => 8 * n + 40 * (n / 65535) + 42 * max 1 splits

/-- The most bytes for a session that makes the given writes: header, trailer, and the chunks, padded to a whole byte. -/
def sizeBound (bt : BlockType) (splits : Nat) (fmt : Format) (writes : List (List UInt8)) : Nat :=
  fmt.headerSize + (((chunksOfWrites writes).map fun w => chunkBound bt splits w.length).sum + 7) / 8 + fmt.trailerSize

/-- The most bytes for `compress` with `n` bytes of data, which it compresses in pieces of more than 991,808 bytes (but the last). -/
def compressBound (splits : Nat) (fmt : Format) (n : Nat) : Nat :=
  fmt.headerSize + (8 * n + 40 * (n / 65535) + 42 * max 1 splits * (n / 991809 + 1) + 7) / 8 + fmt.trailerSize

end Zopfli
