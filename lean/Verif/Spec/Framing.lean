import Verif.Spec.Session
/-! # The three formats around the same compressed data -/

namespace Zopfli

/-- A 32-bit number as four bytes, the lowest first. -/
def lowFirst (n : Nat) : List UInt8 := [.ofNat n, .ofNat (n / 2 ^ 8), .ofNat (n / 2 ^ 16), .ofNat (n / 2 ^ 24)]

/-- A DEFLATE stream `body` for `data` in each format: bare; between a gzip header of 10 bytes (deflate, no flags, no time, slowest
compression, Unix) and the CRC-32 and the length modulo 2^32, low bytes first; between a zlib header of two bytes and the Adler-32,
high bytes first. -/
def framed (body data : List UInt8) : Format → List UInt8
  | .deflate => body
  | .gzip => [0x1F, 0x8B, 8, 0, 0, 0, 0, 0, 2, 3] ++ body ++ lowFirst (Rfc.crc32 data).toNat ++ lowFirst (data.length % 2 ^ 32)
  | .zlib => [0x78, 0xDA] ++ body ++ (lowFirst (Rfc.adler32 data)).reverse

end Zopfli
