import Verif.Model.Writer
/-!
# Model of `DeflateEncoder`, `GzipEncoder` and `ZlibEncoder`

The models are generic in the sink `S : Sink σ`.  The crates `crc32fast` and `simd_adler32` are replaced by direct
implementations of the checksums (below).
-/

namespace Zopfli

/-- What never changes during the life of an encoder: the floating point implementation, the sink's methods, and the
arguments of `new`. -/
structure Env (σ : Type) where
  F : FloatOps
  S : Sink σ
  options : Options
  btype : BlockType

/-- src/deflate.rs:36-43 `DeflateEncoder` (the options and block type are in `Env`) -/
structure DeflateEncoder (σ : Type) where
  haveChunk : Bool
  chunkStart : Nat
  windowAndChunk : Array UInt8
  bitwiseWriter : Option (BitwiseWriter σ)

/-- src/deflate.rs:48-57 `DeflateEncoder::new` -/
def DeflateEncoder.new {σ : Type} (sink : σ) : DeflateEncoder σ := ⟨false, 0, #[], some (.new sink)⟩

/-- src/deflate.rs:87-97 `compress_chunk`; `unwrap` panics when the writer is gone -/
def DeflateEncoder.compressChunk [Checks] {σ : Type} (env : Env σ) (e : DeflateEncoder σ) (isLast : Bool) :
    Option (Except ErrKind Unit × DeflateEncoder σ) := do
  let w ← e.bitwiseWriter
  let ops ← deflatePart env.F env.options env.btype isLast e.windowAndChunk e.chunkStart e.windowAndChunk.size
  let (r, w) ← w.execAll env.S ops
  return (r, { e with bitwiseWriter := some w })

/-- src/deflate.rs:102-118 `set_chunk` -/
def DeflateEncoder.setChunk {σ : Type} (e : DeflateEncoder σ) (chunk : List UInt8) : DeflateEncoder σ :=
  let w := e.windowAndChunk.extract (e.windowAndChunk.size - WINDOW_SIZE) e.windowAndChunk.size
  { e with chunkStart := w.size, windowAndChunk := w ++ chunk.toArray, haveChunk := true }

/-- src/deflate.rs:125-136 `__finish`.  Returns the result (`none`: nothing to do; `some sink`: the sink), the encoder
as it is left behind, and the last state of the sink.  When `finish_partial_bits` fails the writer has been taken and
is dropped. -/
def DeflateEncoder.finishInner [Checks] {σ : Type} (env : Env σ) (e : DeflateEncoder σ) :
    Option (Except ErrKind (Option σ) × DeflateEncoder σ × Option σ) :=
  match e.bitwiseWriter with
  | none => some (.ok none, e, none)
  | some _ => do
    let (r, e) ← e.compressChunk env true
    match r with
    | .error k => return (.error k, e, e.bitwiseWriter.map (·.out))
    | .ok () => do
      let w ← e.bitwiseWriter
      let (r, w) ← w.finishPartialBits env.S
      let e := { e with bitwiseWriter := none }
      match r with
      | .error k => return (.error k, e, some w.out)
      | .ok () => return (.ok (some w.out), e, some w.out)

/-- src/deflate.rs:140-152 `write` -/
def DeflateEncoder.write [Checks] {σ : Type} (env : Env σ) (e : DeflateEncoder σ) (buf : List UInt8) :
    Option (Except ErrKind Nat × DeflateEncoder σ) := do
  let (r, e) ← (if e.haveChunk then e.compressChunk env false else some (.ok (), e))
  match r with
  | .error k => return (.error k, e)
  | .ok () => return (.ok buf.length, e.setChunk buf)

/-- src/deflate.rs:154-156 `flush` -/
def DeflateEncoder.flush {σ : Type} (env : Env σ) (e : DeflateEncoder σ) :
    Option (Except ErrKind Unit × DeflateEncoder σ) := do
  let w ← e.bitwiseWriter
  let (r, out) := env.S.flush w.out
  return (r, { e with bitwiseWriter := some { w with out := out } })

/-- src/deflate.rs:159-163 `drop`: `__finish` again, its error ignored.  `sink` is the state of the sink before; the
result is its state after. -/
def DeflateEncoder.dropWith [Checks] {σ : Type} (env : Env σ) (e : DeflateEncoder σ) (sink : σ) : Option σ := do
  let (_, _, s) ← e.finishInner env
  return s.getD sink

/-- Dropping an encoder whose sink is still inside it: src/deflate.rs:159-163. -/
def DeflateEncoder.drop [Checks] {σ : Type} (env : Env σ) (e : DeflateEncoder σ) : Option σ := do
  let w ← e.bitwiseWriter
  e.dropWith env w.out

/-- src/deflate.rs:79-81 `finish`: `__finish`, then (`self` being consumed) `drop`.  Returns the result and the final
state of the sink, whether it is returned to the caller or not. -/
def DeflateEncoder.finish [Checks] {σ : Type} (env : Env σ) (e : DeflateEncoder σ) : Option (Except ErrKind Unit × σ) := do
  let (r, e, s) ← e.finishInner env
  match r with
  | .ok none => none                       -- `sink.unwrap()` panics
  | .ok (some _) => return (.ok (), ← e.dropWith env (← s))
  | .error k => return (.error k, ← e.dropWith env (← s))

/-! ## Checksums -/

/-- crate `crc32fast` (external): the CRC-32 register, updated by one byte, by table-free bitwise division -/
def crcUpdate (c : UInt32) (b : UInt8) : UInt32 :=
  (List.range 8).foldl (fun c _ => if c &&& 1 = 1 then (c >>> 1) ^^^ 0xEDB88320 else c >>> 1) (c ^^^ b.toUInt32)

/-- crate `crc32fast` (external): `Hasher::finalize` -/
def crcFinalize (c : UInt32) : UInt32 := c ^^^ 0xFFFFFFFF

/-- crate `simd_adler32` (external): the two sums -/
structure Adler where
  a : Nat
  b : Nat

/-- crate `simd_adler32` (external): `Adler32::new` -/
def Adler.new : Adler := ⟨1, 0⟩

/-- crate `simd_adler32` (external): one byte of `Adler32::write` -/
def Adler.update (s : Adler) (x : UInt8) : Adler :=
  let a := (s.a + x.toNat) % 65521
  ⟨a, (s.b + a) % 65521⟩

/-- crate `simd_adler32` (external): `Adler32::finish` -/
def Adler.finish (s : Adler) : UInt32 := UInt32.ofNat (s.b * 65536 + s.a)

/-- `u32::to_le_bytes` -/
def toLeBytes (x : UInt32) : List UInt8 :=
  [x.toUInt8, (x >>> 8).toUInt8, (x >>> 16).toUInt8, (x >>> 24).toUInt8]

/-- `u32::to_be_bytes` -/
def toBeBytes (x : UInt32) : List UInt8 := (toLeBytes x).reverse

/-! ## gzip -/

/-- src/gzip.rs:10-14 `GzipEncoder` -/
structure GzipEncoder (σ : Type) where
  deflate : Option (DeflateEncoder σ)
  crc : UInt32
  inputSize : UInt32

/-- src/gzip.rs:20-28 `HEADER` -/
def gzipHeader : List UInt8 := [31, 139, 8, 0, 0, 0, 0, 0, 2, 3]

/-- src/gzip.rs:19-37 `GzipEncoder::new`; on an error the sink is dropped (its last state is returned) -/
def GzipEncoder.new {σ : Type} (env : Env σ) (sink : σ) : Option (Except ErrKind (GzipEncoder σ) × σ) := do
  let (r, sink) ← env.S.writeAll sink gzipHeader
  match r with
  | .error k => return (.error k, sink)
  | .ok () => return (.ok ⟨some (.new sink), 0xFFFFFFFF, 0⟩, sink)

/-- src/gzip.rs:82-92 `write` -/
def GzipEncoder.write [Checks] {σ : Type} (env : Env σ) (e : GzipEncoder σ) (buf : List UInt8) :
    Option (Except ErrKind Nat × GzipEncoder σ) := do
  let d ← e.deflate
  let (r, d) ← d.write env buf
  match r with
  | .error k => return (.error k, { e with deflate := some d })
  | .ok n => return (.ok n, ⟨some d, (buf.take n).foldl crcUpdate e.crc, e.inputSize + UInt32.ofNat n⟩)

/-- src/gzip.rs:94-96 `flush` -/
def GzipEncoder.flush {σ : Type} (env : Env σ) (e : GzipEncoder σ) :
    Option (Except ErrKind Unit × GzipEncoder σ) := do
  let d ← e.deflate
  let (r, d) ← d.flush env
  return (r, { e with deflate := some d })

/-- src/gzip.rs:67-78 `__finish` when the inner encoder is present (it is taken in every case) -/
def GzipEncoder.finishInner [Checks] {σ : Type} (env : Env σ) (e : GzipEncoder σ) (d : DeflateEncoder σ) :
    Option (Except ErrKind Unit × σ) := do
  let (r, sink) ← d.finish env
  match r with
  | .error k => return (.error k, sink)
  | .ok () => do
    let (r, sink) ← env.S.writeAll sink (toLeBytes (crcFinalize e.crc))
    match r with
    | .error k => return (.error k, sink)
    | .ok () => env.S.writeAll sink (toLeBytes e.inputSize)

/-- src/gzip.rs:63-65 `finish`; the `drop` that follows (99-103) finds no inner encoder and does nothing -/
def GzipEncoder.finish [Checks] {σ : Type} (env : Env σ) (e : GzipEncoder σ) : Option (Except ErrKind Unit × σ) := do
  e.finishInner env (← e.deflate)

/-- src/gzip.rs:99-103 `drop` of an unfinished encoder -/
def GzipEncoder.drop [Checks] {σ : Type} (env : Env σ) (e : GzipEncoder σ) : Option σ := do
  return (← e.finishInner env (← e.deflate)).2

/-! ## zlib -/

/-- src/zlib.rs:10-13 `ZlibEncoder` -/
structure ZlibEncoder (σ : Type) where
  deflate : Option (DeflateEncoder σ)
  adler : Adler

/-- src/zlib.rs:19-26: the two header bytes -/
def zlibHeader : List UInt8 :=
  let cmf := 120
  let flevel := 3
  let fdict := 0
  let cmfflg := 256 * cmf + fdict * 32 + flevel * 64
  let fcheck := 31 - cmfflg % 31
  let cmfflg := cmfflg + fcheck
  [UInt8.ofNat (cmfflg / 256), UInt8.ofNat (cmfflg % 256)]

/-- src/zlib.rs:18-32 `ZlibEncoder::new` -/
def ZlibEncoder.new {σ : Type} (env : Env σ) (sink : σ) : Option (Except ErrKind (ZlibEncoder σ) × σ) := do
  let (r, sink) ← env.S.writeAll sink zlibHeader
  match r with
  | .error k => return (.error k, sink)
  | .ok () => return (.ok ⟨some (.new sink), .new⟩, sink)

/-- src/zlib.rs:76-85 `write` -/
def ZlibEncoder.write [Checks] {σ : Type} (env : Env σ) (e : ZlibEncoder σ) (buf : List UInt8) :
    Option (Except ErrKind Nat × ZlibEncoder σ) := do
  let d ← e.deflate
  let (r, d) ← d.write env buf
  match r with
  | .error k => return (.error k, { e with deflate := some d })
  | .ok n => return (.ok n, ⟨some d, (buf.take n).foldl Adler.update e.adler⟩)

/-- src/zlib.rs:87-89 `flush` -/
def ZlibEncoder.flush {σ : Type} (env : Env σ) (e : ZlibEncoder σ) :
    Option (Except ErrKind Unit × ZlibEncoder σ) := do
  let d ← e.deflate
  let (r, d) ← d.flush env
  return (r, { e with deflate := some d })

/-- src/zlib.rs:62-72 `__finish` when the inner encoder is present (it is taken in every case) -/
def ZlibEncoder.finishInner [Checks] {σ : Type} (env : Env σ) (e : ZlibEncoder σ) (d : DeflateEncoder σ) :
    Option (Except ErrKind Unit × σ) := do
  let (r, sink) ← d.finish env
  match r with
  | .error k => return (.error k, sink)
  | .ok () => env.S.writeAll sink (toBeBytes e.adler.finish)

/-- src/zlib.rs:58-60 `finish`; the `drop` that follows (92-96) finds no inner encoder and does nothing -/
def ZlibEncoder.finish [Checks] {σ : Type} (env : Env σ) (e : ZlibEncoder σ) : Option (Except ErrKind Unit × σ) := do
  e.finishInner env (← e.deflate)

/-- src/zlib.rs:92-96 `drop` of an unfinished encoder -/
def ZlibEncoder.drop [Checks] {σ : Type} (env : Env σ) (e : ZlibEncoder σ) : Option σ := do
  return (← e.finishInner env (← e.deflate)).2

end Zopfli
