import Verif.Model.Io
/-!
# A byte slice in memory

`sliceSink` (Model/Io.lean) is the byte slice as a sink, seen from the writer: what was written and how much room is left.  Here is the slice as a
part of a larger memory that belongs to the caller, with the steps of the source.
-/

namespace Zopfli

/-- `&mut [u8]`: a part of a memory; with the memory -/
structure MemSlice where
  mem : List UInt8
  start : Nat
  len : Nat
deriving DecidableEq, Repr

/-- `<[T]>::split_at_mut` (std): two slices; panics if `mid` is beyond the end.  The result: start and length of both. -/
def splitAtMut (start len mid : Nat) : Option ((Nat × Nat) × (Nat × Nat)) :=
  if mid ≤ len then some ((start, mid), (start + mid, len - mid)) else none

/-- `<[T]>::copy_from_slice` (std): panics if the lengths differ -/
def copyFromSlice (mem : List UInt8) (start len : Nat) (src : List UInt8) : Option (List UInt8) :=
  if src.length = len then some (mem.take start ++ src ++ mem.drop (start + len)) else none

/-- src/io.rs:99-105 `write` of `&mut [u8]` -/
def memSliceWrite (s : MemSlice) (data : List UInt8) : Option (Nat × MemSlice) := do
  let amt := min data.length s.len
  let (a, b) ← splitAtMut s.start s.len amt
  let mem ← copyFromSlice s.mem a.1 a.2 (data.take amt)
  return (amt, ⟨mem, b.1, b.2⟩)

/-- src/io.rs:96-121 `impl Write for &mut [u8]` as a sink (`write` does not panic: `C79_write`) -/
def memSliceSink : Sink MemSlice where
  write s data :=
    match memSliceWrite s data with
    | some (n, s) => (.ok n, s)
    | none => (.ok 0, s)
  flush s := (.ok (), s)

/-- src/io.rs:114-120: `write_all` of `&mut [u8]` -/
def memSliceWriteAll (s : MemSlice) (data : List UInt8) : Option (Except ErrKind Unit × MemSlice) := do
  let (n, s) ← memSliceWrite s data
  return (if n = data.length then .ok () else .error .writeZero, s)

end Zopfli
