import Verif.Model.Basic
/-!
# Model of sinks: `std::io::Write` as the crate uses it, and `src/io.rs`

A sink is a state with a `write` and a `flush` method, of which nothing is assumed.  A call returns in any state a
result and a new state, so short writes, errors, interruptions and recoveries are all covered.  A sink that panics is
covered in Model/Unwind.lean; one that never returns is not covered.
-/

namespace Zopfli

/-- src/io.rs:194-211 `ErrorKind`; `other n` stands for every other kind of `std::io::Error`. -/
inductive ErrKind where
  | interrupted
  | writeZero
  | other (n : Nat)
deriving DecidableEq, Repr

/-- src/io.rs:12-50: the required methods of the `Write` trait -/
structure Sink (σ : Type) where
  write : σ → List UInt8 → Except ErrKind Nat × σ
  flush : σ → Except ErrKind Unit × σ

/-- src/io.rs:69-81 `write_all` (the same as in std).  `none`: the sink claims to have written more than it was given
(the slice expression panics), or interrupts for ever. -/
def Sink.writeAll {σ : Type} (S : Sink σ) (s : σ) (buf : List UInt8) : Option (Except ErrKind Unit × σ) :=
  if buf = [] then some (.ok (), s)
  else
    match S.write s buf with
    | (.ok 0, s) => some (.error .writeZero, s)
    | (.ok (n + 1), s) => if n + 1 ≤ buf.length then S.writeAll s (buf.drop (n + 1)) else none
    | (.error .interrupted, s) => S.writeAll s buf
    | (.error e, s) => some (.error e, s)
partial_fixpoint

/-- src/io.rs:123-142 `impl Write for Vec<u8>`: `write` and `flush` -/
def vecSink : Sink (List UInt8) where
  write s buf := (.ok buf.length, s ++ buf)
  flush s := (.ok (), s)

/-- src/io.rs:138-141: `write_all` of `Vec<u8>` -/
def vecWriteAll (s buf : List UInt8) : Except ErrKind Unit × List UInt8 := (.ok (), s ++ buf)

/-- A `&mut [u8]` sink: the bytes already written (behind the slice) and the remaining room of the slice. -/
structure SliceState where
  written : List UInt8
  room : Nat
deriving DecidableEq, Repr

/-- src/io.rs:96-110 `impl Write for &mut [u8]`: `write` and `flush` -/
def sliceSink : Sink SliceState where
  write s buf :=
    let amt := min buf.length s.room
    (.ok amt, ⟨s.written ++ buf.take amt, s.room - amt⟩)
  flush s := (.ok (), s)

/-- src/io.rs:114-120: `write_all` of `&mut [u8]` -/
def sliceWriteAll (s : SliceState) (buf : List UInt8) : Except ErrKind Unit × SliceState :=
  match sliceSink.write s buf with
  | (.ok n, s) => (if n = buf.length then .ok () else .error .writeZero, s)
  | (.error e, s) => (.error e, s)

end Zopfli
