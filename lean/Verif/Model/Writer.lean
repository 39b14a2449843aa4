import Verif.Model.Io
import Verif.Model.Deflate
/-!
# Model of `BitwiseWriter` (src/deflate.rs:1306-1379)

Results are `Option (Except ErrKind α × state)`: `none` is a panic or divergence, and the state is returned with an
error too, because the caller can go on using the writer.
-/

namespace Zopfli

/-- src/deflate.rs:1306-1311 `BitwiseWriter` -/
structure BitwiseWriter (σ : Type) where
  bit : UInt8
  bp : UInt8
  len : Nat
  out : σ

/-- src/deflate.rs:1314-1321 `BitwiseWriter::new` -/
def BitwiseWriter.new {σ : Type} (out : σ) : BitwiseWriter σ := ⟨0, 0, 0, out⟩

/-- src/deflate.rs:1323-1325 `bytes_written` -/
def BitwiseWriter.bytesWritten {σ : Type} (w : BitwiseWriter σ) : Nat := w.len + if w.bp > 0 then 1 else 0

/-- src/deflate.rs:1333-1336 `add_bytes` -/
def BitwiseWriter.addBytes {σ : Type} (S : Sink σ) (w : BitwiseWriter σ) (bytes : List UInt8) :
    Option (Except ErrKind Unit × BitwiseWriter σ) := do
  let (r, out) ← S.writeAll w.out bytes
  return (r, { w with len := w.len + bytes.length, out := out })

/-- src/deflate.rs:1370-1378 `finish_partial_bits` -/
def BitwiseWriter.finishPartialBits {σ : Type} (S : Sink σ) (w : BitwiseWriter σ) :
    Option (Except ErrKind Unit × BitwiseWriter σ) :=
  if w.bp ≠ 0 then do
    let (r, w) ← w.addBytes S [w.bit]
    match r with
    | .ok () => return (.ok (), { w with bit := 0, bp := 0 })
    | .error e => return (.error e, w)
  else some (.ok (), w)

/-- src/deflate.rs:1338-1346 `add_bit`.  In a release build `bit << bp` uses `bp` modulo 8 and `bp += 1` wraps, as
`<<<` and `+` on `UInt8` do (both only matter after a failed write).  In a build with overflow checks the shift panics if `bp`
is 8 or more (and `bp += 1` cannot overflow once this check has passed). -/
def BitwiseWriter.addBit [Checks] {σ : Type} (S : Sink σ) (w : BitwiseWriter σ) (bit : Bool) :
    Option (Except ErrKind Unit × BitwiseWriter σ) :=
  if Checks.on = true ∧ 8 ≤ w.bp then none
  else
    let w := { w with bit := w.bit ||| ((if bit then 1 else 0) <<< w.bp), bp := w.bp + 1 }
    if w.bp = 8 then w.finishPartialBits S else some (.ok (), w)

/-- Execute one operation. -/
def BitwiseWriter.exec [Checks] {σ : Type} (S : Sink σ) (w : BitwiseWriter σ) : WOp →
    Option (Except ErrKind Unit × BitwiseWriter σ)
  | .bit b => w.addBit S b
  | .align => w.finishPartialBits S
  | .bytes l => w.addBytes S l

/-- Execute operations until the first error (the `?` after every writer call in src/deflate.rs). -/
def BitwiseWriter.execAll [Checks] {σ : Type} (S : Sink σ) (w : BitwiseWriter σ) : List WOp →
    Option (Except ErrKind Unit × BitwiseWriter σ)
  | [] => some (.ok (), w)
  | op :: ops => do
    let (r, w) ← w.exec S op
    match r with
    | .ok () => w.execAll S ops
    | .error e => return (.error e, w)

end Zopfli
