import Verif.Model.Basic
/-!
# Model of `src/hash.rs`

`u16`/`i16` values are naturals; `-1` in `head` is `none`.  The `unsafe` initialisation is modelled by the values it
writes.  `x & ZOPFLI_WINDOW_MASK` is `x % WINDOW_SIZE`.
-/

namespace Zopfli

/-- src/hash.rs:13-16 `Which` -/
inductive Which where
  | hash1
  | hash2
deriving DecidableEq, Repr

/-- src/hash.rs:19-22 `SmallerHashThing` -/
structure SmallerHashThing where
  prev : Nat
  hashval : Option Nat
deriving Repr, Inhabited, DecidableEq

/-- src/hash.rs:25-29 `HashThing` -/
structure HashThing where
  head : Array (Option Nat)
  prevAndHashval : Array SmallerHashThing
  val : Nat
deriving Inhabited

/-- src/hash.rs:32-49 `HashThing::update` -/
def HashThing.update : HashThing → (hpos : Nat) → Option HashThing
  | ⟨head, pah, val⟩, hpos => do
    let headIndex ← head[val]?
    let prev ← (match headIndex with
      | some hi => do
        let e ← pah[hi]?
        some (if e.hashval = some val then hi else hpos)
      | none => some hpos)
    let pah ← aset pah hpos ⟨prev, some val⟩
    let head ← aset head val (some hpos)
    return ⟨head, pah, val⟩

/-- src/hash.rs:53-57 `ZopfliHash` -/
structure ZopfliHash where
  hash1 : HashThing
  hash2 : HashThing
  same : Array Nat
deriving Inhabited

/-- src/hash.rs:76-110 `ZopfliHash::init`, for one of the two tables -/
def HashThing.init : HashThing where
  head := Array.replicate 65536 none
  prevAndHashval := Array.ofFn fun (i : Fin WINDOW_SIZE) => ⟨i.val, none⟩
  val := 0

/-- src/hash.rs:60-110 `ZopfliHash::new` / `init`; also src/hash.rs:112-114 `reset`, which re-initialises -/
def ZopfliHash.new : ZopfliHash where
  hash1 := HashThing.init
  hash2 := HashThing.init
  same := Array.replicate WINDOW_SIZE 0

/-- src/hash.rs:129-131 `update_val`; the `u16` shift drops bits above 15, which the mask clears anyway. -/
def updateVal (val : Nat) (c : UInt8) : Nat := ((val <<< 5) ^^^ c.toNat) &&& 32767

/-- src/hash.rs:116-124 `warmup` -/
def ZopfliHash.warmup : ZopfliHash → (arr : Array UInt8) → (pos end_ : Nat) → Option ZopfliHash
  | ⟨h1, h2, same⟩, arr, pos, end_ => do
    let c ← arr[pos]?
    let v := updateVal h1.val c
    let v ← (if pos + 1 < end_ then do some (updateVal v (← arr[pos + 1]?)) else some v)
    return ⟨{ h1 with val := v }, h2, same⟩

/-- src/hash.rs:148-154: the loop extending a run of equal bytes -/
def extendSame (array : Array UInt8) (c : UInt8) (amount anotherIndex : Nat) : Nat :=
  if h : anotherIndex < array.size then
    if c = array[anotherIndex] ∧ amount < 65535 then extendSame array c (amount + 1) (anotherIndex + 1) else amount
  else amount
termination_by array.size - anotherIndex

/-- src/hash.rs:133-161 `ZopfliHash::update`; `pos.wrapping_sub(1) & MASK` is `(pos + WINDOW_SIZE - 1) % WINDOW_SIZE`,
`amount.wrapping_sub(3)` on `u16` is `(amount + 65533) % 65536`. -/
def ZopfliHash.update : ZopfliHash → (array : Array UInt8) → (pos : Nat) → Option ZopfliHash
  | ⟨⟨head1, pah1, val1⟩, ⟨head2, pah2, _⟩, same⟩, array, pos => do
    let hashValue := (array[pos + MIN_MATCH - 1]?).getD 0
    let val1 := updateVal val1 hashValue
    let hpos := pos % WINDOW_SIZE
    let h1 ← HashThing.update ⟨head1, pah1, val1⟩ hpos
    let s ← same[(pos + WINDOW_SIZE - 1) % WINDOW_SIZE]?
    let amount := if s > 1 then s - 1 else 0
    let arrayPos ← array[pos]?
    let amount := extendSame array arrayPos amount (pos + amount + 1)
    guardR (amount < 65536)               -- `amount` is a `u16`
    let same ← aset same hpos amount
    let val2 := (((amount + 65533) % 65536) &&& 255) ^^^ val1
    let h2 ← HashThing.update ⟨head2, pah2, val2⟩ hpos
    return ⟨h1, h2, same⟩

/-- The table selected by `which`. -/
def ZopfliHash.table (h : ZopfliHash) : Which → HashThing
  | .hash1 => h.hash1
  | .hash2 => h.hash2

/-- src/hash.rs:163-168 `prev_at` -/
def ZopfliHash.prevAt (h : ZopfliHash) (index : Nat) (which : Which) : Option Nat := do
  return (← (h.table which).prevAndHashval[index]?).prev

/-- src/hash.rs:170-176 `hash_val_at`; `-1` is `none`. -/
def ZopfliHash.hashValAt (h : ZopfliHash) (index : Nat) (which : Which) : Option (Option Nat) := do
  return (← (h.table which).prevAndHashval[index]?).hashval

/-- src/hash.rs:178-183 `val` -/
def ZopfliHash.valOf (h : ZopfliHash) (which : Which) : Nat := (h.table which).val

end Zopfli
