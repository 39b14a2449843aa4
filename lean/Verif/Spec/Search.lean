import Verif.Model.Lz77
import Verif.Model.Squeeze
import Mathlib.Order.Interval.Finset.Nat
/-!
# Vocabulary for match searching and for the optimisation passes
-/

namespace Zopfli

/-- `n` is the length of the longest common prefix of `a` and `b`. -/
def IsCommonPrefix {α : Type} (a b : List α) (n : Nat) : Prop :=
  n ≤ a.length ∧ n ≤ b.length ∧ a.take n = b.take n ∧ ∀ m, m ≤ a.length → m ≤ b.length → a.take m = b.take m → m ≤ n

/-- One question to the match finder: the longest match at `pos`, not longer than `limit`; `sub` is a table in which the
distances for all lengths are to be recorded. -/
structure Query where
  pos : Nat
  limit : Nat
  sub : Option (Array Nat)

/-- The questions the encoder asks about the bytes from `start` on: with a limit from 3 to 258, which is 258 if a table is to be
filled; the table has 259 entries. -/
structure Query.Allowed (size start : Nat) (q : Query) : Prop where
  pos : start ≤ q.pos ∧ q.pos < size
  limit : 3 ≤ q.limit ∧ q.limit ≤ 258
  sub : ∀ s, q.sub = some s → s.size = 259 ∧ q.limit = 258

/-- The hash chains after all positions of the window up to and including `pos` have been entered. -/
def hashesUpTo (data : Array UInt8) (start pos : Nat) : Option ZopfliHash := do
  let h ← ZopfliHash.new.warmup data (start - 32768) data.size
  forRange (start - 32768) (pos + 1) h fun i h => h.update data i

/-- The answers to questions asked one after the other, the cache being carried along. -/
def answers (data : Array UInt8) (start : Nat) : Cache → List Query → Option (List (LongestMatch × Option (Array Nat)))
  | _, [] => some []
  | cache, q :: qs => do
    let h ← hashesUpTo data start q.pos
    let (m, cache, sub) ← findLongestMatch cache h data q.pos data.size start q.limit q.sub
    return (m, sub) :: (← answers data start cache qs)

/-- The answers mean the same: no match (of at least 3 bytes) in both, or the same length and distance and, if tables were
given, the same distances for all lengths from 3. -/
def SameAnswer (a b : LongestMatch × Option (Array Nat)) : Prop :=
  (a.1.length < 3 ∧ b.1.length < 3) ∨
  (a.1.length = b.1.length ∧ a.1.distance = b.1.distance ∧ 3 ≤ a.1.length ∧
    ((a.2 = none ∧ b.2 = none) ∨
      ∃ s t, a.2 = some s ∧ b.2 = some t ∧ ∀ k, 3 ≤ k → k ≤ a.1.length → ∃ d, s[k]? = some d ∧ t[k]? = some d))

/-- An answer is right: a match is a true repetition within the 32767 bytes before. -/
def RightAnswer (data : Array UInt8) (q : Query) (a : LongestMatch × Option (Array Nat)) : Prop :=
  3 ≤ a.1.length → a.1.length ≤ q.limit ∧ q.pos + a.1.length ≤ data.size ∧ 1 ≤ a.1.distance ∧ a.1.distance ≤ 32767 ∧ a.1.distance ≤ q.pos ∧
    ∀ k, k < a.1.length → data[q.pos + k]? = data[q.pos - a.1.distance + k]?

/-- The `len` bytes at `pos` are a copy of those `dist` bytes earlier. -/
def Repeats (data : Array UInt8) (pos len dist : Nat) : Prop :=
  1 ≤ dist ∧ dist ≤ pos ∧ pos + len ≤ data.size ∧ ∀ k, k < len → data[pos + k]? = data[pos - dist + k]?

/-- The number of equal bytes from `pos` on. -/
def runLength (data : Array UInt8) (pos : Nat) : Nat := ((data.toList.drop pos).takeWhile fun x => some x = data[pos]?).length

/-- A run of exactly `n` equal bytes starts at `pos`: the byte before is another one. -/
def StartsRun (data : Array UInt8) (pos n : Nat) : Prop :=
  runLength data pos = n ∧ ¬ (0 < pos ∧ data[pos - 1]? = data[pos]?)

/-- A hash of the three bytes at `pos`. -/
def hash3 (data : Array UInt8) (pos : Nat) : Nat :=
  (((data[pos]?).getD 0).toNat * 1024 ^^^ ((data[pos + 1]?).getD 0).toNat * 32 ^^^ ((data[pos + 2]?).getD 0).toNat) % 32768

/-- A hash of the three bytes at `pos` and the number of equal bytes there. -/
def hash3run (data : Array UInt8) (pos : Nat) : Nat := (min (runLength data pos) 65536 + 252) % 256 ^^^ hash3 data pos

/-- Position `q` repeats the 258 bytes at `pos`, or all the bytes from `pos` on if there are fewer. -/
def RepeatsFully (data : Array UInt8) (pos q : Nat) : Prop := ∀ k, k < 258 → pos + k < data.size → data[pos + k]? = data[q + k]?

/-- Both hashes are the same at `q` and at `pos`. -/
def SharesBoth (data : Array UInt8) (pos q : Nat) : Prop := hash3 data q = hash3 data pos ∧ hash3run data q = hash3run data pos

/-- A search for matches at `pos` has to go past position `q`: it shares a hash with `pos`, none nearer to `pos` repeats 258
bytes (the most a match can have) or all the bytes left, and it shares the second hash if one nearer to `pos` shares both.  (Positions where a run of
more than 256 equal bytes starts are searched less cleverly.) -/
def Competes (data : Array UInt8) (pos q : Nat) : Prop :=
  (hash3 data q = hash3 data pos ∨ hash3run data q = hash3run data pos) ∧
    (StartsRun data pos 257 ∨ StartsRun data pos 258 ∨
      (∀ q', q < q' → q' < pos → ¬ RepeatsFully data pos q') ∧
      (hash3run data q = hash3run data pos ∨ (∃ n, 256 < n ∧ StartsRun data pos n) ∨ ∀ q', q < q' → q' < pos → ¬ SharesBoth data pos q'))

noncomputable instance (data : Array UInt8) (pos : Nat) : DecidablePred (Competes data pos) := Classical.decPred _

/-- The number of positions in the 32767 bytes before `pos` that a search for matches at `pos` has to go past. -/
noncomputable def sharing (data : Array UInt8) (pos : Nat) : Nat :=
  ((Finset.range pos).filter fun q => pos ≤ q + 32767 ∧ Competes data pos q).card

/-- An answer is the best possible: no repetition within 32767 bytes and the limit is longer, none that is as long is
nearer; and in the table, for every length the distance is that of the nearest repetition. -/
structure BestAnswer (data : Array UInt8) (q : Query) (a : LongestMatch × Option (Array Nat)) : Prop where
  longest : ∀ len dist, 3 ≤ len → len ≤ q.limit → dist ≤ 32767 → Repeats data q.pos len dist → len ≤ a.1.length
  nearest : ∀ dist, 3 ≤ a.1.length → dist ≤ 32767 → Repeats data q.pos a.1.length dist → a.1.distance ≤ dist
  table : ∀ s, a.2 = some s → ∀ len, 3 ≤ len → len ≤ a.1.length →
    ∃ d, s[len]? = some d ∧ d ≤ 32767 ∧ Repeats data q.pos len d ∧ ∀ dist, dist ≤ 32767 → Repeats data q.pos len dist → d ≤ dist

/-- Marsaglia's multiply-with-carry step, in unbounded arithmetic. -/
def multiplyWithCarry (a x : Nat) : Nat := a * (x % 65536) + x / 65536

/-- The generator after `n` draws. -/
def afterDraws : Nat → RanState
  | 0 => .new
  | n + 1 => (afterDraws n).random.2

end Zopfli
