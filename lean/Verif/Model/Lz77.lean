import Verif.Model.Basic
import Verif.Model.Symbols
import Verif.Model.Hash
import Verif.Model.Cache
/-!
# Model of `src/lz77.rs`

`u16` values (lengths, distances, symbols) are naturals.
-/

namespace Zopfli

/-- src/lz77.rs:15-18 `LitLen` -/
inductive LitLen where
  | literal (b : Nat)
  | lengthDist (len dist : Nat)
deriving Repr, DecidableEq, Inhabited

/-- src/lz77.rs:21-26 `LitLen::size` -/
def LitLen.size : LitLen → Nat
  | .literal _ => 1
  | .lengthDist len _ => len

/-- src/lz77.rs:35-45 `Lz77Store` -/
structure Lz77Store where
  litlens : Array LitLen
  pos : Array Nat
  llSymbol : Array Nat
  dSymbol : Array Nat
  llCounts : Array Nat
  dCounts : Array Nat

/-- src/lz77.rs:48-60 `Lz77Store::new`; also lines 62-69 `reset` -/
def Lz77Store.new : Lz77Store := ⟨#[], #[], #[], #[], #[], #[]⟩

/-- src/lz77.rs:71-73 `size` -/
def Lz77Store.size (s : Lz77Store) : Nat := s.litlens.size

/-- src/lz77.rs:80-88 / 90-98: open a new row of a cumulative table with stride `num` (a copy of the last row). -/
def newRow (counts : Array Nat) (origsize num : Nat) : Option (Array Nat) :=
  if origsize % num = 0 then
    if origsize = 0 then some (Array.replicate num 0)     -- `resize(num, 0)` of an empty vector
    else if origsize ≤ counts.size then some (counts ++ counts.extract (origsize - num) origsize)
    else none
  else some counts

/-- src/lz77.rs:75-120 `append_store_item` -/
def Lz77Store.appendStoreItem : Lz77Store → LitLen → Nat → Option Lz77Store
  | ⟨litlens, poss, llSymbol, dSymbol, llCounts, dCounts⟩, litlen, pos => do
    let origsize := litlens.size
    let llstart := NUM_LL * (origsize / NUM_LL)
    let dstart := NUM_D * (origsize / NUM_D)
    let llCounts ← newRow llCounts origsize NUM_LL
    let dCounts ← newRow dCounts origsize NUM_D
    let poss := poss.push pos
    let litlens := litlens.push litlen
    match litlen with
    | .literal length => do
      let llCounts ← amod llCounts (llstart + length) (· + 1)
      return ⟨litlens, poss, llSymbol.push length, dSymbol.push 0, llCounts, dCounts⟩
    | .lengthDist length dist => do
      let lenSym ← getLengthSymbol length
      let llCounts ← amod llCounts (llstart + lenSym) (· + 1)
      let dCounts ← amod dCounts (dstart + getDistSymbol dist) (· + 1)
      return ⟨litlens, poss, llSymbol.push lenSym, dSymbol.push (getDistSymbol dist), llCounts, dCounts⟩

/-- src/lz77.rs:122-130 `lit_len_dist` -/
def Lz77Store.litLenDist (s : Lz77Store) (length dist pos : Nat) : Option Lz77Store :=
  s.appendStoreItem (if dist = 0 then .literal length else .lengthDist length dist) pos

/-- src/lz77.rs:403-447 `get_match`: number of trailing zero bits of a non-zero number -/
def trailingZeros : (fuel n : Nat) → Nat
  | 0, _ => 0
  | fuel + 1, n => if n % 2 = 1 then 0 else trailingZeros fuel (n / 2) + 1

/-- `u128::from_le_bytes(a[i..i + n])`, generalised to `n` bytes -/
def leBytes (a : Array UInt8) (i : Nat) : Nat → Option Nat
  | 0 => some 0
  | n + 1 => do return (← a[i]?).toNat + 256 * (← leBytes a (i + 1) n)

/-- src/lz77.rs:437-443: the byte-wise tail of `get_match` -/
def getMatchTail (scanArr matchArr : Array UInt8) (maxPrefixLen j : Nat) : Option Nat :=
  if j < maxPrefixLen then do
    if (← scanArr[j]?) ≠ (← matchArr[j]?) then return j
    else getMatchTail scanArr matchArr maxPrefixLen (j + 1)
  else return maxPrefixLen
termination_by maxPrefixLen - j

/-- src/lz77.rs:419-435: the 16-bytes-at-a-time loop of `get_match` (the guard against `usize` overflow in the loop
condition is always true for slices that fit in memory and is omitted) -/
def getMatchLoop (scanArr matchArr : Array UInt8) (maxPrefixLen i : Nat) : Option Nat :=
  if i + 16 < maxPrefixLen then do
    let scanChunk ← leBytes scanArr i 16
    let matchChunk ← leBytes matchArr i 16
    let bitDiffMask := scanChunk ^^^ matchChunk
    if bitDiffMask ≠ 0 then return i + trailingZeros 128 bitDiffMask / 8
    else getMatchLoop scanArr matchArr maxPrefixLen (i + 16)
  else getMatchTail scanArr matchArr maxPrefixLen i
termination_by maxPrefixLen - i

/-- src/lz77.rs:403-447 `get_match` -/
def getMatch (scanArr matchArr : Array UInt8) : Option Nat :=
  getMatchLoop scanArr matchArr (min scanArr.size matchArr.size) 0

/-- src/lz77.rs:516-520 and 595-599: distance between two slots of the circular window -/
def slotDist (p pp : Nat) : Nat := if p < pp then pp - p else WINDOW_SIZE - p + pp

/-- src/lz77.rs:561-563: `for sublength in subl.iter_mut().take(hi + 1).skip(lo) { *sublength = dist }` -/
def setSublen (subl : Array Nat) (lo hi dist : Nat) : Array Nat :=
  subl.mapIdx fun k x => if lo ≤ k ∧ k < hi + 1 then dist else x

/-- The mutable state of the loop in `find_longest_match_loop`. -/
structure MatchState where
  whichHash : Which
  p : Nat
  dist : Nat
  bestlength : Nat
  bestdist : Nat
  sublen : Option (Array Nat)

/-- src/lz77.rs:541-557: the length of the match at distance `dist` (0 when the quick test fails) -/
def currentLength (h : ZopfliHash) (array : Array UInt8) (pos size limit bestlength dist : Nat) : Option Nat := do
  if pos < dist then none               -- `pos - dist` underflows
  let scan := pos
  let mtch := pos - dist
  let test ← (if pos + bestlength ≥ size then some true
             else do some (decide ((← array[scan + bestlength]?) = (← array[mtch + bestlength]?))))
  if test then do
    let same0 ← h.same[pos % WINDOW_SIZE]?
    let useSame ← (if same0 > 2 then do some (decide ((← array[scan]?) = (← array[mtch]?))) else some false)
    let same ← (if useSame then do
        let same1 ← h.same[(pos - dist) % WINDOW_SIZE]?
        some (min (min same0 same1) (limit % 65536))
      else some 0)
    let scan := scan + same
    let mtch := mtch + same
    let arrayend := pos + limit
    let m ← getMatch (← slice array scan arrayend) (← slice array mtch arrayend)
    return m + scan - pos
  else return 0

/-- src/lz77.rs:533-538: the debug assertions at the start of an iteration.  Line 534 compares `p` with the link it was
read from one line before; line 539 is the subtraction in `currentLength`. -/
def chainChecks (h : ZopfliHash) (pos size : Nat) (whichHash : Which) (p dist : Nat) : Option Unit := do
  guardR (p < WINDOW_SIZE)
  guardR ((← h.hashValAt p whichHash) = some (h.valOf whichHash))
  if dist > 0 then guardR (pos < size) else some ()

/-- src/lz77.rs:529-605: the `while` loop of `find_longest_match_loop`; the recursion counts `chain_counter` down.
`pp` is not carried because it is only `p` of the previous iteration.  Casts of distances
to `u16` are checked at the end (`findLongestMatchLoop`). -/
def matchLoop (h : ZopfliHash) (array : Array UInt8) (pos size limit : Nat) :
    (chainCounter : Nat) → MatchState → Option MatchState
  | 0, st => some st
  | chainCounter + 1, ⟨whichHash, p, dist, bestlength, bestdist, sublen⟩ =>
    if dist < WINDOW_SIZE then do
      chainChecks h pos size whichHash p dist
      let currentlength ← (if dist > 0 then currentLength h array pos size limit bestlength dist else some 0)
      let better := dist > 0 ∧ currentlength > bestlength
      let sublen := if better then sublen.map fun s => setSublen s (bestlength + 1) currentlength dist else sublen
      let bestdist := if better then dist else bestdist
      let bestlength := if better then currentlength else bestlength
      if better ∧ currentlength ≥ limit then return ⟨whichHash, p, dist, bestlength, bestdist, sublen⟩
      else do
        let switch ←
          (if whichHash = .hash1 then do
            if bestlength ≥ (← h.same[pos % WINDOW_SIZE]?) then
              some (decide (some (h.valOf .hash2) = (← h.hashValAt p .hash2)))
            else some false
          else some false)
        let whichHash := if switch then Which.hash2 else whichHash
        let pp := p
        let p ← h.prevAt p whichHash
        if p = pp then return ⟨whichHash, p, dist, bestlength, bestdist, sublen⟩
        else matchLoop h array pos size limit chainCounter
              ⟨whichHash, p, dist + slotDist p pp, bestlength, bestdist, sublen⟩
    else some ⟨whichHash, p, dist, bestlength, bestdist, sublen⟩

/-- src/lz77.rs:502-607 `find_longest_match_loop`; returns `(bestdist, bestlength, sublen)`. -/
def findLongestMatchLoop (h : ZopfliHash) (array : Array UInt8) (pos size limit : Nat) (sublen : Option (Array Nat)) :
    Option (Nat × Nat × Option (Array Nat)) := do
  let hpos := pos % WINDOW_SIZE
  let p ← h.prevAt hpos .hash1
  let st ← matchLoop h array pos size limit MAX_CHAIN_HITS ⟨.hash1, p, slotDist p hpos, 1, 0, sublen⟩
  guardR (st.bestdist < 65536 ∧ st.bestlength < 65536)     -- line 606: nothing is lost by the casts to `u16`
  return (st.bestdist, st.bestlength, st.sublen)

/-- src/lz77.rs:451-500 `find_longest_match`, with its debug assertions; returns the match, the cache and `sublen`. -/
def findLongestMatch (lmc : Cache) (h : ZopfliHash) (array : Array UInt8) (pos size blockstart limit : Nat)
    (sublen : Option (Array Nat)) : Option (LongestMatch × Cache × Option (Array Nat)) := do
  let (m, sublen) ← lmc.tryGet pos limit sublen blockstart
  if m.fromCache then do
    guardR (pos + m.length ≤ size)                                            -- line 464
    return (m, lmc, sublen)
  else do
    guardR (m.limit ≤ MAX_MATCH ∧ m.limit ≥ MIN_MATCH ∧ pos < size)           -- lines 470-472
    if size - pos < MIN_MATCH then return (⟨0, 0, false, 0⟩, lmc, sublen)
    else do
    let limit := if pos + m.limit > size then size - pos else m.limit
    let (bestdist, bestlength, sublen) ← findLongestMatchLoop h array pos size limit sublen
    let lmc ← lmc.store pos limit sublen bestdist bestlength blockstart
    guardR (bestlength ≤ limit % 65536 ∧ pos + bestlength ≤ size)             -- lines 492, 494
    return (⟨bestdist, bestlength, false, limit⟩, lmc, sublen)

/-- src/lz77.rs:620-628 `get_length_score` -/
def getLengthScore (length distance : Int) : Int := if distance > 1024 then length - 1 else length

/-- `x as usize` for an `i32` -/
def i32AsUsize (x : Int) : Nat := if x < 0 then (x + 2 ^ 64).toNat else x.toNat

/-- src/lz77.rs:630-640 `verify_len_dist` (compiled with debug assertions only) -/
def verifyLenDist (data : Array UInt8) (pos dist length : Nat) : Option Unit :=
  forRange 0 length () fun i _ => do
    let start ← usub pos dist
    guardR ((← data[start + i]?) = (← data[pos + i]?))

/-- src/lz77.rs:141-150, 235-249, squeeze.rs:255-261: a fresh hash, warmed up and updated for the window positions
before `instart`. -/
def warmHash (arr : Array UInt8) (instart inend : Nat) : Option ZopfliHash := do
  let windowstart := instart - WINDOW_SIZE
  let h ← ZopfliHash.new.warmup arr windowstart inend
  forRange windowstart instart h fun i h => h.update arr i

/-- The mutable state of the loop in `greedy`. -/
structure GreedyState where
  i : Nat
  h : ZopfliHash
  lmc : Cache
  store : Lz77Store
  prevLength : Nat
  prevMatch : Nat
  matchAvailable : Bool

/-- src/lz77.rs:160-226: one iteration of the loop of `greedy`.  The debug assertions `i < inend` of lines 193 and 220 are
implied by the array access in the `update` of the next position. -/
def greedyStep (arr : Array UInt8) (instart inend : Nat) : GreedyState → Option (GreedyState ⊕ (Lz77Store × Cache))
  | ⟨i, h, lmc, store, prevLength, prevMatch, matchAvailable⟩ =>
    if i < inend then do
      let h ← h.update arr i
      let (m, lmc, _) ← findLongestMatch lmc h arr i inend instart MAX_MATCH none
      let dist := m.distance
      let leng := m.length
      let lengthscore := getLengthScore leng dist
      let prevlengthscore := getLengthScore prevLength prevMatch
      -- lines 216-225: add to output
      let addToOutput (store : Lz77Store) : Option (GreedyState ⊕ (Lz77Store × Cache)) := do
        let (leng, store) ←
          (if i32AsUsize lengthscore ≥ MIN_MATCH then do
            verifyLenDist arr i dist leng
            some (leng, ← store.litLenDist leng dist i)
          else do some (1, ← store.litLenDist (← arr[i]?).toNat 0 i))
        let h ← forRange (i + 1) (i + leng) h fun k h => h.update arr k
        -- `i` has been incremented once per iteration of the loop `for _ in 1..leng`, then once more
        return .inl ⟨i + (leng - 1) + 1, h, lmc, store, prevLength, prevMatch, false⟩
      if matchAvailable then
        if lengthscore > prevlengthscore + 1 then do
          if i = 0 then none              -- `i - 1` underflows
          let store ← store.litLenDist (← arr[i - 1]?).toNat 0 (i - 1)
          if i32AsUsize lengthscore ≥ MIN_MATCH ∧ leng < MAX_MATCH then
            return .inl ⟨i + 1, h, lmc, store, leng, dist, true⟩
          else addToOutput store
        else do
          if i = 0 then none
          verifyLenDist arr (i - 1) prevMatch prevLength
          let store ← store.litLenDist prevLength prevMatch (i - 1)
          let h ← forRange (i + 1) (i + 1 + (prevLength - 2)) h fun k h => h.update arr k
          return .inl ⟨i + (prevLength - 2) + 1, h, lmc, store, prevLength, prevMatch, false⟩
      else if i32AsUsize lengthscore ≥ MIN_MATCH ∧ leng < MAX_MATCH then
        return .inl ⟨i + 1, h, lmc, store, leng, dist, true⟩
      else addToOutput store
    else return .inr (store, lmc)

/-- src/lz77.rs:137-226 `greedy` -/
def greedy (store : Lz77Store) (lmc : Cache) (inData : Array UInt8) (instart inend : Nat) :
    Option (Lz77Store × Cache) :=
  if instart = inend then some (store, lmc)
  else do
    let arr ← slice inData 0 inend
    let h ← warmHash arr instart inend
    loopM (greedyStep arr instart inend) ⟨instart, h, lmc, store, 0, 0, false⟩

/-- src/lz77.rs:252-288: the loop of `follow_path` over the (already reversed) path.  The debug assertion `pos < inend` of
line 254 is implied by the array access in `update`. -/
def followPathLoop (arr : Array UInt8) (instart inend : Nat) :
    List Nat → (pos : Nat) → ZopfliHash → Cache → Lz77Store → Option (Lz77Store × Cache)
  | [], _, _, lmc, store => some (store, lmc)
  | item :: path, pos, h, lmc, store => do
    let h ← h.update arr pos
    let (length, lmc, store) ←
      (if item ≥ MIN_MATCH then do
        let (m, lmc, _) ← findLongestMatch lmc h arr pos inend instart item none
        guardR ¬ (m.length ≠ item ∧ item > 2 ∧ m.length > 2)                  -- line 274
        verifyLenDist arr pos m.distance item
        some (item, lmc, ← store.litLenDist item m.distance pos)
      else do some (1, lmc, ← store.litLenDist (← arr[pos]?).toNat 0 pos))
    guardR (pos + length ≤ inend)                                             -- line 282
    let h ← forRange (pos + 1) (pos + length) h fun k h => h.update arr k
    followPathLoop arr instart inend path (pos + length) h lmc store

/-- src/lz77.rs:228-289 `follow_path` -/
def followPath (store : Lz77Store) (inData : Array UInt8) (instart inend : Nat) (path : List Nat) (lmc : Cache) :
    Option (Lz77Store × Cache) :=
  if instart = inend then some (store, lmc)
  else do
    let arr ← slice inData 0 inend
    let h ← warmHash arr instart inend
    followPathLoop arr instart inend path.reverse instart h lmc store

/-- `counts[i] -= 1` on `usize`: a subtraction below zero does not happen (it is reported as a panic here). -/
def decAt (counts : Array Nat) (i : Nat) : Option (Array Nat) := do
  let c ← counts[i]?
  if c = 0 then none else aset counts i (c - 1)

/-- src/lz77.rs:291-322 `get_histogram_at` -/
def Lz77Store.getHistogramAt (s : Lz77Store) (lpos : Nat) : Option (Array Nat × Array Nat) := do
  let llpos := NUM_LL * (lpos / NUM_LL)
  let dpos := NUM_D * (lpos / NUM_D)
  let ll ← forRange 0 NUM_LL #[] fun i (ll : Array Nat) => do some (ll.push (← s.llCounts[llpos + i]?))
  let ll ← forRange (lpos + 1) (min (llpos + NUM_LL) s.size) ll fun i ll => do decAt ll (← s.llSymbol[i]?)
  let d ← forRange 0 NUM_D #[] fun i (d : Array Nat) => do some (d.push (← s.dCounts[dpos + i]?))
  let d ← forRange (lpos + 1) (min (dpos + NUM_D) s.size) d fun i d => do
    match ← s.litlens[i]? with
    | .lengthDist _ _ => decAt d (← s.dSymbol[i]?)
    | .literal _ => some d
  return (ll, d)

/-- src/lz77.rs:343-363: item-wise subtraction (never below zero; reported as a panic here) -/
def subCounts (a b : Array Nat) : Option (Array Nat) :=
  forRange 0 a.size #[] fun i (r : Array Nat) => do
    let x ← a[i]?
    let y ← b[i]?
    if x < y then none else some (r.push (x - y))

/-- src/lz77.rs:327-368 `get_histogram` -/
def Lz77Store.getHistogram (s : Lz77Store) (lstart lend : Nat) : Option (Array Nat × Array Nat) :=
  if lstart + NUM_LL * 3 > lend then
    forRange lstart lend (Array.replicate NUM_LL 0, Array.replicate NUM_D 0) fun i (ll, d) => do
      let ll ← amod ll (← s.llSymbol[i]?) (· + 1)
      match ← s.litlens[i]? with
      | .lengthDist _ _ => do some (ll, ← amod d (← s.dSymbol[i]?) (· + 1))
      | .literal _ => some (ll, d)
  else do
    let (ll, d) ← s.getHistogramAt (lend - 1)
    if lstart > 0 then do
      let (ll2, d2) ← s.getHistogramAt (lstart - 1)
      return (← subCounts ll ll2, ← subCounts d d2)
    else return (ll, d)

/-- src/lz77.rs:370-377 `get_byte_range` -/
def Lz77Store.getByteRange (s : Lz77Store) (lstart lend : Nat) : Option Nat :=
  if lstart = lend then some 0
  else do
    if lend = 0 then none
    let l := lend - 1
    return (← s.pos[l]?) + (← s.litlens[l]?).size - (← s.pos[lstart]?)

end Zopfli
