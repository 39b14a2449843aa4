import Verif.Model.Deflate
/-!
# The amount of work: the compressor with a clock

The functions of the model again, in a monad that counts steps.  They compute the same results (`Proofs/Work*`), and in addition:

* every round of every loop that runs over data, items, chain links, split points or match lengths costs at least one step;
* what works on tables of a fixed size (288 and 32 symbols) only, whatever the data - computing a block size or code
  lengths, the entropy of statistics, a description of codes - costs `E` steps at a time, where `E` is any number: how often
  this happens is the coefficient of `E` in the bounds;
* filling or copying a table costs as many steps as it has cells.

A single step is: an access to a table at a given place, a comparison of two blocks of 16 bytes or of two bytes, one entry in
a hash chain, the relaxation of one edge, one operation of the bit writer.
-/

namespace Zopfli

/-- A computation that may panic, and the number of steps it takes. -/
def Work (α : Type) : Type := Option (α × Nat)

namespace Work

/-- One after the other: the steps add up. -/
def andThen {α β : Type} (x : Work α) (f : α → Work β) : Work β :=
  match x with
  | none => none
  | some (a, t) =>
    match f a with
    | none => none
    | some (b, t') => some (b, t + t')

instance : Monad Work where
  pure a := some (a, 0)
  bind := andThen

/-- Something that costs nothing (by itself). -/
def lift {α : Type} (o : Option α) : Work α := o.map (·, 0)

/-- Count `n` steps. -/
def tick (n : Nat) : Work Unit := some ((), n)

/-- `forN` -/
def forN {σ : Type} (f : Nat → σ → Work σ) : (n i : Nat) → σ → Work σ
  | 0, _, s => pure s
  | n + 1, i, s => do
    tick 1
    let s ← f i s
    forN f n (i + 1) s

/-- `forRange`: one step for each round, and what the round itself takes -/
def forRange {σ : Type} (a b : Nat) (s : σ) (f : Nat → σ → Work σ) : Work σ := forN f (b - a) a s

/-- `loopM`, as an `Option` -/
def loopO {σ ρ : Type} (body : σ → Option ((σ ⊕ ρ) × Nat)) (s : σ) : Option (ρ × Nat) := do
  match ← body s with
  | (.inl s, t) => do
    let (r, t') ← loopO body s
    some (r, t + 1 + t')
  | (.inr r, t) => some (r, t + 1)
partial_fixpoint

/-- `loopM`: one step for each round, and what the round itself takes -/
def loop {σ ρ : Type} (body : σ → Work (σ ⊕ ρ)) (s : σ) : Work ρ := loopO body s

/-! ## hash.rs, cache.rs -/

/-- src/hash.rs:148-154; one step for each byte that extends the run -/
def extendSame (array : Array UInt8) (c : UInt8) (amount anotherIndex : Nat) : Work Nat :=
  if h : anotherIndex < array.size then
    if c = array[anotherIndex] ∧ amount < 65535 then do
      tick 1
      extendSame array c (amount + 1) (anotherIndex + 1)
    else pure amount
  else pure amount
termination_by array.size - anotherIndex

/-- src/hash.rs:133-161 `ZopfliHash::update` -/
def update : ZopfliHash → (array : Array UInt8) → (pos : Nat) → Work ZopfliHash
  | ⟨⟨head1, pah1, val1⟩, ⟨head2, pah2, _⟩, same⟩, array, pos => do
    tick 1
    let hashValue := (array[pos + MIN_MATCH - 1]?).getD 0
    let val1 := updateVal val1 hashValue
    let hpos := pos % WINDOW_SIZE
    let h1 ← lift (HashThing.update ⟨head1, pah1, val1⟩ hpos)
    let s ← lift same[(pos + WINDOW_SIZE - 1) % WINDOW_SIZE]?
    let amount := if s > 1 then s - 1 else 0
    let arrayPos ← lift array[pos]?
    let amount ← extendSame array arrayPos amount (pos + amount + 1)
    lift (guardR (amount < 65536))
    let same ← lift (aset same hpos amount)
    let val2 := (((amount + 65533) % 65536) &&& 255) ^^^ val1
    let h2 ← lift (HashThing.update ⟨head2, pah2, val2⟩ hpos)
    return ⟨h1, h2, same⟩

/-- src/cache.rs:66-82: the loop of `store_sublen` -/
def storeSublenLoop (subl : Array Nat) (start length : Nat) (cache : Array Nat) (i j bestlength : Nat) :
    Work (Array Nat × Nat × Nat) :=
  if i ≤ length then do
    tick 1
    let s ← lift subl[i]?
    let differs ← lift (if i = length then some true else do some (decide (s ≠ (← subl[i + 1]?))))
    if differs then do
      let cache ← lift (aset cache (start + j * 3) ((i - 3) % 256))
      let cache ← lift (aset cache (start + (j * 3 + 1)) (s % 256))
      let cache ← lift (aset cache (start + (j * 3 + 2)) ((s >>> 8) % 256))
      if j + 1 ≥ CACHE_LENGTH then return (cache, j + 1, i)
      else storeSublenLoop subl start length cache (i + 1) (j + 1) i
    else storeSublenLoop subl start length cache (i + 1) j bestlength
  else return (cache, j, bestlength)
termination_by length + 1 - i

/-- src/cache.rs:59-90 `store_sublen` -/
def storeSublen (cache : Array Nat) (subl : Array Nat) (pos length : Nat) : Work (Array Nat) :=
  if length < 3 then pure cache
  else do
    let start := CACHE_LENGTH * pos * 3
    let (cache, j, bestlength) ← storeSublenLoop subl start length cache 3 0 0
    lift do
      let cache ← (if j < CACHE_LENGTH then do
          guardR (bestlength = length)
          aset cache (start + (CACHE_LENGTH - 1) * 3) ((bestlength + 2 ^ 32 - 3) % 256)
        else do
          guardR (bestlength ≤ length)
          some cache)
      guardR (bestlength = (← maxSublen cache pos))
      return cache

/-- src/cache.rs:101-116: the loop of `fetch_sublen`; a step for each group and each cell filled -/
def fetchSublenLoop (cache : Array Nat) (start maxlength : Nat) : (n j prevlength : Nat) → Array Nat → Work (Array Nat)
  | 0, _, _, subl => pure subl
  | n + 1, j, prevlength, subl => do
    tick 1
    let a ← lift cache[start + j * 3]?
    let length := a + 3
    let b ← lift cache[start + (j * 3 + 1)]?
    let c ← lift cache[start + (j * 3 + 2)]?
    let dist := b + 256 * c
    tick (length + 1 - prevlength)
    let subl ← lift (fillSublen subl prevlength length dist)
    if length = maxlength then return subl
    else fetchSublenLoop cache start maxlength n (j + 1) (length + 1) subl

/-- src/cache.rs:92-117 `fetch_sublen` -/
def fetchSublen (cache : Array Nat) (pos length : Nat) (subl : Array Nat) : Work (Array Nat) :=
  if length < 3 then pure subl
  else do
    let maxlength ← lift (maxSublen cache pos)
    fetchSublenLoop cache (CACHE_LENGTH * pos * 3) maxlength CACHE_LENGTH 0 0 subl

/-- src/cache.rs:157-206 `ZopfliLongestMatchCache::try_get` -/
def lmcTryGet (c : LongestMatchCache) (pos limit : Nat) (sublen : Option (Array Nat))
    (blockstart : Nat) : Work (LongestMatch × Option (Array Nat)) := do
  tick 1
  if pos < blockstart then lift none
  let lmcpos := pos - blockstart
  let length ← lift c.length[lmcpos]?
  let dist ← lift c.dist[lmcpos]?
  let cacheAvailable := length = 0 ∨ dist ≠ 0
  let maxSub ← lift (maxSublen c.sublen lmcpos)
  let limitOk := limit = MAX_MATCH ∨ length ≤ limit % 65536 ∨ (sublen.isSome ∧ maxSub ≥ limit % 2 ^ 32)
  if limitOk ∧ cacheAvailable then do
    if sublen.isNone ∨ length ≤ maxSub then do
      let len := min length (limit % 65536)
      match sublen with
      | some subl => do
        let subl ← fetchSublen c.sublen lmcpos len subl
        let distance ← lift subl[len]?
        lift (if limit = MAX_MATCH ∧ len ≥ MIN_MATCH then guardR (distance = dist) else some ())
        return (⟨distance, len, true, limit⟩, some subl)
      | none => return (⟨dist, len, true, limit⟩, none)
    else return (⟨0, 0, false, length⟩, sublen)
  else return (.new limit, sublen)

/-- src/cache.rs:140-149 and 157-206 `Cache::try_get` -/
def tryGet (c : Cache) (pos limit : Nat) (sublen : Option (Array Nat)) (blockstart : Nat) :
    Work (LongestMatch × Option (Array Nat)) :=
  match c with
  | .noCache => pure (.new limit, sublen)
  | .lmc c => lmcTryGet c pos limit sublen blockstart

/-- src/cache.rs:208-236 `ZopfliLongestMatchCache::store` -/
def lmcStore (c : LongestMatchCache) (pos limit : Nat) (sublen : Option (Array Nat))
    (distance length blockstart : Nat) : Work LongestMatchCache :=
  match c, sublen with
  | c, none => pure c
  | ⟨lengths, dists, sub⟩, some subl => do
    tick 1
    if pos < blockstart then lift none
    let lmcpos := pos - blockstart
    let l0 ← lift lengths[lmcpos]?
    let d0 ← lift dists[lmcpos]?
    let cacheAvailable := l0 = 0 ∨ d0 ≠ 0
    if limit = MAX_MATCH ∧ ¬ cacheAvailable then do
      lift (guardR (l0 = 1 ∧ d0 = 0))
      let short := length < MIN_MATCH
      let dists ← lift (aset dists lmcpos (if short then 0 else distance))
      let lengths ← lift (aset lengths lmcpos (if short then 0 else length))
      let l1 ← lift lengths[lmcpos]?
      let d1 ← lift dists[lmcpos]?
      lift (guardR ¬ (l1 = 1 ∧ d1 = 0))
      let sub ← storeSublen sub subl lmcpos length
      return ⟨lengths, dists, sub⟩
    else return ⟨lengths, dists, sub⟩

/-- src/cache.rs:151-153 and 208-236 `Cache::store` -/
def cacheStore (c : Cache) (pos limit : Nat) (sublen : Option (Array Nat)) (distance length blockstart : Nat) :
    Work Cache :=
  match c with
  | .noCache => pure .noCache
  | .lmc c => do return .lmc (← lmcStore c pos limit sublen distance length blockstart)

/-! ## lz77.rs: matching -/

/-- src/lz77.rs:437-443: the byte-wise tail of `get_match` -/
def getMatchTail (scanArr matchArr : Array UInt8) (maxPrefixLen j : Nat) : Work Nat :=
  if j < maxPrefixLen then do
    tick 1
    let a ← lift scanArr[j]?
    let b ← lift matchArr[j]?
    if a ≠ b then return j
    else getMatchTail scanArr matchArr maxPrefixLen (j + 1)
  else return maxPrefixLen
termination_by maxPrefixLen - j

/-- src/lz77.rs:419-435: the 16-bytes-at-a-time loop of `get_match` -/
def getMatchLoop (scanArr matchArr : Array UInt8) (maxPrefixLen i : Nat) : Work Nat :=
  if i + 16 < maxPrefixLen then do
    tick 1
    let scanChunk ← lift (leBytes scanArr i 16)
    let matchChunk ← lift (leBytes matchArr i 16)
    let bitDiffMask := scanChunk ^^^ matchChunk
    if bitDiffMask ≠ 0 then return i + trailingZeros 128 bitDiffMask / 8
    else getMatchLoop scanArr matchArr maxPrefixLen (i + 16)
  else getMatchTail scanArr matchArr maxPrefixLen i
termination_by maxPrefixLen - i

/-- src/lz77.rs:403-447 `get_match` -/
def getMatch (scanArr matchArr : Array UInt8) : Work Nat :=
  getMatchLoop scanArr matchArr (min scanArr.size matchArr.size) 0

/-- src/lz77.rs:541-557: the length of the match at distance `dist` -/
def currentLength (h : ZopfliHash) (array : Array UInt8) (pos size limit bestlength dist : Nat) : Work Nat := do
  if pos < dist then lift none
  let scan := pos
  let mtch := pos - dist
  let test ← lift (if pos + bestlength ≥ size then some true
             else do some (decide ((← array[scan + bestlength]?) = (← array[mtch + bestlength]?))))
  if test then do
    let same0 ← lift h.same[pos % WINDOW_SIZE]?
    let useSame ← lift (if same0 > 2 then do some (decide ((← array[scan]?) = (← array[mtch]?))) else some false)
    let same ← lift (if useSame then do
        let same1 ← h.same[(pos - dist) % WINDOW_SIZE]?
        some (min (min same0 same1) (limit % 65536))
      else some 0)
    let scan := scan + same
    let mtch := mtch + same
    let arrayend := pos + limit
    let a ← lift (slice array scan arrayend)
    let b ← lift (slice array mtch arrayend)
    let m ← getMatch a b
    return m + scan - pos
  else return 0

/-- src/lz77.rs:529-605: the `while` loop of `find_longest_match_loop`: a step for each link of the chain, for each comparison and for
each cell of `sublen` that is set -/
def matchLoop (h : ZopfliHash) (array : Array UInt8) (pos size limit : Nat) :
    (chainCounter : Nat) → MatchState → Work MatchState
  | 0, st => pure st
  | chainCounter + 1, ⟨whichHash, p, dist, bestlength, bestdist, sublen⟩ =>
    if dist < WINDOW_SIZE then do
      tick 1
      lift (chainChecks h pos size whichHash p dist)
      let currentlength ← (if dist > 0 then currentLength h array pos size limit bestlength dist else pure 0)
      let better := dist > 0 ∧ currentlength > bestlength
      tick (if better then currentlength - bestlength else 0)
      let sublen := if better then sublen.map fun s => setSublen s (bestlength + 1) currentlength dist else sublen
      let bestdist := if better then dist else bestdist
      let bestlength := if better then currentlength else bestlength
      if better ∧ currentlength ≥ limit then return ⟨whichHash, p, dist, bestlength, bestdist, sublen⟩
      else do
        let switch ← lift
          (if whichHash = .hash1 then do
            if bestlength ≥ (← h.same[pos % WINDOW_SIZE]?) then
              some (decide (some (h.valOf .hash2) = (← h.hashValAt p .hash2)))
            else some false
          else some false)
        let whichHash := if switch then Which.hash2 else whichHash
        let pp := p
        let p ← lift (h.prevAt p whichHash)
        if p = pp then return ⟨whichHash, p, dist, bestlength, bestdist, sublen⟩
        else matchLoop h array pos size limit chainCounter
              ⟨whichHash, p, dist + slotDist p pp, bestlength, bestdist, sublen⟩
    else pure ⟨whichHash, p, dist, bestlength, bestdist, sublen⟩

/-- src/lz77.rs:502-607 `find_longest_match_loop` -/
def findLongestMatchLoop (h : ZopfliHash) (array : Array UInt8) (pos size limit : Nat) (sublen : Option (Array Nat)) :
    Work (Nat × Nat × Option (Array Nat)) := do
  let hpos := pos % WINDOW_SIZE
  let p ← lift (h.prevAt hpos .hash1)
  let st ← matchLoop h array pos size limit MAX_CHAIN_HITS ⟨.hash1, p, slotDist p hpos, 1, 0, sublen⟩
  lift (guardR (st.bestdist < 65536 ∧ st.bestlength < 65536))
  return (st.bestdist, st.bestlength, st.sublen)

/-- src/lz77.rs:451-500 `find_longest_match` -/
def findLongestMatch (lmc : Cache) (h : ZopfliHash) (array : Array UInt8) (pos size blockstart limit : Nat)
    (sublen : Option (Array Nat)) : Work (LongestMatch × Cache × Option (Array Nat)) := do
  tick 1
  let (m, sublen) ← tryGet lmc pos limit sublen blockstart
  if m.fromCache then do
    lift (guardR (pos + m.length ≤ size))
    return (m, lmc, sublen)
  else do
    lift (guardR (m.limit ≤ MAX_MATCH ∧ m.limit ≥ MIN_MATCH ∧ pos < size))
    if size - pos < MIN_MATCH then return (⟨0, 0, false, 0⟩, lmc, sublen)
    else do
    let limit := if pos + m.limit > size then size - pos else m.limit
    let (bestdist, bestlength, sublen) ← findLongestMatchLoop h array pos size limit sublen
    let lmc ← cacheStore lmc pos limit sublen bestdist bestlength blockstart
    lift (guardR (bestlength ≤ limit % 65536 ∧ pos + bestlength ≤ size))
    return (⟨bestdist, bestlength, false, limit⟩, lmc, sublen)

/-! ## lz77.rs: parsing -/

/-- src/lz77.rs:75-120 `append_store_item`, 122-130 `lit_len_dist`: at most a row of 288 and one of 32 counters are copied. -/
def litLenDist (s : Lz77Store) (length dist pos : Nat) : Work Lz77Store := do
  tick 321
  lift (s.litLenDist length dist pos)

/-- src/lz77.rs:630-640 `verify_len_dist` (compiled with debug assertions only) -/
def verifyLenDist (data : Array UInt8) (pos dist length : Nat) : Work Unit := do
  tick length
  lift (Zopfli.verifyLenDist data pos dist length)

/-- src/lz77.rs:141-150, 235-249, squeeze.rs:255-261: the tables are reset (two tables of 65536 + 32768 + 32768 cells, and one of 32768), and the
positions of the window entered. -/
def warmHash (arr : Array UInt8) (instart inend : Nat) : Work ZopfliHash := do
  tick 294912
  let windowstart := instart - WINDOW_SIZE
  let h ← lift (ZopfliHash.new.warmup arr windowstart inend)
  forRange windowstart instart h fun i h => update h arr i

/-- src/lz77.rs:160-226: one iteration of the loop of `greedy` -/
def greedyStep (arr : Array UInt8) (instart inend : Nat) : GreedyState → Work (GreedyState ⊕ (Lz77Store × Cache))
  | ⟨i, h, lmc, store, prevLength, prevMatch, matchAvailable⟩ =>
    if i < inend then do
      let h ← update h arr i
      let (m, lmc, _) ← findLongestMatch lmc h arr i inend instart MAX_MATCH none
      let dist := m.distance
      let leng := m.length
      let lengthscore := getLengthScore leng dist
      let prevlengthscore := getLengthScore prevLength prevMatch
      let addToOutput (store : Lz77Store) : Work (GreedyState ⊕ (Lz77Store × Cache)) := do
        let (leng, store) ←
          (if i32AsUsize lengthscore ≥ MIN_MATCH then do
            verifyLenDist arr i dist leng
            let store ← litLenDist store leng dist i
            pure (leng, store)
          else do
            let c ← lift arr[i]?
            let store ← litLenDist store c.toNat 0 i
            pure (1, store))
        let h ← forRange (i + 1) (i + leng) h fun k h => update h arr k
        return .inl ⟨i + (leng - 1) + 1, h, lmc, store, prevLength, prevMatch, false⟩
      if matchAvailable then
        if lengthscore > prevlengthscore + 1 then do
          if i = 0 then lift none
          let c ← lift arr[i - 1]?
          let store ← litLenDist store c.toNat 0 (i - 1)
          if i32AsUsize lengthscore ≥ MIN_MATCH ∧ leng < MAX_MATCH then
            return .inl ⟨i + 1, h, lmc, store, leng, dist, true⟩
          else addToOutput store
        else do
          if i = 0 then lift none
          verifyLenDist arr (i - 1) prevMatch prevLength
          let store ← litLenDist store prevLength prevMatch (i - 1)
          let h ← forRange (i + 1) (i + 1 + (prevLength - 2)) h fun k h => update h arr k
          return .inl ⟨i + (prevLength - 2) + 1, h, lmc, store, prevLength, prevMatch, false⟩
      else if i32AsUsize lengthscore ≥ MIN_MATCH ∧ leng < MAX_MATCH then
        return .inl ⟨i + 1, h, lmc, store, leng, dist, true⟩
      else addToOutput store
    else return .inr (store, lmc)

/-- src/lz77.rs:137-226 `greedy` -/
def greedy (store : Lz77Store) (lmc : Cache) (inData : Array UInt8) (instart inend : Nat) :
    Work (Lz77Store × Cache) :=
  if instart = inend then pure (store, lmc)
  else do
    let arr ← lift (slice inData 0 inend)
    let h ← warmHash arr instart inend
    loop (greedyStep arr instart inend) ⟨instart, h, lmc, store, 0, 0, false⟩

/-- src/lz77.rs:252-288: the loop of `follow_path` -/
def followPathLoop (arr : Array UInt8) (instart inend : Nat) :
    List Nat → (pos : Nat) → ZopfliHash → Cache → Lz77Store → Work (Lz77Store × Cache)
  | [], _, _, lmc, store => pure (store, lmc)
  | item :: path, pos, h, lmc, store => do
    tick 1
    let h ← update h arr pos
    let (length, lmc, store) ←
      (if item ≥ MIN_MATCH then do
        let (m, lmc, _) ← findLongestMatch lmc h arr pos inend instart item none
        lift (guardR ¬ (m.length ≠ item ∧ item > 2 ∧ m.length > 2))
        verifyLenDist arr pos m.distance item
        let store ← litLenDist store item m.distance pos
        pure (item, lmc, store)
      else do
        let c ← lift arr[pos]?
        let store ← litLenDist store c.toNat 0 pos
        pure (1, lmc, store))
    lift (guardR (pos + length ≤ inend))
    let h ← forRange (pos + 1) (pos + length) h fun k h => update h arr k
    followPathLoop arr instart inend path (pos + length) h lmc store

/-- src/lz77.rs:228-289 `follow_path` (the path is reversed in place) -/
def followPath (store : Lz77Store) (inData : Array UInt8) (instart inend : Nat) (path : List Nat) (lmc : Cache) :
    Work (Lz77Store × Cache) :=
  if instart = inend then pure (store, lmc)
  else do
    let arr ← lift (slice inData 0 inend)
    let h ← warmHash arr instart inend
    tick path.length
    followPathLoop arr instart inend path.reverse instart h lmc store

/-! ## squeeze.rs -/

/-- src/squeeze.rs:156-169 `get_statistics`: a step for each item, and `E` for the entropy -/
def getStatistics (E : Nat) {F : FloatOps} (s : SymbolStats F) (store : Lz77Store) : Work (SymbolStats F) := do
  tick (store.size + E)
  lift (s.getStatistics store)

/-- src/squeeze.rs:286-298: skip 258 positions of a long run -/
def skipRun (F : FloatOps) (costmodel : Nat → Nat → Option F.F64) (arr : Array UInt8) (instart : Nat)
    (i : Nat) (h : ZopfliHash) (costs : Array F.F32) (lengthArray : Array Nat) :
    Work (ZopfliHash × Array F.F32 × Array Nat) := do
  let symbolcost ← lift (costmodel MAX_MATCH 1)
  forRange 0 MAX_MATCH (h, costs, lengthArray) fun k ((h : ZopfliHash), (costs : Array F.F32), (la : Array Nat)) => do
    let j := i + k - instart
    let c ← lift costs[j]?
    let costs ← lift (aset costs (j + MAX_MATCH) (F.add32 c (F.toF32 symbolcost)))
    let la ← lift (aset la (j + MAX_MATCH) MAX_MATCH)
    let h ← update h arr (i + k + 1)
    return (h, costs, la)

/-- src/squeeze.rs:322-341: try every match length at position `i`: a step for each -/
def tryLengths (F : FloatOps) (costmodel : Nat → Nat → Option F.F64) (mincostaddcostj : F.F64) (sublen : Array Nat)
    (kend j : Nat) (costs : Array F.F32) (lengthArray : Array Nat) : Work (Array F.F32 × Array Nat) := do
  tick (min (kend + 1) sublen.size - 3)
  lift (Zopfli.tryLengths F costmodel mincostaddcostj sublen kend j costs lengthArray)

/-- src/squeeze.rs:275-343: one iteration of the loop of `get_best_lengths` -/
def bestStep (F : FloatOps) (costmodel : Nat → Nat → Option F.F64) (mincost : F.F64) (arr : Array UInt8)
    (instart inend : Nat) : BestState F → Work (BestState F ⊕ (Array Nat × Cache))
  | ⟨i, h, lmc, costs, lengthArray, sublen⟩ =>
    if i < inend then do
      let h ← update h arr i
      let long ← lift (inLongRun h instart inend i)
      let (i, h, costs, lengthArray) ←
        (if long then do
          let (h, costs, lengthArray) ← skipRun F costmodel arr instart i h costs lengthArray
          pure (i + MAX_MATCH, h, costs, lengthArray)
        else pure (i, h, costs, lengthArray))
      let j := i - instart
      let (m, lmc, sub) ← findLongestMatch lmc h arr i inend instart MAX_MATCH (some sublen)
      let sublen ← lift sub
      let (costs, lengthArray) ← lift (if i < inend then tryLiteral F costmodel arr i j costs lengthArray
                                 else some (costs, lengthArray))
      let kend := min m.length (inend - i)
      let cj ← lift costs[j]?
      let mincostaddcostj := F.add mincost (F.toF64 cj)
      let (costs, lengthArray) ← tryLengths F costmodel mincostaddcostj sublen kend j costs lengthArray
      return .inl ⟨i + 1, h, lmc, costs, lengthArray, sublen⟩
    else lift do
      let cost := F.toF64 (← costs[← usub inend instart]?)
      guardR (F.costOk cost)
      guardR (F.lt cost F.inf)
      return .inr (lengthArray, lmc)

/-- src/squeeze.rs:240-349 `get_best_lengths`: the two tables have as many cells as the part has bytes, plus one; the cost model is
asked 256 + 30 + 1 times for the least cost. -/
def getBestLengths (F : FloatOps) (lmc : Cache) (inData : Array UInt8) (instart inend : Nat)
    (costmodel : Nat → Nat → Option F.F64) : Work (Array Nat × Cache) := do
  let blocksize ← lift (usub inend instart)
  tick (blocksize + 1)
  if instart = inend then return (Array.replicate (blocksize + 1) 0, lmc)
  else do
    let arr ← lift (slice inData 0 inend)
    let h ← warmHash arr instart inend
    tick (blocksize + 1)
    let costs ← lift (aset (Array.replicate (blocksize + 1) F.inf32) 0 F.zero32)
    tick 287
    let mincost ← lift (getCostModelMinCost F costmodel)
    loop (bestStep F costmodel mincost arr instart inend)
      ⟨instart, h, lmc, costs, Array.replicate (blocksize + 1) 0, Array.replicate (MAX_MATCH + 1) 0⟩

/-- src/squeeze.rs:351-372 `trace` -/
def traceFrom (lengthArray : Array Nat) (index : Nat) : Work (List Nat) :=
  if index = 0 then pure []
  else
    match lengthArray[index]? with
    | none => lift none
    | some lai =>
      if lai ≤ index ∧ lai ≤ MAX_MATCH ∧ lai ≠ 0 then do
        tick 1
        let l ← traceFrom lengthArray (index - lai)
        return lai :: l
      else lift none
termination_by index

/-- src/squeeze.rs:383-398 `lz77_optimal_run` -/
def lz77OptimalRun (F : FloatOps) (lmc : Cache) (inData : Array UInt8) (instart inend : Nat)
    (costmodel : Nat → Nat → Option F.F64) (store : Lz77Store) : Work (Lz77Store × Cache) := do
  let (lengthArray, lmc) ← getBestLengths F lmc inData instart inend costmodel
  let path ← traceFrom lengthArray (inend - instart)
  followPath store inData instart inend path lmc

/-- src/squeeze.rs:407-425 `lz77_optimal_fixed`, with the tables it makes -/
def lz77OptimalFixed (F : FloatOps) (lmc : Cache) (inData : Array UInt8) (instart inend : Nat) (store : Lz77Store) :
    Work (Lz77Store × Cache) := do
  tick 294912
  lz77OptimalRun F lmc inData instart inend (getCostFixed F) store

/-- src/cache.rs:22-31 `ZopfliLongestMatchCache::new`: 26 cells for each byte -/
def newCache (blocksize : Nat) : Work Cache := do
  tick (26 * blocksize)
  return .lmc (.new blocksize)

/-- src/squeeze.rs:494-513: prepare the statistics of the next iteration; at most three operations on the tables of symbols besides
`get_statistics` -/
def nextStats (E : Nat) (F : FloatOps) (currentstore : Lz77Store) (cost lastcost : F.F64) (currentIteration : Nat)
    (lastrandomstep : Option Nat) (stats beststats : SymbolStats F) (ranState : RanState) :
    Work (SymbolStats F × RanState × Option Nat) := do
  tick (currentstore.size + 4 * E)
  lift (Zopfli.nextStats F currentstore cost lastcost currentIteration lastrandomstep stats beststats ranState)

/-- A block size is computed (src/deflate.rs:896-919 `calculate_block_size`). -/
def calculateBlockSize [Checks] (E : Nat) (F : FloatOps) (lz77 : Lz77Store) (lstart lend : Nat) (btype : BlockType) : Work F.F64 := do
  tick E
  lift (Zopfli.calculateBlockSize F lz77 lstart lend btype)

/-- src/deflate.rs:1140-1151 `calculate_block_size_auto_type`: three block sizes -/
def calculateBlockSizeAutoType [Checks] (E : Nat) (F : FloatOps) (lz77 : Lz77Store) (lstart lend : Nat) : Work F.F64 := do
  tick (3 * E)
  lift (Zopfli.calculateBlockSizeAutoType F lz77 lstart lend)

/-- src/squeeze.rs:462-514: one iteration of the loop of `lz77_optimal`; a better store is copied (six arrays, and the rows of the cumulative counts: at
most 4 cells for each item and one row more). -/
def optimalStep [Checks] (E : Nat) (F : FloatOps) (inData : Array UInt8) (instart inend maxIterations maxWithoutImprovement : Nat) :
    OptimalState F → Work (OptimalState F ⊕ Lz77Store)
  | ⟨lmc, outputstore, stats, beststats, bestcost, lastcost, ranState, lastrandomstep, cur, without⟩ => do
    let (currentstore, lmc) ← lz77OptimalRun F lmc inData instart inend (getCostStat F stats) Lz77Store.new
    let cost ← calculateBlockSize E F currentstore 0 currentstore.size .dynamic
    let improved := F.lt cost bestcost
    tick (if improved then 6 * currentstore.size + 320 + E else 0)
    let without := if improved then 0 else without + 1
    let outputstore := if improved then currentstore else outputstore
    let beststats := if improved then stats else beststats
    let bestcost := if improved then cost else bestcost
    if ¬ improved ∧ without ≥ maxWithoutImprovement then return .inr outputstore
    else do
      let cur := cur + 1
      if cur ≥ maxIterations then return .inr outputstore
      else do
        let (stats, ranState, lastrandomstep) ←
          nextStats E F currentstore cost lastcost cur lastrandomstep stats beststats ranState
        return .inl ⟨lmc, outputstore, stats, beststats, bestcost, cost, ranState, lastrandomstep, cur, without⟩

/-- src/squeeze.rs:430-516 `lz77_optimal`, with the hash tables it makes -/
def lz77Optimal [Checks] (E : Nat) (F : FloatOps) (lmc : Cache) (inData : Array UInt8) (instart inend maxIterations
    maxWithoutImprovement : Nat) : Work Lz77Store := do
  let (currentstore, lmc) ← greedy Lz77Store.new lmc inData instart inend
  let stats ← getStatistics E (SymbolStats.default F) currentstore
  tick 294912
  loop (optimalStep E F inData instart inend maxIterations maxWithoutImprovement)
    ⟨lmc, Lz77Store.new, stats, .default F, F.inf, F.ofUsize 0, .new, none, 0, 0⟩

/-! ## blocksplitter.rs -/

/-- src/blocksplitter.rs:12-22: try every index -/
def findMinimumLinear (F : FloatOps) (f : Nat → Work F.F64) (start end_ : Nat) : Work (Nat × F.F64) :=
  forRange start end_ (start, F.inf) fun i (result, best) => do
    let v ← f i
    if F.lt v best then return (i, v) else return (result, best)

/-- src/blocksplitter.rs:31-52: one round of the recursive search -/
def findMinimumStep (F : FloatOps) (f : Nat → Work F.F64) :
    Nat × Nat × Nat × F.F64 → Work ((Nat × Nat × Nat × F.F64) ⊕ (Nat × F.F64))
  | (start, end_, pos, lastbest) => do
    let d ← lift (usub end_ start)
    if d > NUM then do
      let multiplier := (end_ - start) / (NUM + 1)
      let p (i : Nat) : Nat := start + (i + 1) * multiplier
      let (besti, best) ← forRange 0 NUM (0, F.inf) fun i (besti, best) => do
        let v ← f (p i)
        if F.lt v best then return (i, v) else return (besti, best)
      if F.lt lastbest best then return .inr (pos, lastbest)
      else
        return .inl (if besti = 0 then start else p (besti - 1), if besti = NUM - 1 then end_ else p (besti + 1),
                     p besti, best)
    else return .inr (pos, lastbest)

/-- src/blocksplitter.rs:11-57 `find_minimum` -/
def findMinimum (F : FloatOps) (f : Nat → Work F.F64) (start end_ : Nat) : Work (Nat × F.F64) := do
  let d ← lift (usub end_ start)
  if d < 1024 then findMinimumLinear F f start end_
  else loop (findMinimumStep F f) (start, end_, start, F.inf)

/-- src/blocksplitter.rs:163-208: one iteration of the loop of `blocksplit_lz77`; sorting `m` split points is taken to cost `17 * m`
steps (there are fewer than 2^16), looking for the largest block `m`. -/
def splitStep [Checks] (E : Nat) (F : FloatOps) (lz77 : Lz77Store) (maxblocks : Nat) : SplitState → Work (SplitState ⊕ List Nat)
  | ⟨numblocks, done, lstart, lend, splitpoints⟩ =>
    if maxblocks ≠ 0 ∧ numblocks < maxblocks then do
      lift (guardR (lstart < lend))
      let (llpos, splitcost) ← findMinimum F
        (fun i => do
          let a ← calculateBlockSizeAutoType E F lz77 lstart i
          let b ← calculateBlockSizeAutoType E F lz77 i lend
          return F.add a b) (lstart + 1) lend
      lift (guardR (llpos > lstart ∧ llpos < lend))
      let origcost ← calculateBlockSizeAutoType E F lz77 lstart lend
      let (done, splitpoints, numblocks) ←
        (if F.lt origcost splitcost ∨ llpos = lstart + 1 ∨ llpos = lend then do
          lift do some (← aset done lstart 1, splitpoints, numblocks)
        else do
          tick (17 * (splitpoints.length + 1))
          pure (done, (splitpoints ++ [llpos]).mergeSort (fun a b => decide (a ≤ b)), numblocks + 1))
      tick (splitpoints.length + 1)
      let found ← lift (findLargestSplittableBlock lz77.size done splitpoints)
      match found with
      | none => return .inr splitpoints
      | some (start, end_) => do
        let d ← lift (usub end_ start)
        if d < 10 then return .inr splitpoints
        else return .inl ⟨numblocks, done, start, end_, splitpoints⟩
    else return .inr splitpoints

/-- src/blocksplitter.rs:153-211 `blocksplit_lz77`; the log of the split points walks over the items. -/
def blocksplitLz77 [Checks] (E : Nat) (F : FloatOps) (lz77 : Lz77Store) (maxblocks : Nat) : Work (List Nat) :=
  if lz77.size < 10 then pure []
  else do
    tick lz77.size
    let splitpoints ← loop (splitStep E F lz77 maxblocks) ⟨1, Array.replicate lz77.size 0, 0, lz77.size, []⟩
    tick lz77.size
    lift (logSplitPoints lz77 splitpoints)
    return splitpoints

/-- src/blocksplitter.rs:217-253 `blocksplit` -/
def blocksplit [Checks] (E : Nat) (F : FloatOps) (inData : Array UInt8) (instart inend maxblocks : Nat) : Work (List Nat) := do
  let (store, _) ← greedy Lz77Store.new .noCache inData instart inend
  let lz77splitpoints ← blocksplitLz77 E F store maxblocks
  if lz77splitpoints.length > 0 then do
    tick store.size
    let splitpoints ← lift (convertSplits lz77splitpoints.toArray store.litlens.toList 0 instart #[])
    lift (guardR (splitpoints.size = lz77splitpoints.length))
    return splitpoints.toList
  else return []

/-! ## deflate.rs -/

/-- src/deflate.rs:1263-1304 `add_non_compressed_block`: a step for each byte and 8 for the header of each of the stored blocks -/
def addNonCompressedBlock (finalBlock : Bool) (inData : Array UInt8) (instart inend : Nat) : Work (List WOp) := do
  let data ← lift (slice inData instart inend)
  tick (data.size + 8 * (data.size / 65535 + 1))
  lift (Zopfli.addNonCompressedBlock finalBlock inData instart inend)

/-- src/deflate.rs:815-889 `add_lz77_block`: a step for each item and for each bit given to the bit writer, `2 * E` for codes and their
description -/
def addLz77Block [Checks] (E : Nat) (btype : BlockType) (finalBlock : Bool) (inData : Array UInt8) (lz77 : Lz77Store)
    (lstart lend : Nat) : Work (List WOp) :=
  match btype with
  | .uncompressed => do
    let length ← lift (lz77.getByteRange lstart lend)
    let pos ← lift (if lstart = lend then some 0 else lz77.pos[lstart]?)
    addNonCompressedBlock finalBlock inData pos (pos + length)
  | .fixed => do
    tick (2 * E + (lend - lstart) + 1)
    let ops ← lift (Zopfli.addLz77Block .fixed finalBlock inData lz77 lstart lend)
    tick ops.length
    return ops
  | .dynamic => do
    tick (2 * E + (lend - lstart) + 1)
    let ops ← lift (Zopfli.addLz77Block .dynamic finalBlock inData lz77 lstart lend)
    tick ops.length
    return ops

/-- src/deflate.rs:1049-1137 `add_lz77_block_auto_type` -/
def addLz77BlockAutoType [Checks] (E : Nat) (F : FloatOps) (finalBlock : Bool) (inData : Array UInt8) (lz77 : Lz77Store)
    (lstart lend : Nat) : Work (List WOp) := do
  let uncompressedcost ← calculateBlockSize E F lz77 lstart lend .uncompressed
  let fixedcost ← calculateBlockSize E F lz77 lstart lend .fixed
  let dyncost ← calculateBlockSize E F lz77 lstart lend .dynamic
  let expensivefixed := lz77.size < 1000 ∨ F.le fixedcost (F.mul dyncost F.c11)
  if lstart = lend then do
    tick 10
    return addBits finalBlock.toNat 1 ++ addBits 1 2 ++ addBits 0 7
  else do
    let (fixedstore, fixedcost) ←
      (if expensivefixed then do
        let instart ← lift lz77.pos[lstart]?
        let length ← lift (lz77.getByteRange lstart lend)
        let inend := instart + length
        let cache ← newCache (inend - instart)
        let (fixedstore, _) ← lz77OptimalFixed F cache inData instart inend Lz77Store.new
        let cost ← calculateBlockSize E F fixedstore 0 fixedstore.size .fixed
        pure (fixedstore, cost)
      else pure (Lz77Store.new, fixedcost))
    if F.le uncompressedcost fixedcost ∧ F.le uncompressedcost dyncost then
      addLz77Block E .uncompressed finalBlock inData lz77 lstart lend
    else if F.le fixedcost dyncost then
      if expensivefixed then addLz77Block E .fixed finalBlock inData fixedstore 0 fixedstore.size
      else addLz77Block E .fixed finalBlock inData lz77 lstart lend
    else addLz77Block E .dynamic finalBlock inData lz77 lstart lend

/-- src/deflate.rs:1161-1164: the non-last blocks -/
def addSplitBlocks [Checks] (E : Nat) (F : FloatOps) (lz77 : Lz77Store) (inData : Array UInt8) :
    List Nat → (last : Nat) → Work (List WOp × Nat)
  | [], last => pure ([], last)
  | item :: rest, last => do
    tick 1
    let ops ← addLz77BlockAutoType E F false inData lz77 last item
    let (ops', last) ← addSplitBlocks E F lz77 inData rest item
    return (ops ++ ops', last)

/-- src/deflate.rs:1153-1174 `add_all_blocks` -/
def addAllBlocks [Checks] (E : Nat) (F : FloatOps) (splitpoints : List Nat) (lz77 : Lz77Store) (finalBlock : Bool)
    (inData : Array UInt8) : Work (List WOp) := do
  let (ops, last) ← addSplitBlocks E F lz77 inData splitpoints 0
  let ops' ← addLz77BlockAutoType E F finalBlock inData lz77 last lz77.size
  return ops ++ ops'

/-- src/deflate.rs:1214-1216, 1235-1237: append a store to another, item by item -/
def appendStore (lz77 store : Lz77Store) : Work Lz77Store := do
  tick (322 * store.size)
  lift (Zopfli.appendStore lz77 store)

/-- src/deflate.rs:1200-1221: optimise the parts before the split points -/
def optimizeParts [Checks] (E : Nat) (F : FloatOps) (options : Options) (inData : Array UInt8) :
    List Nat → Lz77Store × List Nat × F.F64 × Nat → Work (Lz77Store × List Nat × F.F64 × Nat)
  | [], st => pure st
  | item :: rest, (lz77, splitpoints, totalcost, last) => do
    tick 1
    let n ← lift (usub item last)
    let cache ← newCache n
    let store ← lz77Optimal E F cache inData last item options.iterationCount options.iterationsWithoutImprovement
    let cost ← calculateBlockSizeAutoType E F store 0 store.size
    let totalcost := F.add totalcost cost
    lift (guardR (store.size > 0))
    let lz77 ← appendStore lz77 store
    optimizeParts E F options inData rest (lz77, splitpoints ++ [lz77.size], totalcost, item)

/-- src/deflate.rs:1242, 1246-1251: the estimated cost of the blocks given by split points -/
def totalCostOf [Checks] (E : Nat) (F : FloatOps) (lz77 : Lz77Store) : List Nat → (last : Nat) → F.F64 → Work F.F64
  | [], last, acc => do
    let c ← calculateBlockSizeAutoType E F lz77 last lz77.size
    return F.add acc c
  | item :: rest, last, acc => do
    tick 1
    let c ← calculateBlockSizeAutoType E F lz77 last item
    totalCostOf E F lz77 rest item (F.add acc c)

/-- src/deflate.rs:1184-1256: the LZ77 data of a part and its block boundaries -/
def blocksplitPlan [Checks] (E : Nat) (F : FloatOps) (options : Options) (inData : Array UInt8) (instart inend : Nat) :
    Work (Lz77Store × List Nat) := do
  let splitpointsUncompressed ← blocksplit E F inData instart inend options.maximumBlockSplits
  let (lz77, splitpoints, totalcost, last) ←
    optimizeParts E F options inData splitpointsUncompressed (Lz77Store.new, [], F.ofUsize 0, instart)
  let n ← lift (usub inend last)
  let cache ← newCache n
  let store ← lz77Optimal E F cache inData last inend options.iterationCount options.iterationsWithoutImprovement
  let cost ← calculateBlockSizeAutoType E F store 0 store.size
  let totalcost := F.add totalcost cost
  lift (guardR (instart = inend ∨ store.size > 0))
  let lz77 ← appendStore lz77 store
  if splitpointsUncompressed.length > 1 then do
    let splitpoints2 ← blocksplitLz77 E F lz77 options.maximumBlockSplits
    let totalcost2 ← totalCostOf E F lz77 splitpoints2 0 (F.ofUsize 0)
    if F.lt totalcost2 totalcost then return (lz77, splitpoints2) else return (lz77, splitpoints)
  else return (lz77, splitpoints)

/-- src/deflate.rs:1176-1259 `blocksplit_attempt` -/
def blocksplitAttempt [Checks] (E : Nat) (F : FloatOps) (options : Options) (finalBlock : Bool) (inData : Array UInt8)
    (instart inend : Nat) : Work (List WOp) := do
  let (lz77, splitpoints) ← blocksplitPlan E F options inData instart inend
  addAllBlocks E F splitpoints lz77 finalBlock inData

/-- src/deflate.rs:186-232 `deflate_part` -/
def deflatePart [Checks] (E : Nat) (F : FloatOps) (options : Options) (btype : BlockType) (finalBlock : Bool) (inData : Array UInt8)
    (instart inend : Nat) : Work (List WOp) :=
  match btype with
  | .uncompressed => addNonCompressedBlock finalBlock inData instart inend
  | .fixed => do
    let n ← lift (usub inend instart)
    let cache ← newCache n
    let (store, _) ← lz77OptimalFixed F cache inData instart inend Lz77Store.new
    addLz77Block E .fixed finalBlock inData store 0 store.size
  | .dynamic => blocksplitAttempt E F options finalBlock inData instart inend

end Work
end Zopfli
