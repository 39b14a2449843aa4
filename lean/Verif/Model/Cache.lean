import Verif.Model.Basic
/-!
# Model of `src/cache.rs`

`u16`/`u8` values are naturals.  The `Cache` trait has two implementations, a two-constructor type here.  `sublen:
&mut Option<&mut [u16]>` becomes an `Option (Array Nat)` that is returned.
-/

namespace Zopfli

/-- src/lz77.rs:380-385 `LongestMatch` -/
structure LongestMatch where
  distance : Nat
  length : Nat
  fromCache : Bool
  limit : Nat
deriving Repr, DecidableEq

/-- src/lz77.rs:388-395 `LongestMatch::new` -/
def LongestMatch.new (limit : Nat) : LongestMatch := ⟨0, 0, false, limit⟩

/-- src/cache.rs:15-19 `ZopfliLongestMatchCache` -/
structure LongestMatchCache where
  length : Array Nat
  dist : Array Nat
  sublen : Array Nat

/-- src/cache.rs:22-31 `new` -/
def LongestMatchCache.new (blocksize : Nat) : LongestMatchCache where
  length := Array.replicate blocksize 1
  dist := Array.replicate blocksize 0
  sublen := Array.replicate (CACHE_LENGTH * blocksize * 3) 0

/-- src/cache.rs:50-56 `max_sublen` -/
def maxSublen (sublen : Array Nat) (pos : Nat) : Option Nat := do
  let start := CACHE_LENGTH * pos * 3
  let a ← sublen[start + 1]?
  -- `&&` only reads the second byte when the first is zero
  let b ← (if a = 0 then sublen[start + 2]? else some 1)
  if a = 0 ∧ b = 0 then return 0
  else return (← sublen[start + (CACHE_LENGTH - 1) * 3]?) + 3

/-- src/cache.rs:66-82: the loop of `store_sublen`; returns the table, `j` and `bestlength`. -/
def storeSublenLoop (subl : Array Nat) (start length : Nat) (cache : Array Nat) (i j bestlength : Nat) :
    Option (Array Nat × Nat × Nat) :=
  if i ≤ length then do
    let s ← subl[i]?
    let differs ← (if i = length then some true else do some (decide (s ≠ (← subl[i + 1]?))))
    if differs then do
      let cache ← aset cache (start + j * 3) ((i - 3) % 256)
      let cache ← aset cache (start + (j * 3 + 1)) (s % 256)
      let cache ← aset cache (start + (j * 3 + 2)) ((s >>> 8) % 256)
      if j + 1 ≥ CACHE_LENGTH then return (cache, j + 1, i)
      else storeSublenLoop subl start length cache (i + 1) (j + 1) i
    else storeSublenLoop subl start length cache (i + 1) j bestlength
  else return (cache, j, bestlength)
termination_by length + 1 - i

/-- src/cache.rs:59-90 `store_sublen`, with its debug assertions (lines 83, 86, 88); `(bestlength - 3) as u8`. -/
def storeSublen (cache : Array Nat) (subl : Array Nat) (pos length : Nat) : Option (Array Nat) :=
  if length < 3 then some cache
  else do
    let start := CACHE_LENGTH * pos * 3
    let (cache, j, bestlength) ← storeSublenLoop subl start length cache 3 0 0
    let cache ← (if j < CACHE_LENGTH then do
        guardR (bestlength = length)
        aset cache (start + (CACHE_LENGTH - 1) * 3) ((bestlength + 2 ^ 32 - 3) % 256)
      else do
        guardR (bestlength ≤ length)
        some cache)
    guardR (bestlength = (← maxSublen cache pos))
    return cache

/-- src/cache.rs:107-111: `while i <= length { sublen[i] = dist; i += 1 }` -/
def fillSublen (subl : Array Nat) (i length dist : Nat) : Option (Array Nat) :=
  forRange i (length + 1) subl fun k s => aset s k dist

/-- src/cache.rs:101-116: the loop of `fetch_sublen`, `n` groups starting with group `j`. -/
def fetchSublenLoop (cache : Array Nat) (start maxlength : Nat) : (n j prevlength : Nat) → Array Nat → Option (Array Nat)
  | 0, _, _, subl => some subl
  | n + 1, j, prevlength, subl => do
    let length := (← cache[start + j * 3]?) + 3
    let dist := (← cache[start + (j * 3 + 1)]?) + 256 * (← cache[start + (j * 3 + 2)]?)
    let subl ← fillSublen subl prevlength length dist
    if length = maxlength then return subl
    else fetchSublenLoop cache start maxlength n (j + 1) (length + 1) subl

/-- src/cache.rs:92-117 `fetch_sublen` -/
def fetchSublen (cache : Array Nat) (pos length : Nat) (subl : Array Nat) : Option (Array Nat) :=
  if length < 3 then some subl
  else do
    let maxlength ← maxSublen cache pos
    fetchSublenLoop cache (CACHE_LENGTH * pos * 3) maxlength CACHE_LENGTH 0 0 subl

/-- src/cache.rs:119-136 the `Cache` trait, with its implementors `NoCache` and `ZopfliLongestMatchCache` -/
inductive Cache where
  | noCache
  | lmc (c : LongestMatchCache)

/-- src/cache.rs:157-206 `ZopfliLongestMatchCache::try_get`; returns the match and the updated `sublen`.
`pos - blockstart` underflows (hence indexes out of range) when `pos < blockstart`. -/
def LongestMatchCache.tryGet (c : LongestMatchCache) (pos limit : Nat) (sublen : Option (Array Nat))
    (blockstart : Nat) : Option (LongestMatch × Option (Array Nat)) := do
  if pos < blockstart then none
  let lmcpos := pos - blockstart
  let length ← c.length[lmcpos]?
  let dist ← c.dist[lmcpos]?
  let cacheAvailable := length = 0 ∨ dist ≠ 0
  let maxSub ← maxSublen c.sublen lmcpos
  let limitOk := limit = MAX_MATCH ∨ length ≤ limit % 65536 ∨ (sublen.isSome ∧ maxSub ≥ limit % 2 ^ 32)
  if limitOk ∧ cacheAvailable then do
    if sublen.isNone ∨ length ≤ maxSub then do
      let len := min length (limit % 65536)
      match sublen with
      | some subl => do
        let subl ← fetchSublen c.sublen lmcpos len subl
        let distance ← subl[len]?
        if limit = MAX_MATCH ∧ len ≥ MIN_MATCH then guardR (distance = dist) else some ()      -- line 189
        return (⟨distance, len, true, limit⟩, some subl)
      | none => return (⟨dist, len, true, limit⟩, none)
    else return (⟨0, 0, false, length⟩, sublen)
  else return (.new limit, sublen)

/-- src/cache.rs:140-149 and 157-206 `Cache::try_get` -/
def Cache.tryGet (c : Cache) (pos limit : Nat) (sublen : Option (Array Nat)) (blockstart : Nat) :
    Option (LongestMatch × Option (Array Nat)) :=
  match c with
  | .noCache => some (.new limit, sublen)
  | .lmc c => c.tryGet pos limit sublen blockstart

/-- src/cache.rs:208-236 `ZopfliLongestMatchCache::store` -/
def LongestMatchCache.store (c : LongestMatchCache) (pos limit : Nat) (sublen : Option (Array Nat))
    (distance length blockstart : Nat) : Option LongestMatchCache :=
  match c, sublen with
  | c, none => some c
  | ⟨lengths, dists, sub⟩, some subl => do
    if pos < blockstart then none
    let lmcpos := pos - blockstart
    let l0 ← lengths[lmcpos]?
    let d0 ← dists[lmcpos]?
    let cacheAvailable := l0 = 0 ∨ d0 ≠ 0
    if limit = MAX_MATCH ∧ ¬ cacheAvailable then do
      guardR (l0 = 1 ∧ d0 = 0)                                                -- line 224
      let short := length < MIN_MATCH
      let dists ← aset dists lmcpos (if short then 0 else distance)
      let lengths ← aset lengths lmcpos (if short then 0 else length)
      guardR ¬ ((← lengths[lmcpos]?) = 1 ∧ (← dists[lmcpos]?) = 0)            -- line 232
      let sub ← storeSublen sub subl lmcpos length
      return ⟨lengths, dists, sub⟩
    else return ⟨lengths, dists, sub⟩

/-- src/cache.rs:151-153 and 208-236 `Cache::store` -/
def Cache.store (c : Cache) (pos limit : Nat) (sublen : Option (Array Nat)) (distance length blockstart : Nat) :
    Option Cache :=
  match c with
  | .noCache => some .noCache
  | .lmc c => do return .lmc (← c.store pos limit sublen distance length blockstart)

end Zopfli
