import Verif.Proofs.Oracle
/-! # The longest match cache is transparent -/

namespace Zopfli

/-- `D` is constant on each of the consecutive segments `(prev, e₀], (e₀, e₁], …`, the last of which ends at `last`. -/
def Segs (D : Nat → Nat) : Nat → List Nat → Nat → Prop
  | prev, [], last => prev = last
  | prev, e :: es, last => prev < e ∧ (∀ k, prev < k → k ≤ e → D k = D e) ∧ Segs D e es last

/-- The table stores the segments `es` in the groups from number `j` on. -/
def Holds (cache : Array Nat) (start : Nat) (D : Nat → Nat) : Nat → List Nat → Prop
  | _, [] => True
  | j, e :: es => cache[start + j * 3]? = some (e - 3) ∧ cache[start + (j * 3 + 1)]? = some (D e % 256) ∧
      cache[start + (j * 3 + 2)]? = some ((D e >>> 8) % 256) ∧ Holds cache start D (j + 1) es

theorem Segs.le {D : Nat → Nat} : ∀ {es : List Nat} {prev last : Nat}, Segs D prev es last → prev ≤ last
  | [], _, _, h => by cases h; exact Nat.le_refl _
  | _ :: _, _, _, h => by
    have := h.2.2.le
    have := h.1
    omega

theorem Holds.congr {c c' : Array Nat} {start : Nat} {D : Nat → Nat} : ∀ {es : List Nat} {j : Nat},
    (∀ k, start + j * 3 ≤ k → k < start + (j + es.length) * 3 → c'[k]? = c[k]?) → Holds c start D j es → Holds c' start D j es
  | [], _, _, _ => trivial
  | e :: es, j, h, hh => by
    obtain ⟨h1, h2, h3, h4⟩ := hh
    simp only [List.length_cons] at h
    refine ⟨by rw [h _ (by omega) (by omega), h1], by rw [h _ (by omega) (by omega), h2], by rw [h _ (by omega) (by omega), h3], ?_⟩
    exact Holds.congr (fun k h5 h6 => h k (by omega) (by omega)) h4

theorem storeSublenLoop_spec {subl : Array Nat} {D : Nat → Nat} {length start : Nat} (hlen : length ≤ 258)
    (hsub : ∀ k, 3 ≤ k → k ≤ length → subl[k]? = some (D k)) :
    ∀ (m i j prev best : Nat) (cache : Array Nat), length - i = m → 3 ≤ i → i ≤ length → j < 8 → prev < i →
      (∀ k, prev < k → k ≤ i → D k = D i) → start + 24 ≤ cache.size →
      ∃ cache' best' es, storeSublenLoop subl start length cache i j best = some (cache', j + es.length, best') ∧
        es ≠ [] ∧ Segs D prev es best' ∧ j + es.length ≤ 8 ∧ 3 ≤ best' ∧ best' ≤ length ∧ (j + es.length < 8 → best' = length) ∧
        Holds cache' start D j es ∧ cache'.size = cache.size ∧
        (∀ k, (k < start + j * 3 ∨ start + (j + es.length) * 3 ≤ k) → cache'[k]? = cache[k]?) ∧
        cache'[start + (j + es.length - 1) * 3]? = some (best' - 3) := by
  intro m
  induction m with
  | zero =>
    intro i j prev best cache hm hi3 hil hj hp hD hcs
    have : i = length := by omega
    subst this
    rw [storeSublenLoop, if_pos (Nat.le_refl _), hsub i hi3 (Nat.le_refl _), some_bind, if_pos rfl, some_bind, if_pos rfl,
      aset_eq (by omega), some_bind, aset_eq (by rw [Array.size_set]; omega), some_bind,
      aset_eq (by rw [Array.size_set, Array.size_set]; omega), some_bind]
    generalize hc : ((cache.set (start + j * 3) ((i - 3) % 256) (by omega)).set (start + (j * 3 + 1)) (D i % 256)
      (by rw [Array.size_set]; omega)).set (start + (j * 3 + 2)) ((D i >>> 8) % 256) (by rw [Array.size_set, Array.size_set]; omega) = c'
    have hsz : c'.size = cache.size := by rw [← hc, Array.size_set, Array.size_set, Array.size_set]
    have hh : Holds c' start D j [i] := by
      refine ⟨?_, ?_, ?_, trivial⟩
      · rw [← hc, Array.getElem?_set, if_neg (by omega), Array.getElem?_set, if_neg (by omega), Array.getElem?_set, if_pos rfl,
          Nat.mod_eq_of_lt (by omega)]
      · rw [← hc, Array.getElem?_set, if_neg (by omega), Array.getElem?_set, if_pos rfl]
      · rw [← hc, Array.getElem?_set, if_pos rfl]
    have hout : ∀ k, (k < start + j * 3 ∨ start + (j + 1) * 3 ≤ k) → c'[k]? = cache[k]? := by
      intro k hk
      rw [← hc, Array.getElem?_set, if_neg (by omega), Array.getElem?_set, if_neg (by omega), Array.getElem?_set, if_neg (by omega)]
    refine ⟨c', i, [i], ?_, by simp, ⟨hp, fun k h1 h2 => hD k h1 h2, rfl⟩, by simp; omega, hi3, by omega, fun _ => rfl, hh, hsz, hout, ?_⟩
    · split
      · rfl
      · rw [storeSublenLoop, if_neg (by omega)]; rfl
    · exact hh.1
  | succ m ih =>
    intro i j prev best cache hm hi3 hil hj hp hD hcs
    rw [storeSublenLoop, if_pos hil, hsub i hi3 hil, some_bind, if_neg (by omega), hsub (i + 1) (by omega) (by omega), some_bind, some_bind]
    by_cases hne : D i ≠ D (i + 1)
    · rw [if_pos (decide_eq_true hne), aset_eq (by omega), some_bind, aset_eq (by rw [Array.size_set]; omega), some_bind,
        aset_eq (by rw [Array.size_set, Array.size_set]; omega), some_bind]
      generalize hc : ((cache.set (start + j * 3) ((i - 3) % 256) (by omega)).set (start + (j * 3 + 1)) (D i % 256)
        (by rw [Array.size_set]; omega)).set (start + (j * 3 + 2)) ((D i >>> 8) % 256) (by rw [Array.size_set, Array.size_set]; omega) = c'
      have hsz : c'.size = cache.size := by rw [← hc, Array.size_set, Array.size_set, Array.size_set]
      have hh : c'[start + j * 3]? = some (i - 3) ∧ c'[start + (j * 3 + 1)]? = some (D i % 256) ∧
          c'[start + (j * 3 + 2)]? = some ((D i >>> 8) % 256) := by
        refine ⟨?_, ?_, ?_⟩
        · rw [← hc, Array.getElem?_set, if_neg (by omega), Array.getElem?_set, if_neg (by omega), Array.getElem?_set, if_pos rfl,
            Nat.mod_eq_of_lt (by omega)]
        · rw [← hc, Array.getElem?_set, if_neg (by omega), Array.getElem?_set, if_pos rfl]
        · rw [← hc, Array.getElem?_set, if_pos rfl]
      have hout : ∀ k, (k < start + j * 3 ∨ start + (j + 1) * 3 ≤ k) → c'[k]? = cache[k]? := by
        intro k hk
        rw [← hc, Array.getElem?_set, if_neg (by omega), Array.getElem?_set, if_neg (by omega), Array.getElem?_set, if_neg (by omega)]
      by_cases hj8 : j + 1 ≥ 8
      · rw [if_pos hj8]
        refine ⟨c', i, [i], rfl, by simp, ⟨hp, fun k h1 h2 => hD k h1 h2, rfl⟩, by simp; omega, hi3, by omega, ?_,
          ⟨hh.1, hh.2.1, hh.2.2, trivial⟩, hsz, hout, hh.1⟩
        intro h
        simp at h
        omega
      · rw [if_neg hj8]
        obtain ⟨c2, b2, es, e, h1, h2, h3, h3', h4, h5, h6, h7, h8, h9⟩ := ih (i + 1) (j + 1) i i c' (by omega) (by omega) (by omega) (by omega)
          (by omega) (fun k g1 g2 => by rw [show k = i + 1 by omega]) (by omega)
        have hes : 0 < es.length := List.length_pos_iff.mpr h1
        refine ⟨c2, b2, i :: es, ?_, by simp, ⟨hp, fun k g1 g2 => hD k g1 g2, h2⟩, ?_, h3', h4, ?_, ⟨?_, ?_, ?_, h6⟩, by omega, ?_, ?_⟩
        · rw [e, List.length_cons, show j + 1 + es.length = j + (es.length + 1) by omega]
        · rw [List.length_cons]; omega
        · rw [List.length_cons]; intro g; exact h5 (by omega)
        · rw [h8 _ (by omega)]; exact hh.1
        · rw [h8 _ (by omega)]; exact hh.2.1
        · rw [h8 _ (by omega)]; exact hh.2.2
        · intro k hk
          rw [List.length_cons] at hk
          rw [h8 k (by omega), hout k (by omega)]
        · rw [List.length_cons, show j + (es.length + 1) - 1 = j + 1 + es.length - 1 by omega]
          exact h9
    · rw [if_neg (by simpa using hne)]
      have heq : D i = D (i + 1) := by simpa using hne
      refine ih (i + 1) j prev best cache (by omega) (by omega) (by omega) hj (by omega) (fun k g1 g2 => ?_) hcs
      by_cases hk : k = i + 1
      · rw [hk]
      · rw [hD k g1 (by omega), heq]

theorem fillSublen_spec {subl : Array Nat} {i length dist : Nat} (h : length < subl.size) (hil : i ≤ length + 1) :
    ∃ s, fillSublen subl i length dist = some s ∧ s.size = subl.size ∧
      ∀ k : Nat, s[k]? = if i ≤ k ∧ k ≤ length then some dist else subl[k]? := by
  unfold fillSublen
  obtain ⟨s, e, h1, h2⟩ := forRange_spec (f := fun k s => aset s k dist) (a := i) (b := length + 1) (s := subl)
    (fun n s => s.size = subl.size ∧ ∀ k : Nat, s[k]? = if i ≤ k ∧ k < n then some dist else subl[k]?) hil
    ⟨rfl, fun k => by rw [if_neg (by omega)]⟩ (by
      rintro n s h1 h2 ⟨hs, hk⟩
      refine Ret.aset (by omega) ⟨by rw [Array.size_set, hs], fun k => ?_⟩
      rw [Array.getElem?_set]
      by_cases hkn : n = k
      · rw [if_pos hkn, if_pos (by omega)]
      · rw [if_neg hkn, hk k]
        by_cases hc : i ≤ k ∧ k < n
        · rw [if_pos hc, if_pos (by omega)]
        · rw [if_neg hc, if_neg (by omega)])
  refine ⟨s, e, h1, fun k => ?_⟩
  rw [h2 k]
  by_cases hc : i ≤ k ∧ k ≤ length
  · rw [if_pos hc, if_pos (by omega)]
  · rw [if_neg hc, if_neg (by omega)]

theorem fetchSublenLoop_spec {cache : Array Nat} {start last : Nat} {D : Nat → Nat} :
    ∀ (es : List Nat) (n j prev pl : Nat) (subl : Array Nat), (∀ e ∈ es, D e < 65536) → es ≠ [] → es.length ≤ n → Segs D prev es last → 2 ≤ prev → pl ≤ prev + 1 →
      Holds cache start D j es → last < subl.size →
      ∃ s, fetchSublenLoop cache start last n j pl subl = some s ∧ s.size = subl.size ∧
        (∀ k, prev < k → k ≤ last → s[k]? = some (D k)) ∧ (∀ k, k < pl → s[k]? = subl[k]?)
  | [], _, _, _, _, _, _, h, _, _, _, _, _, _ => absurd rfl h
  | e :: es, 0, _, _, _, _, _, _, h, _, _, _, _, _ => by simp at h
  | e :: es, n + 1, j, prev, pl, subl, hD, _, hn, hseg, h2p, hpl, hh, hl => by
    obtain ⟨s1, s2, s3⟩ := hseg
    obtain ⟨g1, g2, g3, g4⟩ := hh
    have hel := s3.le
    have hdist : D e % 256 + 256 * ((D e >>> 8) % 256) = D e := by
      have := hD e (by simp)
      rw [Nat.shiftRight_eq_div_pow]
      omega
    unfold fetchSublenLoop
    rw [g1, some_bind, g2, some_bind, g3, some_bind]
    dsimp only
    rw [hdist, show e - 3 + 3 = e by omega]
    obtain ⟨s, es1, es2, es3⟩ := fillSublen_spec (subl := subl) (i := pl) (length := e) (dist := D e) (by omega) (by omega)
    rw [es1, some_bind]
    by_cases heq : e = last
    · rw [if_pos heq]
      subst heq
      refine ⟨s, rfl, es2, fun k h1 h2 => ?_, fun k hk => ?_⟩
      · rw [es3 k, if_pos (by omega), s2 k h1 h2]
      · rw [es3 k, if_neg (by omega)]
    · rw [if_neg heq]
      have hne : es ≠ [] := by
        rintro rfl
        exact heq s3
      obtain ⟨t, et, et2, et3, et4⟩ := fetchSublenLoop_spec es n (j + 1) e (e + 1) s (fun x hx => hD x (by simp [hx])) hne (by simpa using hn) s3 (by omega) (by omega) g4 (by omega)
      refine ⟨t, et, by omega, fun k h1 h2 => ?_, fun k hk => ?_⟩
      · by_cases hke : e < k
        · exact et3 k hke h2
        · rw [et4 k (by omega), es3 k, if_pos (by omega), s2 k h1 (by omega)]
      · rw [et4 k (by omega), es3 k, if_neg (by omega)]

/-- What the cache holds for one position. -/
inductive EntryOk (arr : Array UInt8) (O : Oracle) (c : LongestMatchCache) (pos p : Nat) : Prop where
  | empty (hl : c.length[p]? = some 1) (hd : c.dist[p]? = some 0)
  | short (hl : c.length[p]? = some 0) (hd : c.dist[p]? = some 0) (hL : O.L pos < 3)
  | full (hl : c.length[p]? = some (O.L pos)) (hd : c.dist[p]? = some (O.D pos (O.L pos))) (hL : 3 ≤ O.L pos)
      (es : List Nat) (best : Nat) (hne : es ≠ []) (hlen : es.length ≤ 8) (hseg : Segs (O.D pos) 2 es best) (h3 : 3 ≤ best) (hb : best ≤ O.L pos)
      (hh : Holds c.sublen (8 * p * 3) (O.D pos) 0 es) (hlast : c.sublen[8 * p * 3 + 21]? = some (best - 3))

/-- The invariant of the longest match cache of the block starting at `instart`. -/
structure LmcInv (arr : Array UInt8) (O : Oracle) (instart : Nat) (c : LongestMatchCache) : Prop where
  s1 : c.length.size = arr.size - instart
  s2 : c.dist.size = arr.size - instart
  s3 : c.sublen.size = 8 * (arr.size - instart) * 3
  entry : ∀ pos, instart ≤ pos → pos < arr.size → EntryOk arr O c pos (pos - instart)
  late : ∀ pos, instart ≤ pos → pos < arr.size → arr.size < pos + 258 → c.length[pos - instart]? = some 1 ∧ c.dist[pos - instart]? = some 0

/-- The invariant of the cache. -/
def CacheInv (arr : Array UInt8) (O : Oracle) (instart : Nat) : Cache → Prop
  | .noCache => True
  | .lmc c => LmcInv arr O instart c

theorem cacheInv_new (arr : Array UInt8) (O : Oracle) (instart : Nat) : CacheInv arr O instart (.lmc (.new (arr.size - instart))) where
  s1 := by simp [LongestMatchCache.new]
  s2 := by simp [LongestMatchCache.new]
  s3 := by simp [LongestMatchCache.new]
  entry := by
    intro pos h1 h2
    refine .empty ?_ ?_ <;> simp only [LongestMatchCache.new] <;> rw [Array.getElem?_replicate, if_pos (by omega)]
  late := by
    intro pos h1 h2 _
    constructor <;> simp only [LongestMatchCache.new] <;> rw [Array.getElem?_replicate, if_pos (by omega)]

theorem maxSublen_ret {sub : Array Nat} {p n : Nat} (hs : sub.size = 8 * n * 3) (hp : p < n) : ∃ m, maxSublen sub p = some m := by
  unfold maxSublen
  dsimp only [CACHE_LENGTH]
  rw [Array.getElem?_eq_getElem (by omega), some_bind, Array.getElem?_eq_getElem (by omega),
    Array.getElem?_eq_getElem (show 8 * p * 3 + (8 - 1) * 3 < sub.size by omega)]
  split <;> (rw [some_bind]; split <;> exact ⟨_, rfl⟩)

theorem maxSublen_full {c : Array Nat} {p best : Nat} {D : Nat → Nat} {es : List Nat} (hne : es ≠ []) (hh : Holds c (8 * p * 3) D 0 es)
    (hlast : c[8 * p * 3 + 21]? = some (best - 3)) (h3 : 3 ≤ best) (hD : ∀ e ∈ es, 1 ≤ D e ∧ D e < 65536) : maxSublen c p = some best := by
  obtain ⟨e, es', rfl⟩ := List.exists_cons_of_ne_nil hne
  obtain ⟨h0, h1, h2, -⟩ := hh
  have hDe := hD e (by simp)
  unfold maxSublen
  dsimp only [CACHE_LENGTH]
  rw [show 8 * p * 3 + 1 = 8 * p * 3 + (0 * 3 + 1) by omega, h1, some_bind, show 8 * p * 3 + 2 = 8 * p * 3 + (0 * 3 + 2) by omega, h2]
  rw [show 8 * p * 3 + (8 - 1) * 3 = 8 * p * 3 + 21 by omega, hlast, Nat.shiftRight_eq_div_pow]
  split
  · rename_i h
    rw [some_bind, if_neg (by omega)]
    show some _ = some _
    congr 1; omega
  · rename_i h
    rw [some_bind, if_neg (by omega)]
    show some _ = some _
    congr 1; omega

theorem segs_mem {D : Nat → Nat} : ∀ {es : List Nat} {prev last : Nat}, Segs D prev es last → ∀ e ∈ es, prev < e ∧ e ≤ last
  | [], _, _, _, _, h => by simp at h
  | e :: es, prev, last, h, e', he => by
    obtain ⟨h1, h2, h3⟩ := h
    have := h3.le
    rcases List.mem_cons.mp he with rfl | he
    · omega
    · have := segs_mem h3 e' he
      omega

/-- The result of `find_longest_match` agrees with the oracle. -/
structure FoundOk (O : Oracle) (pos lim : Nat) (sub : Option (Array Nat)) (m : LongestMatch) (sub' : Option (Array Nat)) : Prop where
  long : 3 ≤ min lim (O.L pos) → m.length = min lim (O.L pos) ∧ m.distance = O.D pos (min lim (O.L pos))
  short : min lim (O.L pos) < 3 → m.length < 3 ∧ (sub = none → m.length = 0 → m.distance = 0)
  sub0 : sub = none → sub' = none
  sub1 : ∀ s, sub = some s → ∃ s', sub' = some s' ∧ s'.size = s.size ∧ (lim = 258 → ∀ k, 3 ≤ k → k ≤ O.L pos → s'[k]? = some (O.D pos k))

theorem updSub_get {lo hi : Nat} {D : Nat → Nat} {s : Array Nat} {k : Nat} (h1 : lo < k) (h2 : k ≤ hi) (h3 : k < s.size) :
    (updSub lo hi D s)[k]? = some (D k) := by
  simp [updSub, h1, h2, h3]

theorem updSub_size {lo hi : Nat} {D : Nat → Nat} {s : Array Nat} : (updSub lo hi D s).size = s.size := by
  simp [updSub]

/-- Searching afresh. -/
theorem search_spec {arr : Array UInt8} {ws pos lim : Nat} {O : Oracle} (hO : IsOracle arr ws O) {h : ZopfliHash} (hws : ws ≤ pos)
    (hpos : pos + 3 ≤ arr.size) (hh : hashAt arr ws (pos + 1) = some h) (hl1 : 3 ≤ lim) (hl2 : lim ≤ 258) {sub : Option (Array Nat)}
    (hs : ∀ s, sub = some s → s.size = 259) :
    ∃ bd bl sub', findLongestMatchLoop h arr pos arr.size (if pos + lim > arr.size then arr.size - pos else lim) sub = some (bd, bl, sub') ∧
      FoundOk O pos lim sub ⟨bd, bl, false, (if pos + lim > arr.size then arr.size - pos else lim)⟩ sub' ∧
      (2 ≤ min lim (O.L pos) → bl = min lim (O.L pos) ∧ bd = O.D pos (min lim (O.L pos))) ∧ (min lim (O.L pos) < 2 → bl = 1) := by
  have hle := hO.le' pos (by omega)
  have hle2 := hO.le pos
  generalize hL : (if pos + lim > arr.size then arr.size - pos else lim) = lim'
  have hL1 : 2 ≤ lim' ∧ lim' ≤ 258 ∧ pos + lim' ≤ arr.size ∧ min lim' (O.L pos) = min lim (O.L pos) := by
    split at hL <;> omega
  obtain ⟨a1, a2, a3, a4⟩ := hL1
  have e := hO.run pos h hws hpos hh lim' sub a1 a2 a3
  rw [a4] at e
  refine ⟨_, _, _, e, ⟨?_, ?_, ?_, ?_⟩, ?_, ?_⟩
  · intro h3
    dsimp only
    rw [if_pos (by omega)]
    exact ⟨by omega, rfl⟩
  · intro h3
    dsimp only
    exact ⟨by omega, by intros; omega⟩
  · rintro rfl; rfl
  · rintro s rfl
    refine ⟨_, rfl, updSub_size, fun hl k h1 h2 => ?_⟩
    have := hs s rfl
    exact updSub_get (by omega) (by omega) (by omega)
  · intro h
    rw [if_pos (by omega)]
    exact ⟨by omega, rfl⟩
  · intro h; omega

theorem storeSublen_spec {sub subl : Array Nat} {p n length : Nat} {D : Nat → Nat} (hs : sub.size = 8 * n * 3) (hp : p < n)
    (h3 : 3 ≤ length) (h258 : length ≤ 258) (hsub : ∀ k, 3 ≤ k → k ≤ length → subl[k]? = some (D k))
    (hD : ∀ k, 3 ≤ k → k ≤ length → 1 ≤ D k ∧ D k < 65536) :
    ∃ sub' es best, storeSublen sub subl p length = some sub' ∧ sub'.size = sub.size ∧ es ≠ [] ∧ es.length ≤ 8 ∧ Segs D 2 es best ∧
      3 ≤ best ∧ best ≤ length ∧ Holds sub' (8 * p * 3) D 0 es ∧ sub'[8 * p * 3 + 21]? = some (best - 3) ∧
      ∀ k, (k < 8 * p * 3 ∨ 8 * (p + 1) * 3 ≤ k) → sub'[k]? = sub[k]? := by
  unfold storeSublen
  rw [if_neg (by omega)]
  dsimp only [CACHE_LENGTH]
  obtain ⟨c, best, es, e, h1, h2, h4, h5, h6, h7, h8, h9, h10, h11⟩ := storeSublenLoop_spec (start := 8 * p * 3) h258 hsub (length - 3) 3 0 2 0 sub rfl
    (by omega) h3 (by omega) (by omega) (fun k g1 g2 => by rw [show k = 3 by omega]) (by omega)
  rw [e, some_bind]
  simp only [Nat.zero_add] at *
  have hDe : ∀ e ∈ es, 1 ≤ D e ∧ D e < 65536 := by
    intro e he
    have := segs_mem h2 e he
    exact hD e (by omega) (by omega)
  by_cases hj : es.length < 8
  · rw [if_pos hj, guardR_eq (decide_eq_true (h7 hj)), some_bind, aset_eq (by omega), some_bind]
    have q1 : Holds (c.set (8 * p * 3 + (8 - 1) * 3) ((best + 2 ^ 32 - 3) % 256) (by omega)) (8 * p * 3) D 0 es := by
      refine Holds.congr (fun k g1 g2 => ?_) h8
      rw [Array.getElem?_set, if_neg (by omega)]
    have q2 : (c.set (8 * p * 3 + (8 - 1) * 3) ((best + 2 ^ 32 - 3) % 256) (by omega))[8 * p * 3 + 21]? = some (best - 3) := by
      rw [Array.getElem?_set, if_pos (by omega)]
      congr 1
      have : best + 2 ^ 32 - 3 = best - 3 + 2 ^ 24 * 256 := by omega
      rw [this, Nat.add_mul_mod_self_right]
      omega
    rw [maxSublen_full h1 q1 q2 h5 hDe, some_bind, guardR_eq (by simp), some_bind]
    refine ⟨_, es, best, rfl, by rw [Array.size_set, h9], h1, h4, h2, h5, h6, q1, q2, ?_⟩
    · intro k hk
      rw [Array.getElem?_set, if_neg (by omega), h10 k (by omega)]
  · have hes : es.length = 8 := by omega
    rw [hes] at h11
    rw [if_neg hj, guardR_eq (decide_eq_true h6), some_bind, some_bind, maxSublen_full h1 h8 h11 h5 hDe, some_bind, guardR_eq (by simp), some_bind]
    refine ⟨c, es, best, rfl, h9, h1, h4, h2, h5, h6, h8, h11, ?_⟩
    · intro k hk
      exact h10 k (by omega)

theorem EntryOk.congr {arr : Array UInt8} {O : Oracle} {c c' : LongestMatchCache} {pos p : Nat} (h1 : c'.length[p]? = c.length[p]?)
    (h2 : c'.dist[p]? = c.dist[p]?) (h3 : ∀ k, 8 * p * 3 ≤ k → k < 8 * (p + 1) * 3 → c'.sublen[k]? = c.sublen[k]?) (h : EntryOk arr O c pos p) :
    EntryOk arr O c' pos p := by
  cases h with
  | empty hl hd => exact .empty (h1.trans hl) (h2.trans hd)
  | short hl hd hL => exact .short (h1.trans hl) (h2.trans hd) hL
  | full hl hd hL es best hne hlen hseg g3 hb hh hlast =>
    refine .full (h1.trans hl) (h2.trans hd) hL es best hne hlen hseg g3 hb ?_ ?_
    · exact Holds.congr (fun k a1 a2 => h3 k (by omega) (by omega)) hh
    · rw [h3 _ (by omega) (by omega), hlast]

/-- Storing the result of a search. -/
theorem store_spec {arr : Array UInt8} {ws instart pos lim bd bl : Nat} {O : Oracle} (hO : IsOracle arr ws O) (hws : ws ≤ pos) {lmc : Cache}
    (hc : CacheInv arr O instart lmc) (h1 : instart ≤ pos) (h2 : pos < arr.size) {sub : Option (Array Nat)}
    (hl : lim = 258 → pos + 258 ≤ arr.size)
    (hb1 : lim = 258 → 3 ≤ O.L pos → bl = O.L pos ∧ bd = O.D pos (O.L pos)) (hb2 : lim = 258 → O.L pos < 3 → bl < 3)
    (hsub : lim = 258 → ∀ s, sub = some s → ∀ k, 3 ≤ k → k ≤ O.L pos → s[k]? = some (O.D pos k)) :
    ∃ lmc', lmc.store pos lim sub bd bl instart = some lmc' ∧ CacheInv arr O instart lmc' := by
  cases lmc with
  | noCache => exact ⟨_, rfl, trivial⟩
  | lmc c =>
    cases sub with
    | none => exact ⟨.lmc c, rfl, hc⟩
    | some s =>
      have hi : LmcInv arr O instart c := hc
      obtain ⟨lengths, dists, sub⟩ := c
      have hs1 : lengths.size = arr.size - instart := hi.s1
      have hs2 : dists.size = arr.size - instart := hi.s2
      have hs3 : sub.size = 8 * (arr.size - instart) * 3 := hi.s3
      simp only [Cache.store, LongestMatchCache.store]
      rw [if_neg (by omega)]
      rw [Array.getElem?_eq_getElem (show pos - instart < lengths.size by omega), some_bind,
        Array.getElem?_eq_getElem (show pos - instart < dists.size by omega), some_bind]
      split
      · rename_i hcond
        obtain ⟨hlim, hav⟩ := hcond
        have hlim : lim = 258 := hlim
        have hpos := hl hlim
        have hDb : ∀ k, 3 ≤ k → k ≤ O.L pos → 1 ≤ O.D pos k ∧ O.D pos k < 65536 := by
          intro k k1 k2
          have := hO.tm pos k hws (by omega) k2
          have h1 := this.d1
          have h2 := this.d2
          omega
        have hg1 : lengths[pos - instart]'(by omega) = 1 ∧ dists[pos - instart]'(by omega) = 0 := by
          have hln : ∀ (x : Nat), lengths[pos - instart]? = some x → lengths[pos - instart]'(by omega) = x := by
            intro x hx
            rw [Array.getElem?_eq_getElem (by omega)] at hx
            exact Option.some.inj hx
          have hdn : ∀ (x : Nat), dists[pos - instart]? = some x → dists[pos - instart]'(by omega) = x := by
            intro x hx
            rw [Array.getElem?_eq_getElem (by omega)] at hx
            exact Option.some.inj hx
          cases hi.entry pos h1 h2 with
          | empty hl hd => exact ⟨hln _ hl, hdn _ hd⟩
          | short hl hd hL => exact absurd (.inl (hln _ hl)) hav
          | full hl hd hL es best hne hlen hseg g3 hb hh hlast =>
            refine absurd (.inr ?_) hav
            rw [hdn _ hd]
            have := hDb (O.L pos) hL (Nat.le_refl _)
            omega
        rw [guardR_eq (by simpa using hg1), some_bind, aset_eq (by omega), some_bind, aset_eq (by omega), some_bind,
          Array.getElem?_set, if_pos rfl, some_bind, Array.getElem?_set, if_pos rfl, some_bind]
        have hother : ∀ (c' : LongestMatchCache), c'.length.size = lengths.size → c'.dist.size = dists.size → c'.sublen.size = sub.size →
            (∀ q, q ≠ pos - instart → c'.length[q]? = lengths[q]? ∧ c'.dist[q]? = dists[q]?) →
            (∀ k, (k < 8 * (pos - instart) * 3 ∨ 8 * (pos - instart + 1) * 3 ≤ k) → c'.sublen[k]? = sub[k]?) →
            EntryOk arr O c' pos (pos - instart) → LmcInv arr O instart c' := by
          intro c' a1 a2 a3 a4 a5 a6
          refine ⟨by omega, by omega, by omega, fun q g1 g2 => ?_, fun q g1 g2 g3 => ?_⟩
          · by_cases hq : q = pos
            · subst hq; exact a6
            · have b := a4 (q - instart) (by omega)
              exact EntryOk.congr b.1 b.2 (fun k k1 k2 => a5 k (by omega)) (hi.entry q g1 g2)
          · have b := a4 (q - instart) (by omega)
            have := hi.late q g1 g2 g3
            exact ⟨b.1.trans this.1, b.2.trans this.2⟩
        by_cases h3 : O.L pos < 3
        · have hbl := hb2 hlim h3
          have : storeSublen sub s (pos - instart) bl = some sub := by rw [storeSublen, if_pos hbl]
          rw [guardR_eq (by simp [hbl]), some_bind, this, some_bind]
          refine ⟨_, rfl, hother _ (by simp) (by simp) rfl ?_ (fun _ _ => rfl) ?_⟩
          · intro q hq
            dsimp only
            rw [Array.getElem?_set, if_neg (by omega), Array.getElem?_set, if_neg (by omega)]
            exact ⟨rfl, rfl⟩
          · refine .short ?_ ?_ h3
            · dsimp only
              rw [Array.getElem?_set, if_pos rfl, if_pos hbl]
            · dsimp only
              rw [Array.getElem?_set, if_pos rfl, if_pos hbl]
        · obtain ⟨rfl, rfl⟩ := hb1 hlim (by omega)
          obtain ⟨sub', es, best, e, q1, q2, q3, q4, q5, q6, q7, q8, q9⟩ := storeSublen_spec (subl := s) (D := O.D pos) hs3 (show pos - instart < arr.size - instart by omega)
            (show 3 ≤ O.L pos by omega) (hO.le pos) (hsub hlim s rfl) hDb
          rw [guardR_eq (by rw [if_neg (by omega), if_neg (by omega)]; simp; omega), some_bind, e, some_bind]
          refine ⟨_, rfl, hother _ (by simp) (by simp) q1 ?_ q9 ?_⟩
          · intro q hq
            dsimp only
            rw [Array.getElem?_set, if_neg (by omega), Array.getElem?_set, if_neg (by omega)]
            exact ⟨rfl, rfl⟩
          · refine .full ?_ ?_ (by omega) es best q2 q3 q4 q5 q6 q7 q8
            · dsimp only
              rw [Array.getElem?_set, if_pos rfl, if_neg h3]
            · dsimp only
              rw [Array.getElem?_set, if_pos rfl, if_neg h3]
      · exact ⟨_, rfl, hc⟩

/-- `find_longest_match`, with or without the cache, returns what the oracle says. -/
theorem findLongestMatch_spec {arr : Array UInt8} {ws instart pos lim : Nat} {O : Oracle} (hO : IsOracle arr ws O) (hws : ws ≤ pos) {lmc : Cache}
    (hc : CacheInv arr O instart lmc) (h1 : instart ≤ pos) (h2 : pos < arr.size) {h : ZopfliHash} (hh : hashAt arr ws (pos + 1) = some h)
    {sub : Option (Array Nat)} (hs : ∀ s, sub = some s → s.size = 259 ∧ lim = 258)
    (hlim2 : 3 ≤ lim ∧ lim ≤ 258) :
    ∃ m lmc' sub', findLongestMatch lmc h arr pos arr.size instart lim sub = some (m, lmc', sub') ∧ CacheInv arr O instart lmc' ∧
      FoundOk O pos lim sub m sub' := by
  have hle := hO.le pos
  -- the uncached search
  have fresh : ∀ lim', 3 ≤ lim' → lim' ≤ 258 → min lim' (O.L pos) = min lim (O.L pos) →
      (∀ s, sub = some s → lim' = 258 ∨ lim' = O.L pos) →
      ∃ m lmc' sub', (do
        guardR (lim' ≤ MAX_MATCH ∧ lim' ≥ MIN_MATCH ∧ pos < arr.size)
        if arr.size - pos < MIN_MATCH then pure ((⟨0, 0, false, 0⟩ : LongestMatch), lmc, sub)
        else do
          let limit := if pos + lim' > arr.size then arr.size - pos else lim'
          let (bestdist, bestlength, sublen) ← findLongestMatchLoop h arr pos arr.size limit sub
          let lmc ← lmc.store pos limit sublen bestdist bestlength instart
          guardR (bestlength ≤ limit % 65536 ∧ pos + bestlength ≤ arr.size)
          return (⟨bestdist, bestlength, false, limit⟩, lmc, sublen)) = some (m, lmc', sub') ∧ CacheInv arr O instart lmc' ∧
        FoundOk O pos lim sub m sub' := by
    intro lim' g1 g2 g3 g4
    rw [guardR_eq (by simp only [decide_eq_true_eq]; exact ⟨g2, g1, h2⟩), some_bind]
    by_cases hsmall : arr.size - pos < 3
    · rw [if_pos hsmall]
      have hL := hO.small pos (by omega)
      refine ⟨_, _, _, rfl, hc, ?_, ?_, fun e => e, ?_⟩
      · intro h; rw [hL] at h; omega
      · intro _; exact ⟨by show 0 < 3; omega, fun _ _ => rfl⟩
      · rintro s rfl
        exact ⟨s, rfl, rfl, fun _ k k1 k2 => by rw [hL] at k2; omega⟩
    · rw [if_neg hsmall]
      obtain ⟨bd, bl, sub', e, hf, hbl, hbl1⟩ := search_spec hO hws (by omega) hh g1 g2 (fun s es => (hs s es).1) (sub := sub)
      dsimp only
      rw [e, some_bind]
      dsimp only
      have hmin258 : (if pos + lim' > arr.size then arr.size - pos else lim') = 258 → min lim' (O.L pos) = O.L pos ∧ lim' = 258 := by
        intro h; split at h <;> omega
      obtain ⟨lmc', es, hc'⟩ := store_spec (lim := if pos + lim' > arr.size then arr.size - pos else lim') (bd := bd) (bl := bl) (sub := sub') hO hws hc h1 h2
        (by intro h; split at h <;> omega)
        (by
          intro h h3
          have := hmin258 h
          rw [this.1] at hbl
          exact hbl (by omega))
        (by
          intro h h3
          have := hmin258 h
          rw [this.1] at hbl hbl1
          by_cases hh : 2 ≤ O.L pos
          · have := hbl hh; omega
          · have := hbl1 (by omega); omega)
        (by
          intro h s' es' k k1 k2
          cases hsub : sub with
          | none => rw [hf.sub0 hsub] at es'; cases es'
          | some s =>
            obtain ⟨s2, e2, -, h3⟩ := hf.sub1 s hsub
            rw [e2] at es'
            cases es'
            exact h3 (hmin258 h).2 k k1 k2)
      have hle' := hO.le' pos (by omega)
      have hgd : bl ≤ (if pos + lim' > arr.size then arr.size - pos else lim') % 65536 ∧ pos + bl ≤ arr.size := by
        have : bl = min lim' (O.L pos) ∨ bl = 1 := by
          by_cases hq : 2 ≤ min lim' (O.L pos)
          · exact .inl (hbl hq).1
          · exact .inr (hbl1 (by omega))
        split <;> omega
      rw [es, some_bind, guardR_eq (by simp only [decide_eq_true_eq]; exact hgd), some_bind]
      refine ⟨_, _, _, rfl, hc', ?_, ?_, hf.sub0, ?_⟩
      · rw [← g3]; exact hf.long
      · rw [← g3]; exact hf.short
      · rintro s rfl
        obtain ⟨s2, e2, e3, h3⟩ := hf.sub1 s rfl
        refine ⟨s2, e2, e3, fun _ => ?_⟩
        rcases g4 s rfl with hq | hq
        · exact h3 hq
        · intro k k1 k2
          -- the loop stopped at the full length
          have hle' := hO.le' pos (by omega)
          have e' := hO.run pos h hws (by omega) hh lim' (some s) (by omega) g2 (by omega)
          rw [if_neg (by omega), e'] at e
          have e4 := (Prod.mk.inj (Prod.mk.inj (Option.some.inj e)).2).2
          rw [e2] at e4
          have e5 := Option.some.inj e4
          have hsz := (hs s rfl).1
          rw [← e5, updSub_get (by omega) (by omega) (by omega)]
  unfold findLongestMatch
  cases lmc with
  | noCache =>
    simp only [Cache.tryGet, some_bind, LongestMatch.new]
    exact fresh lim hlim2.1 hlim2.2 rfl (fun s e => .inl (hs s e).2)
  | lmc c =>
    have hi : LmcInv arr O instart c := hc
    have hs1 := hi.s1
    have hs2 := hi.s2
    have hs3 := hi.s3
    have fresh' := fresh lim hlim2.1 hlim2.2 rfl (fun s e => .inl (hs s e).2)
    simp only [Cache.tryGet, LongestMatchCache.tryGet]
    rw [if_neg (by omega)]
    obtain ⟨mx, emx⟩ := maxSublen_ret hs3 (show pos - instart < arr.size - instart by omega)
    cases hi.entry pos h1 h2 with
    | empty hl hd =>
      rw [hl, some_bind, hd, some_bind, emx, some_bind, if_neg (by simp)]
      exact fresh'
    | short hl hd hL =>
      rw [hl, some_bind, hd, some_bind, emx, some_bind, if_pos (by simp), if_pos (by right; omega)]
      cases sub with
      | none =>
        refine ⟨⟨0, min 0 (lim % 65536), true, lim⟩, .lmc c, none, ?_, hc, ?_, ?_, fun e => e, ?_⟩
        · show (guardR (decide (pos + min 0 (lim % 65536) ≤ arr.size)) >>= fun _ => _) = _
          rw [guardR_eq (by simp only [decide_eq_true_eq]; omega)]
          rfl
        · intro h; omega
        · intro h; exact ⟨by simp, fun _ _ => rfl⟩
        · intro s e; cases e
      | some s =>
        obtain ⟨z1, z2⟩ := hs s rfl
        have : fetchSublen c.sublen (pos - instart) (min 0 (lim % 65536)) s = some s := by
          rw [fetchSublen, if_pos (by omega)]
        dsimp only
        rw [this, some_bind, Array.getElem?_eq_getElem (by omega), some_bind]
        rw [if_neg (by simp)]
        refine ⟨⟨s[min 0 (lim % 65536)]'(by omega), min 0 (lim % 65536), true, lim⟩, .lmc c, some s, ?_, hc, ?_, ?_, (by intro e; cases e), ?_⟩
        · show (guardR (decide (pos + min 0 (lim % 65536) ≤ arr.size)) >>= fun _ => _) = _
          rw [guardR_eq (by simp only [decide_eq_true_eq]; omega)]
          rfl
        · intro h; omega
        · intro h; exact ⟨by simp, by intro h; cases h⟩
        · intro s' e; cases e
          exact ⟨s, rfl, rfl, fun _ k k1 k2 => by omega⟩
    | full hl hd hL es best hne hlen hseg g3 hb hh' hlast =>
      have hDb : ∀ k, 3 ≤ k → k ≤ O.L pos → 1 ≤ O.D pos k ∧ O.D pos k < 65536 := by
        intro k k1 k2
        have := hO.tm pos k hws (by omega) k2
        have h1 := this.d1
        have h2 := this.d2
        omega
      have hes : ∀ e ∈ es, 1 ≤ O.D pos e ∧ O.D pos e < 65536 := by
        intro e he
        have := segs_mem hseg e he
        exact hDb e (by omega) (by omega)
      have emx' := maxSublen_full hne hh' hlast g3 hes
      have hDL := hDb (O.L pos) hL (Nat.le_refl _)
      have hle' := hO.le' pos (by omega)
      rw [hl, some_bind, hd, some_bind, emx', some_bind]
      by_cases hok : lim = 258 ∨ O.L pos ≤ lim
      · rw [if_pos ⟨by
          rcases hok with h | h
          · exact .inl h
          · right; left; omega, .inr (by omega)⟩]
        have hmin : min lim (O.L pos) = O.L pos := by omega
        have hmin' : min (O.L pos) (lim % 65536) = O.L pos := by omega
        cases sub with
        | none =>
          rw [if_pos (.inl rfl)]
          refine ⟨⟨O.D pos (O.L pos), min (O.L pos) (lim % 65536), true, lim⟩, .lmc c, none, ?_, hc, ?_, ?_, fun e => e, ?_⟩
          · show (guardR (decide (pos + min (O.L pos) (lim % 65536) ≤ arr.size)) >>= fun _ => _) = _
            rw [guardR_eq (by simp only [decide_eq_true_eq]; omega)]
            rfl
          · intro _
            dsimp only
            rw [hmin, hmin']
            exact ⟨rfl, rfl⟩
          · intro h; omega
          · intro s e; cases e
        | some s =>
          obtain ⟨z1, z2⟩ := hs s rfl
          by_cases hbest : O.L pos ≤ best
          · rw [if_pos (.inr hbest)]
            have hbL : best = O.L pos := by omega
            subst hbL
            obtain ⟨s', f1, f2, f3, -⟩ := fetchSublenLoop_spec es 8 0 2 0 s (fun e he => (hes e he).2) hne hlen hseg (by omega) (by omega) hh' (by omega)
            have hf : fetchSublen c.sublen (pos - instart) (min (O.L pos) (lim % 65536)) s = some s' := by
              rw [fetchSublen, hmin', if_neg (by omega), emx', some_bind]
              exact f1
            dsimp only
            rw [hf, some_bind, hmin', f3 _ (by omega) (Nat.le_refl _), some_bind]
            rw [if_pos ⟨z2, hL⟩, guardR_eq (by simp), some_bind]
            refine ⟨⟨O.D pos (O.L pos), O.L pos, true, lim⟩, .lmc c, some s', ?_, hc, ?_, ?_, (by intro e; cases e), ?_⟩
            · show (guardR (decide (pos + O.L pos ≤ arr.size)) >>= fun _ => _) = _
              rw [guardR_eq (by simp only [decide_eq_true_eq]; omega)]
              rfl
            · intro _
              dsimp only
              rw [hmin]
              exact ⟨rfl, rfl⟩
            · intro h; omega
            · intro s2 e; cases e
              exact ⟨s', rfl, f2, fun _ k k1 k2 => f3 k (by omega) k2⟩
          · rw [if_neg (by simp; omega)]
            exact fresh (O.L pos) hL hle (by omega) (fun _ _ => .inr rfl)
      · have hnot : ¬ ((lim = 258 ∨ O.L pos ≤ lim % 65536 ∨ (sub.isSome = true ∧ best ≥ lim % 2 ^ 32)) ∧ (O.L pos = 0 ∨ O.D pos (O.L pos) ≠ 0)) := by
          rintro ⟨h | h | ⟨h, -⟩, -⟩
          · exact hok (.inl h)
          · exact hok (.inr (by omega))
          · obtain ⟨s, hs'⟩ := Option.isSome_iff_exists.mp h
            exact hok (.inl (hs s hs').2)
        rw [if_neg hnot]
        exact fresh'

end Zopfli
