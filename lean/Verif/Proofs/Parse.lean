import Verif.Proofs.Cache
import Verif.Proofs.Store
/-! # LZ77 sequences that describe the data -/

namespace Zopfli

/-- The positions of the items. -/
def posList : Nat → List LitLen → List Nat
  | _, [] => []
  | start, x :: xs => start :: posList (start + x.size) xs

/-- The store describes the data from `start` to `stop`. -/
structure StoreOk (data : Array UInt8) (start stop : Nat) (s : Lz77Store) : Prop where
  inv : StoreInv s
  parses : Parses data start s.litlens.toList stop
  poss : s.pos.toList = posList start s.litlens.toList

theorem ItemOk.inRange {data : Array UInt8} {pos : Nat} {x : LitLen} (h : ItemOk data pos x) : x.InRange := by
  cases x with
  | literal b =>
    obtain ⟨u, -, rfl⟩ := h
    exact u.toNat_lt
  | lengthDist len dist =>
    obtain ⟨h1, h2, h3, h4, -⟩ := h
    exact ⟨h1, h2, h3, by omega⟩

theorem ItemOk.le {data : Array UInt8} {pos : Nat} {x : LitLen} (h : ItemOk data pos x) : pos + x.size ≤ data.size := by
  cases x with
  | literal b =>
    obtain ⟨u, h, -⟩ := h
    have := (Array.getElem?_eq_some_iff.mp h).1
    simp only [LitLen.size]; omega
  | lengthDist len dist =>
    obtain ⟨-, -, -, -, -, h, -⟩ := h
    exact h

theorem LitLen.size_pos {data : Array UInt8} {pos : Nat} {x : LitLen} (h : ItemOk data pos x) : 1 ≤ x.size := by
  cases x with
  | literal b => exact Nat.le_refl _
  | lengthDist len dist =>
    obtain ⟨h, -⟩ := h
    simp only [LitLen.size]; omega

theorem Parses.append {data : Array UInt8} : ∀ {xs ys : List LitLen} {a b c : Nat}, Parses data a xs b → Parses data b ys c → Parses data a (xs ++ ys) c
  | [], _, _, _, _, h, h' => by cases h; exact h'
  | _ :: _, _, _, _, _, h, h' => ⟨h.1, h.2.append h'⟩

theorem Parses.le {data : Array UInt8} : ∀ {xs : List LitLen} {a b : Nat}, Parses data a xs b → a ≤ b
  | [], _, _, h => by cases h; exact Nat.le_refl _
  | x :: _, _, _, h => by have := h.2.le; omega

theorem Parses.stop {data : Array UInt8} : ∀ {xs : List LitLen} {a b : Nat}, Parses data a xs b → b = a + (xs.map LitLen.size).sum
  | [], _, _, h => by cases h; simp
  | x :: _, _, _, h => by rw [h.2.stop, List.map_cons, List.sum_cons]; omega

theorem Parses.split {data : Array UInt8} : ∀ {xs ys : List LitLen} {a c : Nat}, Parses data a (xs ++ ys) c → ∃ b, Parses data a xs b ∧ Parses data b ys c
  | [], _, a, _, h => ⟨a, rfl, h⟩
  | x :: xs, ys, a, c, h => by
    obtain ⟨b, h1, h2⟩ := Parses.split h.2
    exact ⟨b, ⟨h.1, h1⟩, h2⟩

theorem Parses.stop_le {data : Array UInt8} : ∀ {xs : List LitLen} {a b : Nat}, Parses data a xs b → a ≤ data.size → b ≤ data.size
  | [], _, _, h, ha => by cases h; exact ha
  | _ :: _, _, _, h, _ => h.2.stop_le h.1.le

theorem posList_append : ∀ (xs ys : List LitLen) (a : Nat), posList a (xs ++ ys) = posList a xs ++ posList (a + (xs.map LitLen.size).sum) ys
  | [], _, _ => by simp [posList]
  | x :: xs, ys, a => by simp [posList, posList_append xs ys, Nat.add_assoc]

theorem posList_length : ∀ (xs : List LitLen) (a : Nat), (posList a xs).length = xs.length
  | [], _ => rfl
  | x :: xs, a => by simp [posList, posList_length xs]

theorem StoreOk.new (data : Array UInt8) (a : Nat) : StoreOk data a a Lz77Store.new := ⟨StoreInv.new, rfl, rfl⟩

theorem StoreOk.append {data : Array UInt8} {a b : Nat} {s : Lz77Store} (h : StoreOk data a b s) {x : LitLen} (hx : ItemOk data b x) :
    Ret (s.appendStoreItem x b) fun s' => StoreOk data a (b + x.size) s' ∧ s'.litlens = s.litlens.push x := by
  refine Ret.mono (appendStoreItem_spec h.inv hx.inRange b) ?_
  rintro s' ⟨h1, h2, h3⟩
  refine ⟨⟨h1, ?_, ?_⟩, h2⟩
  · rw [h2, Array.toList_push]
    exact h.parses.append ⟨hx, rfl⟩
  · rw [h3, h2, Array.toList_push, Array.toList_push, posList_append, h.poss, ← h.parses.stop]
    rfl

theorem StoreOk.lit {data : Array UInt8} {a b : Nat} {s : Lz77Store} (h : StoreOk data a b s) (hb : b < data.size) :
    ∃ s', s.litLenDist data[b].toNat 0 b = some s' ∧ StoreOk data a (b + 1) s' ∧ s'.litlens = s.litlens.push (.literal data[b].toNat) := by
  obtain ⟨s', e, h1, h2⟩ := h.append (x := .literal data[b].toNat) ⟨data[b], by rw [Array.getElem?_eq_getElem hb], rfl⟩
  exact ⟨s', e, h1, h2⟩

theorem StoreOk.copy {data : Array UInt8} {a b ws len dist : Nat} {s : Lz77Store} (h : StoreOk data a b s) (h3 : 3 ≤ len) (h258 : len ≤ 258)
    (hsz : b + len ≤ data.size) (ht : TrueMatch data ws b len dist) :
    ∃ s', s.litLenDist len dist b = some s' ∧ StoreOk data a (b + len) s' ∧ s'.litlens = s.litlens.push (.lengthDist len dist) := by
  have d1 := ht.d1
  have d2 := ht.d2
  have d3 := ht.d3
  obtain ⟨s', e, h1, h2⟩ := h.append (x := .lengthDist len dist) ⟨h3, h258, d1, by omega, by omega, hsz, ht.eq⟩
  refine ⟨s', ?_, h1, h2⟩
  rw [Lz77Store.litLenDist, if_neg (by omega)]
  exact e

/-! ## Greedy parsing -/

theorem verifyLenDist_spec {data : Array UInt8} {ws pos len dist : Nat} (ht : TrueMatch data ws pos len dist) (hsz : pos + len ≤ data.size) :
    verifyLenDist data pos dist len = some () := by
  have d3 := ht.d3
  unfold verifyLenDist
  obtain ⟨_, e, -⟩ := forRange_spec (f := fun i (_ : Unit) => do
      let start ← usub pos dist
      guardR ((← data[start + i]?) = (← data[pos + i]?))) (a := 0) (b := len) (s := ()) (fun _ _ => True) (Nat.zero_le _) trivial (by
    intro i s _ hi _
    refine ⟨(), ?_, trivial⟩
    have := ht.eq i hi
    rw [usub_eq (by omega), some_bind, ← this, Array.getElem?_eq_getElem (by omega), some_bind, some_bind, guardR_eq (by simp)])
  exact e

theorem hashAt_range {arr : Array UInt8} {ws a : Nat} {h : ZopfliHash} (ha : ws ≤ a) (e : hashAt arr ws a = some h) :
    ∀ (d : Nat), a + d ≤ arr.size → ∃ h', (forRange a (a + d) h fun k h => h.update arr k) = some h' ∧ hashAt arr ws (a + d) = some h'
  | 0, _ => ⟨h, forRange_empty (Nat.le_refl _), e⟩
  | d + 1, hd => by
    obtain ⟨h1, e1, e2⟩ := hashAt_range ha e d (by omega)
    have hw : ws < arr.size := by omega
    obtain ⟨h2, e3, -⟩ := hashAt_inv hw (a + d + 1 - ws) (by omega)
    rw [show ws + (a + d + 1 - ws) = a + d + 1 by omega] at e3
    refine ⟨h2, ?_, e3⟩
    rw [← Nat.add_assoc, forRange_snoc (by omega), e1, some_bind]
    rw [hashAt_succ (by omega), e2, some_bind] at e3
    exact e3

theorem hashAt_next {arr : Array UInt8} {ws a : Nat} {h : ZopfliHash} (ha : ws ≤ a) (e : hashAt arr ws a = some h) (hlt : a < arr.size) :
    ∃ h', h.update arr a = some h' ∧ hashAt arr ws (a + 1) = some h' := by
  obtain ⟨h', e1, e2⟩ := hashAt_range ha e 1 (by omega)
  refine ⟨h', ?_, e2⟩
  rw [forRange_snoc (Nat.le_refl _), forRange_empty (Nat.le_refl _), some_bind] at e1
  exact e1

/-- The state of the greedy loop, without the cache. -/
structure GCore where
  i : Nat
  h : ZopfliHash
  store : Lz77Store
  prevLength : Nat
  prevMatch : Nat
  matchAvailable : Bool

/-- The state of the greedy loop. -/
def GCore.with (g : GCore) (lmc : Cache) : GreedyState :=
  ⟨g.i, g.h, lmc, g.store, g.prevLength, g.prevMatch, g.matchAvailable⟩

/-- The invariant of the greedy loop. -/
structure GInv (arr : Array UInt8) (ws : Nat) (O : Oracle) (instart : Nat) (g : GCore) : Prop where
  lo : instart ≤ g.i
  hi : g.i ≤ arr.size
  hash : hashAt arr ws g.i = some g.h
  plain : g.matchAvailable = false → StoreOk arr instart g.i g.store
  avail : g.matchAvailable = true → instart + 1 ≤ g.i ∧ StoreOk arr instart (g.i - 1) g.store ∧ g.prevLength = O.L (g.i - 1) ∧
    g.prevMatch = O.D (g.i - 1) (O.L (g.i - 1)) ∧ 3 ≤ g.prevLength ∧ (3 : Int) ≤ getLengthScore g.prevLength g.prevMatch

theorem i32_ge {x : Int} (h : 0 ≤ x) : i32AsUsize x ≥ 3 ↔ 3 ≤ x := by
  unfold i32AsUsize
  rw [if_neg (by omega)]
  omega

/-- One step of greedy parsing; what it does is independent of the cache. -/
theorem greedyStep_spec {arr : Array UInt8} {ws instart : Nat} {O : Oracle} (hO : IsOracle arr ws O) (hws : ws ≤ instart) {g : GCore}
    (hg : GInv arr ws O instart g) (hlt : g.i < arr.size) :
    ∃ g', GInv arr ws O instart g' ∧ g.i < g'.i ∧ ∀ lmc, CacheInv arr O instart lmc → ∃ lmc', CacheInv arr O instart lmc' ∧
      greedyStep arr instart arr.size (g.with lmc) = some (.inl (g'.with lmc')) := by
  obtain ⟨i, h, store, pl, pm, ma⟩ := g
  obtain ⟨g1, g2, g3, g4, g5⟩ := hg
  dsimp only at g1 g2 g3 g4 g5 hlt
  obtain ⟨h', eh, hh⟩ := hashAt_next (by omega) g3 hlt
  have hfind : ∀ lmc, CacheInv arr O instart lmc → ∃ m lmc' sub', findLongestMatch lmc h' arr i arr.size instart 258 none = some (m, lmc', sub') ∧
      CacheInv arr O instart lmc' ∧ FoundOk O i 258 none m sub' := fun lmc hc =>
    findLongestMatch_spec (lim := 258) hO (by omega) hc g1 hlt hh (by intro s hs; cases hs) ⟨by omega, by omega⟩
  have hLle := hO.le i
  have hLle' := hO.le' i (by omega)
  have hmin : min 258 (O.L i) = O.L i := by omega
  -- the shared ends
  have hprev : ma = true → verifyLenDist arr (i - 1) pm pl = some () ∧ ∃ s', store.litLenDist pl pm (i - 1) = some s' ∧ StoreOk arr instart (i - 1 + pl) s' ∧ i - 1 + pl ≤ arr.size ∧ pl ≤ 258 := by
    intro hma
    obtain ⟨a1, a2, a3, a4, a5, a6⟩ := g5 hma
    have hle := hO.le (i - 1)
    have hle' := hO.le' (i - 1) (by omega)
    have ht := hO.tm (i - 1) (O.L (i - 1)) (by omega) (by omega) (Nat.le_refl _)
    rw [← a4, ← a3] at ht
    obtain ⟨s', e1, e2, -⟩ := a2.copy a5 (by omega) (by omega) ht
    exact ⟨verifyLenDist_spec ht (by omega), s', e1, e2, by omega, by omega⟩
  by_cases hL : 3 ≤ O.L i ∧ (3 : Int) ≤ getLengthScore (O.L i) (O.D i (O.L i))
  · -- a match that counts
    obtain ⟨hL3, hsc⟩ := hL
    have htm := hO.tm i (O.L i) (by omega) (by omega) (Nat.le_refl _)
    have hm : ∀ lmc, CacheInv arr O instart lmc → ∃ lmc' b l, findLongestMatch lmc h' arr i arr.size instart 258 none =
        some (⟨O.D i (O.L i), O.L i, b, l⟩, lmc', none) ∧ CacheInv arr O instart lmc' := by
      intro lmc hc
      obtain ⟨m, lmc', sub', e, hc', hf⟩ := hfind lmc hc
      obtain ⟨f1, f2⟩ := hf.long (by omega)
      rw [hmin] at f1 f2
      have := hf.sub0 rfl
      subst this
      obtain ⟨d, l, b, li⟩ := m
      dsimp only at f1 f2
      subst f1 f2
      exact ⟨lmc', b, li, e, hc'⟩
    have hi32 : i32AsUsize (getLengthScore (O.L i) (O.D i (O.L i))) ≥ MIN_MATCH := (i32_ge (by omega)).mpr hsc
    have hver : verifyLenDist arr i (O.D i (O.L i)) (O.L i) = some () := verifyLenDist_spec htm hLle'
    -- writing the match
    have hout : ∀ (s : Lz77Store), StoreOk arr instart i s → ∃ s' h2, s.litLenDist (O.L i) (O.D i (O.L i)) i = some s' ∧
        (forRange (i + 1) (i + O.L i) h' fun k h => h.update arr k) = some h2 ∧ GInv arr ws O instart ⟨i + O.L i, h2, s', pl, pm, false⟩ := by
      intro s hs
      obtain ⟨s', e1, e2, -⟩ := hs.copy hL3 hLle hLle' htm
      obtain ⟨h2, e3, e4⟩ := hashAt_range (by omega) hh (O.L i - 1) (by omega)
      rw [show i + 1 + (O.L i - 1) = i + O.L i by omega] at e3 e4
      exact ⟨s', h2, e1, e3, ⟨by simp only; omega, hLle', e4, fun _ => e2, by intro h; cases h⟩⟩
    cases ma with
    | false =>
      by_cases h258 : O.L i < 258
      · refine ⟨⟨i + 1, h', store, O.L i, O.D i (O.L i), true⟩, ⟨by simp only; omega, by simp only; omega, hh, (by intro h; cases h), fun _ => ?_⟩,
          by simp only; omega, ?_⟩
        · simp only [Nat.add_sub_cancel]
          exact ⟨by omega, g4 rfl, trivial, trivial, hL3, hsc⟩
        · intro lmc hc
          obtain ⟨lmc', b, l, e, hc'⟩ := hm lmc hc
          refine ⟨lmc', hc', ?_⟩
          show greedyStep arr instart arr.size ⟨i, h, lmc, store, pl, pm, false⟩ = _
          rw [greedyStep]
          rw [if_pos hlt, eh, some_bind, e, some_bind]
          dsimp only
          rw [if_neg (by simp), if_pos ⟨hi32, h258⟩]
          rfl
      · obtain ⟨s', h2, e1, e2, hinv⟩ := hout store (g4 rfl)
        refine ⟨_, hinv, by simp only; omega, fun lmc hc => ?_⟩
        obtain ⟨lmc', b, l, e, hc'⟩ := hm lmc hc
        refine ⟨lmc', hc', ?_⟩
        show greedyStep arr instart arr.size ⟨i, h, lmc, store, pl, pm, false⟩ = _
        rw [greedyStep]
        rw [if_pos hlt, eh, some_bind, e, some_bind]
        dsimp only
        rw [if_neg (by simp), if_neg (by rintro ⟨-, h⟩; exact h258 h), if_pos hi32, hver, some_bind, e1, some_bind, some_bind]
        dsimp only
        rw [e2, some_bind, show i + (O.L i - 1) + 1 = i + O.L i by omega]
        rfl
    | true =>
      obtain ⟨a1, a2, a3, a4, a5, a6⟩ := g5 rfl
      by_cases hbet : getLengthScore (O.L i) (O.D i (O.L i)) > getLengthScore pl pm + 1
      · obtain ⟨s1, b1, b2, -⟩ := a2.lit (by omega)
        rw [show i - 1 + 1 = i by omega] at b2
        by_cases h258 : O.L i < 258
        · refine ⟨⟨i + 1, h', s1, O.L i, O.D i (O.L i), true⟩, ⟨by simp only; omega, by simp only; omega, hh, (by intro h; cases h), fun _ => ?_⟩,
            by simp only; omega, ?_⟩
          · simp only [Nat.add_sub_cancel]
            exact ⟨by omega, b2, trivial, trivial, hL3, hsc⟩
          · intro lmc hc
            obtain ⟨lmc', b, l, e, hc'⟩ := hm lmc hc
            refine ⟨lmc', hc', ?_⟩
            show greedyStep arr instart arr.size ⟨i, h, lmc, store, pl, pm, true⟩ = _
            rw [greedyStep]
            rw [if_pos hlt, eh, some_bind, e, some_bind]
            dsimp only
            rw [if_pos rfl, if_pos hbet, if_neg (by omega), Array.getElem?_eq_getElem (show i - 1 < arr.size by omega)]
            simp only [some_bind, b1]
            rw [if_pos ⟨hi32, h258⟩]
            rfl
        · obtain ⟨s', h2, e1, e2, hinv⟩ := hout s1 b2
          refine ⟨_, hinv, by simp only; omega, fun lmc hc => ?_⟩
          obtain ⟨lmc', b, l, e, hc'⟩ := hm lmc hc
          refine ⟨lmc', hc', ?_⟩
          show greedyStep arr instart arr.size ⟨i, h, lmc, store, pl, pm, true⟩ = _
          rw [greedyStep]
          rw [if_pos hlt, eh, some_bind, e, some_bind]
          dsimp only
          rw [if_pos rfl, if_pos hbet, if_neg (by omega), Array.getElem?_eq_getElem (show i - 1 < arr.size by omega)]
          simp only [some_bind, b1]
          rw [if_neg (by rintro ⟨-, h⟩; exact h258 h), if_pos hi32, hver, some_bind, e1, some_bind, some_bind]
          dsimp only
          rw [e2, some_bind, show i + (O.L i - 1) + 1 = i + O.L i by omega]
          rfl
      · obtain ⟨b0, s', b1, b2, b3, b4⟩ := hprev rfl
        obtain ⟨h2, e3, e4⟩ := hashAt_range (by omega) hh (pl - 2) (by omega)
        refine ⟨⟨i + (pl - 2) + 1, h2, s', pl, pm, false⟩, ⟨by simp only; omega, by simp only; omega, ?_, fun _ => ?_, by intro h; cases h⟩,
          by simp only; omega, fun lmc hc => ?_⟩
        · simp only
          rw [show i + (pl - 2) + 1 = i + 1 + (pl - 2) by omega]; exact e4
        · simp only
          rw [show i + (pl - 2) + 1 = i - 1 + pl by omega]; exact b2
        · obtain ⟨lmc', b, l, e, hc'⟩ := hm lmc hc
          refine ⟨lmc', hc', ?_⟩
          show greedyStep arr instart arr.size ⟨i, h, lmc, store, pl, pm, true⟩ = _
          rw [greedyStep]
          rw [if_pos hlt, eh, some_bind, e, some_bind]
          dsimp only
          rw [if_pos rfl, if_neg hbet, if_neg (by omega)]
          simp only [some_bind, b0, b1, e3]
          rfl
  · -- no match that counts
    have hm : ∀ lmc, CacheInv arr O instart lmc → ∃ m lmc' sub', findLongestMatch lmc h' arr i arr.size instart 258 none =
        some (m, lmc', sub') ∧ CacheInv arr O instart lmc' ∧ getLengthScore m.length m.distance < 3 ∧
        ¬ i32AsUsize (getLengthScore m.length m.distance) ≥ MIN_MATCH := by
      intro lmc hc
      obtain ⟨m, lmc', sub', e, hc', hf⟩ := hfind lmc hc
      have hsc : getLengthScore m.length m.distance < 3 ∧ 0 ≤ getLengthScore m.length m.distance := by
        by_cases h3 : 3 ≤ O.L i
        · obtain ⟨f1, f2⟩ := hf.long (by omega)
          rw [hmin] at f1 f2
          rw [f1, f2]
          refine ⟨by by_contra hh; exact hL ⟨h3, by omega⟩, ?_⟩
          unfold getLengthScore
          split <;> omega
        · obtain ⟨f1, f2⟩ := hf.short (by omega)
          by_cases h0 : m.length = 0
          · have := f2 rfl h0
            rw [h0, this]
            unfold getLengthScore
            simp
          · unfold getLengthScore
            split <;> omega
      refine ⟨m, lmc', sub', e, hc', hsc.1, ?_⟩
      intro h
      have := (i32_ge hsc.2).mp h
      omega
    cases ma with
    | false =>
      obtain ⟨s1, b1, b2, -⟩ := (g4 rfl).lit hlt
      refine ⟨⟨i + 1, h', s1, pl, pm, false⟩, ⟨by simp only; omega, by simp only; omega, hh, fun _ => b2, by intro h; cases h⟩, by simp only; omega, fun lmc hc => ?_⟩
      obtain ⟨m, lmc', sub', e, hc', hs1, hs2⟩ := hm lmc hc
      refine ⟨lmc', hc', ?_⟩
      show greedyStep arr instart arr.size ⟨i, h, lmc, store, pl, pm, false⟩ = _
      rw [greedyStep]
      rw [if_pos hlt, eh, some_bind, e, some_bind]
      dsimp only
      rw [if_neg (by simp), if_neg (fun h => hs2 h.1), if_neg hs2, Array.getElem?_eq_getElem hlt]
      simp only [some_bind, b1]
      rw [forRange_empty (Nat.le_refl _)]
      rfl
    | true =>
      obtain ⟨a1, a2, a3, a4, a5, a6⟩ := g5 rfl
      obtain ⟨b0, s', b1, b2, b3, b4⟩ := hprev rfl
      obtain ⟨h2, e3, e4⟩ := hashAt_range (by omega) hh (pl - 2) (by omega)
      refine ⟨⟨i + (pl - 2) + 1, h2, s', pl, pm, false⟩, ⟨by simp only; omega, by simp only; omega, ?_, fun _ => ?_, by intro h; cases h⟩,
        by simp only; omega, fun lmc hc => ?_⟩
      · simp only
        rw [show i + (pl - 2) + 1 = i + 1 + (pl - 2) by omega]; exact e4
      · simp only
        rw [show i + (pl - 2) + 1 = i - 1 + pl by omega]; exact b2
      · obtain ⟨m, lmc', sub', e, hc', hs1, hs2⟩ := hm lmc hc
        refine ⟨lmc', hc', ?_⟩
        show greedyStep arr instart arr.size ⟨i, h, lmc, store, pl, pm, true⟩ = _
        rw [greedyStep]
        rw [if_pos hlt, eh, some_bind, e, some_bind]
        dsimp only
        rw [if_pos rfl, if_neg (by omega), if_neg (by omega)]
        simp only [some_bind, b0, b1, e3]
        rfl

/-! ## Computations that use the cache -/

/-- The computation returns normally, with a result satisfying `P` that does not depend on the cache (used or not, and
whatever it holds), and leaves a valid cache. -/
def CRet {α : Type} (arr : Array UInt8) (O : Oracle) (instart : Nat) (f : Cache → Option (α × Cache)) (P : α → Prop) : Prop :=
  ∃ a, P a ∧ ∀ lmc, CacheInv arr O instart lmc → ∃ lmc', CacheInv arr O instart lmc' ∧ f lmc = some (a, lmc')

theorem CRet.mono {α : Type} {arr : Array UInt8} {O : Oracle} {instart : Nat} {f : Cache → Option (α × Cache)} {P Q : α → Prop}
    (h : CRet arr O instart f P) (hPQ : ∀ a, P a → Q a) : CRet arr O instart f Q := by
  obtain ⟨a, h1, h2⟩ := h
  exact ⟨a, hPQ a h1, h2⟩

theorem CRet.loop {κ σ ρ : Type} {arr : Array UInt8} {O : Oracle} {instart : Nat} {mk : κ → Cache → σ} {body : σ → Option (σ ⊕ (ρ × Cache))}
    (I : κ → Prop) (μ : κ → Nat) (Q : ρ → Prop)
    (hs : ∀ k, I k → (∃ k', I k' ∧ μ k' < μ k ∧ ∀ lmc, CacheInv arr O instart lmc → ∃ lmc', CacheInv arr O instart lmc' ∧
        body (mk k lmc) = some (.inl (mk k' lmc'))) ∨
      (∃ r, Q r ∧ ∀ lmc, CacheInv arr O instart lmc → ∃ lmc', CacheInv arr O instart lmc' ∧ body (mk k lmc) = some (.inr (r, lmc'))))
    (k : κ) (h0 : I k) : CRet arr O instart (fun lmc => loopM body (mk k lmc)) Q := by
  generalize hn : μ k = n
  induction n using Nat.strongRecOn generalizing k with
  | ind n ih =>
    subst hn
    rcases hs k h0 with ⟨k', h1, h2, h3⟩ | ⟨r, h1, h2⟩
    · obtain ⟨a, ha, hb⟩ := ih _ h2 k' h1 rfl
      refine ⟨a, ha, fun lmc hc => ?_⟩
      obtain ⟨lmc', hc', e⟩ := h3 lmc hc
      obtain ⟨lmc2, hc2, e2⟩ := hb lmc' hc'
      refine ⟨lmc2, hc2, ?_⟩
      show loopM body (mk k lmc) = _
      rw [loopM.eq_1, e]
      exact e2
    · refine ⟨r, h1, fun lmc hc => ?_⟩
      obtain ⟨lmc', hc', e⟩ := h2 lmc hc
      refine ⟨lmc', hc', ?_⟩
      show loopM body (mk k lmc) = _
      rw [loopM.eq_1, e]
      rfl

theorem ItemOk.widen {data : Array UInt8} {e pos : Nat} {x : LitLen} (h : ItemOk (data.extract 0 e) pos x) : ItemOk data pos x := by
  cases x with
  | literal b =>
    obtain ⟨u, h1, h2⟩ := h
    have := (Array.getElem?_eq_some_iff.mp h1).1
    rw [Array.size_extract] at this
    rw [Array.getElem?_extract, Nat.zero_add, if_pos (by omega)] at h1
    exact ⟨u, h1, h2⟩
  | lengthDist len dist =>
    obtain ⟨h1, h2, h3, h4, h5, h6, h7⟩ := h
    rw [Array.size_extract] at h6
    refine ⟨h1, h2, h3, h4, h5, by omega, fun k hk => ?_⟩
    have := h7 k hk
    rw [Array.getElem?_extract, Array.getElem?_extract, Nat.zero_add, Nat.zero_add, if_pos (by omega), if_pos (by omega)] at this
    exact this

theorem Parses.widen {data : Array UInt8} {e : Nat} : ∀ {xs : List LitLen} {a b : Nat}, Parses (data.extract 0 e) a xs b → Parses data a xs b
  | [], _, _, h => h
  | _ :: _, _, _, h => ⟨h.1.widen, h.2.widen⟩

theorem StoreOk.widen {data : Array UInt8} {e a b : Nat} {s : Lz77Store} (h : StoreOk (data.extract 0 e) a b s) : StoreOk data a b s :=
  ⟨h.inv, h.parses.widen, h.poss⟩

theorem greedyLoop_spec {arr : Array UInt8} {ws instart : Nat} {O : Oracle} (hO : IsOracle arr ws O) (hws : ws ≤ instart) {g : GCore}
    (hg : GInv arr ws O instart g) :
    CRet arr O instart (fun lmc => loopM (greedyStep arr instart arr.size) (g.with lmc)) (StoreOk arr instart arr.size) := by
  refine CRet.loop (mk := GCore.with) (GInv arr ws O instart) (fun g => arr.size - g.i) _ (fun g hg => ?_) g hg
  by_cases hlt : g.i < arr.size
  · obtain ⟨g', h1, h2, h3⟩ := greedyStep_spec hO hws hg hlt
    exact .inl ⟨g', h1, by omega, h3⟩
  · have hi := hg.hi
    have he : g.i = arr.size := by omega
    have hma : g.matchAvailable = false := by
      cases hb : g.matchAvailable with
      | false => rfl
      | true =>
        obtain ⟨a1, a2, a3, a4, a5, a6⟩ := hg.avail hb
        have := hO.le' (g.i - 1) (by omega)
        omega
    refine .inr ⟨g.store, he ▸ hg.plain hma, fun lmc hc => ⟨lmc, hc, ?_⟩⟩
    show greedyStep arr instart arr.size ⟨_, _, _, _, _, _, _⟩ = _
    rw [greedyStep, if_neg hlt]
    rfl

theorem warmHash_spec {arr : Array UInt8} {instart : Nat} (h : instart < arr.size) :
    ∃ hh, warmHash arr instart arr.size = some hh ∧ hashAt arr (instart - 32768) instart = some hh := by
  obtain ⟨hh, e, -⟩ := hashAt_inv (arr := arr) (ws := instart - 32768) (by omega) (instart - (instart - 32768)) (by omega)
  rw [show instart - 32768 + (instart - (instart - 32768)) = instart by omega] at e
  exact ⟨hh, e, e⟩

/-- `greedy` describes the range, whatever the cache. -/
theorem greedy_spec {data : Array UInt8} {instart inend : Nat} {O : Oracle} (hO : IsOracle (data.extract 0 inend) (instart - 32768) O)
    (h1 : instart ≤ inend) (h2 : inend ≤ data.size) :
    CRet (data.extract 0 inend) O instart (fun lmc => greedy Lz77Store.new lmc data instart inend) (StoreOk data instart inend) := by
  by_cases he : instart = inend
  · subst he
    refine ⟨_, StoreOk.new _ _, fun lmc hc => ⟨lmc, hc, ?_⟩⟩
    show greedy _ _ _ _ _ = _
    rw [greedy, if_pos rfl]
  · have hsz : (data.extract 0 inend).size = inend := by rw [Array.size_extract]; omega
    obtain ⟨hh, e1, e2⟩ := warmHash_spec (arr := data.extract 0 inend) (instart := instart) (by omega)
    have := greedyLoop_spec hO (Nat.sub_le _ _) (g := ⟨instart, hh, Lz77Store.new, 0, 0, false⟩)
      ⟨Nat.le_refl _, by simp only; omega, e2, fun _ => StoreOk.new _ _, by intro h; cases h⟩
    obtain ⟨s, hs, h⟩ := this
    rw [hsz] at hs h e1
    refine ⟨s, hs.widen, fun lmc hc => ?_⟩
    obtain ⟨lmc', hc', e⟩ := h lmc hc
    refine ⟨lmc', hc', ?_⟩
    show greedy _ _ _ _ _ = _
    rw [greedy, if_neg he, slice_eq (Nat.zero_le _) h2, some_bind, e1, some_bind]
    exact e

/-! ## Following a path -/

/-- The path's steps are possible: each is one byte or a length not above the longest match. -/
def PathOk (O : Oracle) : Nat → List Nat → Nat → Prop
  | pos, [], stop => pos = stop
  | pos, k :: ks, stop => (k = 1 ∨ 3 ≤ k ∧ k ≤ O.L pos) ∧ PathOk O (pos + k) ks stop

theorem PathOk.append {O : Oracle} : ∀ {xs ys : List Nat} {a b c : Nat}, PathOk O a xs b → PathOk O b ys c → PathOk O a (xs ++ ys) c
  | [], _, _, _, _, h, h' => by cases h; exact h'
  | _ :: _, _, _, _, _, h, h' => ⟨h.1, h.2.append h'⟩

theorem PathOk.le {O : Oracle} : ∀ {xs : List Nat} {a b : Nat}, PathOk O a xs b → a ≤ b
  | [], _, _, h => by cases h; exact Nat.le_refl _
  | x :: _, _, _, h => by have := h.2.le; omega

/-- The items along a path. -/
def itemsAlong (arr : Array UInt8) (O : Oracle) : Nat → List Nat → List LitLen
  | _, [] => []
  | pos, k :: ks => (if k < 3 then .literal ((arr[pos]?).getD 0).toNat else .lengthDist k (O.D pos k)) :: itemsAlong arr O (pos + k) ks

theorem followPathLoop_spec {arr : Array UInt8} {ws instart : Nat} {O : Oracle} (hO : IsOracle arr ws O) (hws : ws ≤ instart) :
    ∀ (path : List Nat) (pos : Nat) (h : ZopfliHash) (store : Lz77Store), instart ≤ pos → PathOk O pos path arr.size →
      hashAt arr ws pos = some h → StoreOk arr instart pos store →
      CRet arr O instart (fun lmc => followPathLoop arr instart arr.size path pos h lmc store)
        (fun s => StoreOk arr instart arr.size s ∧ s.litlens.toList = store.litlens.toList ++ itemsAlong arr O pos path)
  | [], pos, h, store, hpos, hp, hh, hs => by
    cases hp
    exact ⟨store, ⟨hs, by simp [itemsAlong]⟩, fun lmc hc => ⟨lmc, hc, rfl⟩⟩
  | k :: path, pos, h, store, hpos, hp, hh, hs => by
    have hle := hp.2.le
    have hk0 : 1 ≤ k := by have := hp.1; omega
    obtain ⟨h', e1, e2⟩ := hashAt_next (by omega) hh (show pos < arr.size by omega)
    obtain ⟨h2, e3, e4⟩ := hashAt_range (by omega) e2 (k - 1) (by omega)
    rw [show pos + 1 + (k - 1) = pos + k by omega] at e3 e4
    have ⟨s', hs', hitem, hstep⟩ : ∃ s', StoreOk arr instart (pos + k) s' ∧ s'.litlens = store.litlens.push
        (if k < 3 then .literal ((arr[pos]?).getD 0).toNat else .lengthDist k (O.D pos k)) ∧ ∀ lmc, CacheInv arr O instart lmc → ∃ lmc', CacheInv arr O instart lmc' ∧
        (if k ≥ MIN_MATCH then do
          let (m, lmc, _) ← findLongestMatch lmc h' arr pos arr.size instart k none
          guardR ¬ (m.length ≠ k ∧ k > 2 ∧ m.length > 2)
          verifyLenDist arr pos m.distance k
          some (k, lmc, ← store.litLenDist k m.distance pos)
        else do some (1, lmc, ← store.litLenDist (← arr[pos]?).toNat 0 pos)) = some (k, lmc', s') := by
      rcases hp.1 with rfl | ⟨h3, hL⟩
      · obtain ⟨s', b1, b2, b3⟩ := hs.lit (by omega)
        refine ⟨s', b2, by rw [b3, if_pos (by omega), Array.getElem?_eq_getElem (by omega)]; rfl, fun lmc hc => ⟨lmc, hc, ?_⟩⟩
        rw [if_neg (by decide), Array.getElem?_eq_getElem (by omega)]
        simp only [some_bind, b1]
      · have hmin : min k (O.L pos) = k := by omega
        have := hO.le pos
        obtain ⟨s', b1, b2, b3⟩ := hs.copy h3 (by omega) (by omega) (hO.tm pos k (by omega) (by omega) hL)
        refine ⟨s', b2, by rw [b3, if_neg (by omega)], fun lmc hc => ?_⟩
        obtain ⟨m, lmc', sub', e, hc', hf⟩ := findLongestMatch_spec hO (by omega) hc hpos (by omega) e2 (sub := none)
          (by intro s hs; cases hs) ⟨h3, by omega⟩
        obtain ⟨f1, f2⟩ := hf.long (by omega)
        rw [hmin] at f1 f2
        refine ⟨lmc', hc', ?_⟩
        rw [if_pos h3, e, some_bind]
        dsimp only
        rw [f1, f2, guardR_eq (by simp), some_bind, verifyLenDist_spec (hO.tm pos k (by omega) (by omega) hL) (by omega), some_bind, b1, some_bind]
    obtain ⟨s2, g1, g2⟩ := followPathLoop_spec hO hws path (pos + k) h2 s' (by omega) hp.2 e4 hs'
    refine ⟨s2, ⟨g1.1, by rw [g1.2, hitem, Array.toList_push, itemsAlong, List.append_assoc]; rfl⟩, fun lmc hc => ?_⟩
    obtain ⟨lmc', hc', e⟩ := hstep lmc hc
    obtain ⟨lmc2, hc2, e'⟩ := g2 lmc' hc'
    refine ⟨lmc2, hc2, ?_⟩
    show followPathLoop _ _ _ _ _ _ _ _ = _
    rw [followPathLoop, e1, some_bind]
    refine Eq.trans (congrArg (· >>= _) e) ?_
    rw [some_bind]
    dsimp only
    rw [guardR_eq (by simp only [decide_eq_true_eq]; omega), some_bind, e3, some_bind]
    exact e'

/-- `follow_path` along a possible path describes the range, whatever the cache. -/
theorem followPath_spec {data : Array UInt8} {instart inend : Nat} {O : Oracle} (hO : IsOracle (data.extract 0 inend) (instart - 32768) O)
    (h1 : instart ≤ inend) (h2 : inend ≤ data.size) {path : List Nat} (hp : PathOk O instart path.reverse inend) :
    CRet (data.extract 0 inend) O instart (fun lmc => followPath Lz77Store.new data instart inend path lmc)
      (fun s => StoreOk data instart inend s ∧ s.litlens.toList = itemsAlong (data.extract 0 inend) O instart path.reverse) := by
  by_cases he : instart = inend
  · subst he
    have hnil : path.reverse = [] := by
      cases hr : path.reverse with
      | nil => rfl
      | cons k ks =>
        rw [hr] at hp
        have := hp.2.le
        have := hp.1
        omega
    refine ⟨_, ⟨StoreOk.new _ _, by rw [hnil]; rfl⟩, fun lmc hc => ⟨lmc, hc, ?_⟩⟩
    show followPath _ _ _ _ _ _ = _
    rw [followPath, if_pos rfl]
  · have hsz : (data.extract 0 inend).size = inend := by rw [Array.size_extract]; omega
    obtain ⟨hh, e1, e2⟩ := warmHash_spec (arr := data.extract 0 inend) (instart := instart) (by omega)
    obtain ⟨s, hs, h⟩ := followPathLoop_spec hO (Nat.sub_le _ _) path.reverse instart hh Lz77Store.new (Nat.le_refl _)
      (by rw [hsz]; exact hp) e2 (StoreOk.new _ _)
    rw [hsz] at hs h e1
    refine ⟨s, ⟨hs.1.widen, by simpa [Lz77Store.new] using hs.2⟩, fun lmc hc => ?_⟩
    obtain ⟨lmc', hc', e⟩ := h lmc hc
    refine ⟨lmc', hc', ?_⟩
    show followPath _ _ _ _ _ _ = _
    rw [followPath, if_neg he, slice_eq (Nat.zero_le _) h2, some_bind, e1, some_bind]
    exact e

end Zopfli
