import Verif.Proofs.Best
import Verif.Proofs.BlockSize
import Verif.Proofs.Overflow
/-! # `lz77_optimal` -/

namespace Zopfli

variable {F : FloatOps}

/-- An array of `n` counts not above `B`. -/
def Bdd (n B : Nat) (a : Array Nat) : Prop := a.size = n ∧ ∀ (i : Nat) (c : Nat), a[i]? = some c → c ≤ B

theorem Bdd.get {n B : Nat} {a : Array Nat} (h : Bdd n B a) {i : Nat} (hi : i < n) : ∃ c, a[i]? = some c ∧ c ≤ B := by
  have : i < a.size := by rw [h.1]; exact hi
  exact ⟨a[i], Array.getElem?_eq_getElem this, h.2 i _ (Array.getElem?_eq_getElem this)⟩

theorem Bdd.mono {n B B' : Nat} {a : Array Nat} (h : Bdd n B a) (hB : B ≤ B') : Bdd n B' a :=
  ⟨h.1, fun i c hc => Nat.le_trans (h.2 i c hc) hB⟩

theorem Bdd.replicate (n B : Nat) : Bdd n B (Array.replicate n 0) := by
  refine ⟨by simp, fun i c h => ?_⟩
  rw [Array.getElem?_replicate] at h
  split at h
  · cases h; omega
  · cases h

theorem Bdd.set {n B : Nat} {a : Array Nat} (h : Bdd n B a) {i v : Nat} (hi : i < n) (hv : v ≤ B) : ∃ a', aset a i v = some a' ∧ Bdd n B a' := by
  have hi' : i < a.size := by rw [h.1]; exact hi
  refine ⟨_, aset_eq hi' v, by simp [h.1], fun j c hc => ?_⟩
  rw [Array.getElem?_set] at hc
  split at hc
  · cases hc; exact hv
  · exact h.2 j c hc

theorem Bdd.incr {n B : Nat} {a : Array Nat} (h : Bdd n B a) {i : Nat} (hi : i < n) : ∃ a', amod a i (· + 1) = some a' ∧ Bdd n (B + 1) a' := by
  have hi' : i < a.size := by rw [h.1]; exact hi
  refine ⟨_, amod_eq hi' _, by simp [h.1], fun j c hc => ?_⟩
  rw [Array.getElem?_modify] at hc
  split at hc
  · cases e : a[j]? with
    | none => rw [e] at hc; cases hc
    | some c' =>
      rw [e] at hc
      cases hc
      have := h.2 j c' e
      simp only; omega
  · have := h.2 j c hc
    omega

/-- The counts of the statistics are small. -/
structure StatOk (B : Nat) (s : SymbolStats F) : Prop where
  ll : Bdd 288 B s.litlens
  d : Bdd 32 B s.dists

/-- The entropies of the statistics are plausible. -/
structure EntOk (L : FloatLaws F) (s : SymbolStats F) : Prop where
  ll1 : s.llSymbols.size = 288
  ll2 : ∀ (i : Nat) c, s.llSymbols[i]? = some c → L.Ent c
  d1 : s.dSymbols.size = 32
  d2 : ∀ (i : Nat) c, s.dSymbols[i]? = some c → L.Ent c

theorem EntOk.cost {L : FloatLaws F} {s : SymbolStats F} (h : EntOk L s) : CostOk L (getCostStat F s) where
  lit := by
    intro b hb
    have hlt : b < s.llSymbols.size := by rw [h.ll1]; omega
    refine ⟨s.llSymbols[b], ?_, L.sym_ent _ (h.ll2 b _ (Array.getElem?_eq_getElem hlt))⟩
    unfold getCostStat
    rw [guardR_eq (by dsimp only [NUM_LL]; simp; omega), some_bind, if_pos rfl, Array.getElem?_eq_getElem hlt]
  copy := by
    intro len dist h1 h2 h3 h4
    obtain ⟨t, eb, v, e1, e2, -, hs1, hs2, -, -, -, -, h5, -⟩ := length_spec h1 h2
    have hd := dist_spec h3 h4
    have hlt : t < s.llSymbols.size := by rw [h.ll1]; omega
    have hlt' : getDistSymbol dist < s.dSymbols.size := by rw [h.d1]; omega
    refine ⟨_, ?_, L.sym_match eb (getDistExtraBits dist) _ _ h5 (by omega) (h.ll2 t _ (Array.getElem?_eq_getElem hlt))
      (h.d2 _ _ (Array.getElem?_eq_getElem hlt'))⟩
    unfold getCostStat
    rw [guardR_eq (by dsimp only [NUM_LL]; simp; omega), some_bind, if_neg (by omega), e1, some_bind, e2, some_bind, Array.getElem?_eq_getElem hlt,
      some_bind, Array.getElem?_eq_getElem hlt', some_bind]
    rfl

theorem list_sum_le {B : Nat} : ∀ (l : List Nat), (∀ x ∈ l, x ≤ B) → l.sum ≤ l.length * B
  | [], _ => by simp
  | x :: l, h => by
    have := list_sum_le l fun y hy => h y (by simp [hy])
    have := h x (by simp)
    rw [List.sum_cons, List.length_cons, Nat.succ_mul]
    omega

theorem entropyOf_spec (L : FloatLaws F) {n B : Nat} {a : Array Nat} (h : Bdd n B a) (hn0 : 1 ≤ n) (hn : n ≤ 288) (hB : B < 4 * L.lim + 1) :
    (entropyOf F a).size = n ∧ ∀ (i : Nat) c, (entropyOf F a)[i]? = some c → L.Ent c := by
  refine ⟨by simp [entropyOf, h.1], fun i c hc => ?_⟩
  unfold entropyOf at hc
  dsimp only at hc
  have hsum : a.toList.sum ≤ n * B := by
    have := list_sum_le (B := B) a.toList fun x hx => by
      obtain ⟨i, hi, e⟩ := List.mem_iff_getElem.mp hx
      refine h.2 i x ?_
      rw [Array.getElem?_eq_some_iff]
      exact ⟨by simpa using hi, by simpa using e⟩
    simpa [h.1] using this
  have hl1 := L.lim_ge
  have hl2 := L.lim_le
  have hnB : n * B ≤ 288 * B := Nat.mul_le_mul_right B hn
  generalize hs : (if a.toList.sum = 0 then a.size else a.toList.sum) = s at hc
  have hs1 : 1 ≤ s ∧ s < 2 ^ 11 * L.lim := by
    rw [← hs, h.1]
    split <;> omega
  rw [Array.getElem?_map] at hc
  cases e : a[i]? with
  | none => rw [e] at hc; cases hc
  | some v =>
    rw [e] at hc
    have hv := h.2 i v e
    have hvs : v ≤ s := by
      have : v ≤ a.toList.sum := by
        refine List.single_le_sum (by simp) _ ?_
        rw [Array.getElem?_eq_some_iff] at e
        obtain ⟨h, rfl⟩ := e
        simp
      rw [← hs]
      split <;> omega
    dsimp only [Option.map] at hc
    split at hc
    · cases hc; exact L.ent_log s hs1.1 hs1.2
    · cases hc; exact L.ent_sub s v (by omega) hvs hs1.2

theorem calculateEntropy_spec (L : FloatLaws F) {B : Nat} {s : SymbolStats F} (h : StatOk B s) (hB : B < 4 * L.lim + 1) :
    EntOk L s.calculateEntropy ∧ StatOk B s.calculateEntropy := by
  have h1 := entropyOf_spec L h.ll (by omega) (by omega) hB
  have h2 := entropyOf_spec L h.d (by omega) (by omega) hB
  exact ⟨⟨h1.1, h1.2, h2.1, h2.2⟩, ⟨h.ll, h.d⟩⟩

theorem getStatistics_spec (L : FloatLaws F) {s : SymbolStats F} (h : StatOk 0 s) {store : Lz77Store} (hst : StoreInv store)
    (hB : store.size + 1 < 4 * L.lim + 1) :
    ∃ s', s.getStatistics store = some s' ∧ EntOk L s' ∧ StatOk (store.size + 1) s' := by
  have := forRange_spec (f := fun i ((ll : Array Nat), (d : Array Nat)) => do
      match ← store.litlens[i]? with
      | .literal lit => return (← amod ll lit (· + 1), d)
      | .lengthDist len dist =>
        return (← amod ll (← getLengthSymbol len) (· + 1), ← amod d (getDistSymbol dist) (· + 1)))
    (a := 0) (b := store.litlens.size) (s := (s.litlens, s.dists)) (fun i st => Bdd 288 i st.1 ∧ Bdd 32 i st.2) (by omega) ⟨h.ll, h.d⟩ (by
      rintro i ⟨ll, d⟩ - hi ⟨i1, i2⟩
      dsimp only at i1 i2 ⊢
      rw [Array.getElem?_eq_getElem hi, some_bind]
      have hr := hst.range store.litlens[i] (by simp)
      cases e : store.litlens[i] with
      | literal lit =>
        rw [e] at hr
        have hr : lit < 256 := hr
        obtain ⟨a', g1, g2⟩ := i1.incr (i := lit) (by omega)
        dsimp only
        rw [g1, some_bind]
        exact ⟨_, rfl, g2, i2.mono (by omega)⟩
      | lengthDist len dist =>
        rw [e] at hr
        obtain ⟨r1, r2, r3, r4⟩ := hr
        obtain ⟨t, eb, v, e1, -, -, hs1, hs2, -⟩ := length_spec r1 r2
        have hd := dist_spec r3 r4
        obtain ⟨a', g1, g2⟩ := i1.incr (i := t) (by omega)
        obtain ⟨d', g3, g4⟩ := i2.incr (i := getDistSymbol dist) (by omega)
        dsimp only
        rw [e1, some_bind, g1, some_bind, g3, some_bind]
        exact ⟨_, rfl, g2, g4⟩)
  obtain ⟨⟨ll, d⟩, e, i1, i2⟩ := this
  dsimp only at i1 i2
  obtain ⟨ll', e2, i3⟩ := (i1.mono (Nat.le_succ _)).set (i := 256) (v := 1) (by omega) (by omega)
  have hfin := calculateEntropy_spec L (s := ({ s with litlens := ll', dists := d } : SymbolStats F)) (B := store.size + 1)
    ⟨i3, i2.mono (Nat.le_succ _)⟩ hB
  refine ⟨_, ?_, hfin⟩
  unfold SymbolStats.getStatistics
  refine Eq.trans (congrArg (· >>= _) e) ?_
  rw [some_bind]
  dsimp only
  rw [e2, some_bind]
  rfl

theorem clearFreqs_spec (s : SymbolStats F) : StatOk 0 s.clearFreqs := ⟨Bdd.replicate 288 0, Bdd.replicate 32 0⟩

theorem default_spec : StatOk 0 (SymbolStats.default F) := ⟨Bdd.replicate 288 0, Bdd.replicate 32 0⟩

theorem pushLoop_spec {n B : Nat} {f : Nat → Option Nat} (h : ∀ i, i < n → ∃ v, f i = some v ∧ v ≤ B) :
    ∃ r, (forRange 0 n #[] fun i (r : Array Nat) => do some (r.push (← f i))) = some r ∧ Bdd n B r := by
  have := forRange_spec (f := fun i (r : Array Nat) => do some (r.push (← f i))) (a := 0) (b := n) (s := #[])
    (fun i r => Bdd i B r) (by omega) ⟨rfl, by simp⟩ (by
      intro i r _ hi hr
      obtain ⟨v, e, hv⟩ := h i hi
      rw [e, some_bind]
      refine ⟨_, rfl, by simp [hr.1], fun j c hc => ?_⟩
      rw [Array.getElem?_push] at hc
      split at hc
      · cases hc; exact hv
      · exact hr.2 j c hc)
  exact this

theorem addWeighed_spec (L : FloatLaws F) {s1 s2 : SymbolStats F} {n : Nat} (h1 : StatOk (n + 1) s1) (h2 : StatOk (2 * n + 2) s2)
    (hB : 2 * n + 2 < 4 * L.lim + 1) : ∃ s, addWeighedStatFreqs F s1 s2 = some s ∧ StatOk (2 * n + 2) s := by
  have hl2 := L.lim_le
  obtain ⟨a1, e1, g1⟩ := pushLoop_spec (n := 288) (B := 2 * n + 2) (f := fun i => do
      some (F.toUsize (F.add (F.mul (F.ofUsize (← s1.litlens[i]?)) (F.ofUsize 1)) (F.mul (F.ofUsize (← s2.litlens[i]?)) F.half)))) (by
    intro i hi
    obtain ⟨x, ex, hx⟩ := h1.ll.get hi
    obtain ⟨y, ey, hy⟩ := h2.ll.get hi
    rw [ex, some_bind, ey, some_bind]
    exact ⟨_, rfl, Nat.le_trans (L.weight_le x y (by omega) (by omega)) (by omega)⟩)
  obtain ⟨a2, e2, g2⟩ := pushLoop_spec (n := 32) (B := 2 * n + 2) (f := fun i => do
      some (F.toUsize (F.add (F.mul (F.ofUsize (← s1.dists[i]?)) (F.ofUsize 1)) (F.mul (F.ofUsize (← s2.dists[i]?)) F.half)))) (by
    intro i hi
    obtain ⟨x, ex, hx⟩ := h1.d.get hi
    obtain ⟨y, ey, hy⟩ := h2.d.get hi
    rw [ex, some_bind, ey, some_bind]
    exact ⟨_, rfl, Nat.le_trans (L.weight_le x y (by omega) (by omega)) (by omega)⟩)
  obtain ⟨a3, e3, g3⟩ := g1.set (i := 256) (v := 1) (by omega) (by omega)
  refine ⟨{ SymbolStats.default F with litlens := a3, dists := a2 }, ?_, ⟨g3, g2⟩⟩
  have hx : ∀ (o : Option Nat) (o' : Option Nat) (g : Nat → Nat → Nat) (r : Array Nat),
      (do some (r.push (← (do some (g (← o) (← o')) : Option Nat))) : Option (Array Nat)) = (do some (r.push (g (← o) (← o')))) := by
    intro o o' g r
    cases o <;> cases o' <;> rfl
  unfold addWeighedStatFreqs
  dsimp only
  simp only [hx _ _ (fun a b => F.toUsize (F.add (F.mul (F.ofUsize a) (F.ofUsize 1)) (F.mul (F.ofUsize b) F.half)))] at e1 e2
  refine Eq.trans (congrArg (· >>= _) e1) ?_
  rw [some_bind]
  refine Eq.trans (congrArg (· >>= _) e2) ?_
  rw [some_bind, e3]
  rfl

theorem randomizeFreqs_spec {n B : Nat} {a : Array Nat} (h : Bdd n B a) (st : RanState) :
    ∃ r, randomizeFreqs a st = some r ∧ Bdd n B r.1 := by
  have := forRange_spec (f := fun i ((freqs : Array Nat), (state : RanState)) => do
    let (r, state) := state.random
    if (r >>> 4) % 3 = 0 then do
      let (r, state) := state.random
      let v ← freqs[r % freqs.size]?
      return (← aset freqs i v, state)
    else return (freqs, state)) (a := 0) (b := a.size) (s := (a, st)) (fun i r => Bdd n B r.1) (by omega) h (by
      rintro i ⟨f, st⟩ - hi hf
      dsimp only at hf ⊢
      have hi' : i < n := by rw [← h.1]; exact hi
      split
      · obtain ⟨v, e, hv⟩ := hf.get (i := st.random.2.random.1 % f.size) (by rw [hf.1]; exact Nat.mod_lt _ (by omega))
        obtain ⟨f', e', hf'⟩ := hf.set (i := i) hi' hv
        rw [e, some_bind, e', some_bind]
        exact ⟨_, rfl, hf'⟩
      · exact ⟨_, rfl, hf⟩)
  exact this

theorem randomizeStatFreqs_spec {s : SymbolStats F} {B : Nat} (h : StatOk B s) (hB : 1 ≤ B) (st : RanState) :
    ∃ r, s.randomizeStatFreqs st = some r ∧ StatOk B r.1 := by
  obtain ⟨⟨a1, st1⟩, e1, g1⟩ := randomizeFreqs_spec h.ll st
  obtain ⟨⟨a2, st2⟩, e2, g2⟩ := randomizeFreqs_spec h.d st1
  obtain ⟨a3, e3, g3⟩ := g1.set (i := 256) (v := 1) (by omega) hB
  refine ⟨({ s with litlens := a3, dists := a2 }, st2), ?_, ⟨g3, g2⟩⟩
  unfold SymbolStats.randomizeStatFreqs
  rw [e1, some_bind]
  dsimp only
  rw [e2, some_bind]
  dsimp only
  rw [e3, some_bind]
  rfl

theorem nextStats_spec (L : FloatLaws F) {n : Nat} (hn : 2 * n + 2 < 4 * L.lim + 1) {store : Lz77Store} (hst : StoreInv store) (hsz : store.size ≤ n)
    {stats best : SymbolStats F} (h1 : StatOk (2 * n + 2) stats) (h2 : StatOk (2 * n + 2) best) (cost lastcost : F.F64) (cur : Nat)
    (last : Option Nat) (st : RanState) :
    ∃ r, nextStats F store cost lastcost cur last stats best st = some r ∧ EntOk L r.1 ∧ StatOk (2 * n + 2) r.1 := by
  obtain ⟨s1, e1, g1, g2⟩ := getStatistics_spec L (clearFreqs_spec stats) hst (by omega)
  have g2 : StatOk (n + 1) s1 := ⟨g2.ll.mono (by omega), g2.d.mono (by omega)⟩
  unfold nextStats
  dsimp only
  rw [e1, some_bind]
  have hstep : ∃ s2, (if last ≠ none then do some (← addWeighedStatFreqs F s1 stats).calculateEntropy else some s1) = some s2 ∧
      EntOk L s2 ∧ StatOk (2 * n + 2) s2 := by
    split
    · obtain ⟨s, e, h⟩ := addWeighed_spec L g2 h1 hn
      rw [e, some_bind]
      exact ⟨_, rfl, calculateEntropy_spec L h hn⟩
    · exact ⟨_, rfl, g1, ⟨g2.ll.mono (by omega), g2.d.mono (by omega)⟩⟩
  obtain ⟨s2, e2, g3, g4⟩ := hstep
  rw [e2, some_bind]
  split
  · obtain ⟨⟨s3, st3⟩, e3, g5⟩ := randomizeStatFreqs_spec h2 (by omega) st
    rw [e3, some_bind]
    exact ⟨_, rfl, calculateEntropy_spec L g5 hn⟩
  · exact ⟨_, rfl, g3, g4⟩

/-! ## Block sizes -/

theorem getByteRange_ret {s : Lz77Store} (h : StoreInv s) {lstart lend : Nat} (hle : lstart ≤ lend) (hlend : lend ≤ s.size) :
    ∃ n, s.getByteRange lstart lend = some n := by
  unfold Lz77Store.getByteRange
  split
  · exact ⟨_, rfl⟩
  · have hp := h.poss
    have hs : s.size = s.litlens.size := rfl
    rw [if_neg (by omega)]
    dsimp only
    rw [Array.getElem?_eq_getElem (show lend - 1 < s.pos.size by omega), some_bind, Array.getElem?_eq_getElem (show lend - 1 < s.litlens.size by omega), some_bind,
      Array.getElem?_eq_getElem (show lstart < s.pos.size by omega), some_bind]
    exact ⟨_, rfl⟩

theorem calculateBlockSize_ret {s : Lz77Store} (h : StoreInv s) {lstart lend : Nat} (hle : lstart ≤ lend) (hlend : lend ≤ s.size)
    (bt : BlockType) : ∃ c, calculateBlockSize F s lstart lend bt = some c := by
  cases bt with
  | uncompressed =>
    obtain ⟨n, e⟩ := getByteRange_ret h hle hlend
    unfold calculateBlockSize uncompressedSize
    dsimp only
    rw [e, some_bind]
    exact ⟨_, rfl⟩
  | fixed =>
    unfold calculateBlockSize
    dsimp only
    rw [blockSymbolSize_spec (by simp [fixedTree]) (by simp [fixedTree]) h hle hlend, some_bind]
    exact ⟨_, rfl⟩
  | dynamic =>
    obtain ⟨⟨r, a, b⟩, e, -⟩ := getDynamicLengths_spec h hle hlend
    unfold calculateBlockSize
    dsimp only
    rw [e, some_bind]
    exact ⟨_, rfl⟩

theorem calculateBlockSize_lt_inf (L : FloatLaws F) {s : Lz77Store} {lstart lend : Nat} {c : F.F64}
    (e : calculateBlockSize F s lstart lend .dynamic = some c) : F.lt c F.inf = true := by
  unfold calculateBlockSize at e
  dsimp only at e
  cases hg : getDynamicLengths s lstart lend with
  | none => rw [hg] at e; cases e
  | some r =>
    rw [hg, some_bind] at e
    cases e
    exact L.size_lt_inf _ _

theorem autoType_ret {s : Lz77Store} (h : StoreInv s) {lstart lend : Nat} (hle : lstart ≤ lend) (hlend : lend ≤ s.size) :
    ∃ c, calculateBlockSizeAutoType F s lstart lend = some c := by
  obtain ⟨c1, e1⟩ := calculateBlockSize_ret (F := F) h hle hlend .uncompressed
  obtain ⟨c2, e2⟩ := calculateBlockSize_ret (F := F) h hle hlend .fixed
  obtain ⟨c3, e3⟩ := calculateBlockSize_ret (F := F) h hle hlend .dynamic
  unfold calculateBlockSizeAutoType
  rw [e1, some_bind]
  split
  · rw [some_bind, e3, some_bind]
    exact ⟨_, rfl⟩
  · rw [e2, some_bind, e3, some_bind]
    exact ⟨_, rfl⟩

/-! ## The loop -/

theorem parses_length {data : Array UInt8} : ∀ {xs : List LitLen} {a b : Nat}, Parses data a xs b → a + xs.length ≤ b
  | [], _, _, h => by cases h; simp
  | x :: _, _, _, h => by
    have := LitLen.size_pos h.1
    have := parses_length h.2
    rw [List.length_cons]
    omega

theorem StoreOk.size_le {data : Array UInt8} {a b : Nat} {s : Lz77Store} (h : StoreOk data a b s) : s.size ≤ b - a := by
  have := parses_length h.parses
  have hs : s.size = s.litlens.toList.length := by simp [Lz77Store.size]
  omega

/-- The state of the loop of `lz77_optimal`, without the cache. -/
structure OCore (F : FloatOps) where
  outputstore : Lz77Store
  stats : SymbolStats F
  beststats : SymbolStats F
  bestcost : F.F64
  lastcost : F.F64
  ranState : RanState
  lastrandomstep : Option Nat
  currentIteration : Nat
  iterationsWithoutImprovement : Nat

/-- The state of the loop of `lz77_optimal`. -/
def OCore.with (o : OCore F) (lmc : Cache) : OptimalState F :=
  ⟨lmc, o.outputstore, o.stats, o.beststats, o.bestcost, o.lastcost, o.ranState, o.lastrandomstep, o.currentIteration,
    o.iterationsWithoutImprovement⟩

/-- The invariant of the loop of `lz77_optimal`. -/
structure OInv (L : FloatLaws F) (data : Array UInt8) (instart inend : Nat) (o : OCore F) : Prop where
  ent : EntOk L o.stats
  cnt : StatOk (2 * (inend - instart) + 2) o.stats
  best : StatOk (2 * (inend - instart) + 2) o.beststats
  first : o.currentIteration = 0 → o.bestcost = F.inf
  later : o.currentIteration ≠ 0 → StoreOk data instart inend o.outputstore

/-- A loop that carries a part of the state on which the result does not depend. -/
theorem relLoop0 {ι κ τ σ ρ : Type} (A : ι → Prop) {mk : κ → τ → σ} {body : ι → σ → Option (σ ⊕ ρ)} (J : τ → Prop)
    (I : κ → Prop) (μ : κ → Nat) (Q : ρ → Prop)
    (hs : ∀ k, I k → (∃ k', I k' ∧ μ k' < μ k ∧ ∀ c, A c → ∀ t, J t → ∃ t', J t' ∧ body c (mk k t) = some (.inl (mk k' t'))) ∨
      (∃ r, Q r ∧ ∀ c, A c → ∀ t, J t → body c (mk k t) = some (.inr r)))
    (k : κ) (h0 : I k) : ∃ r, Q r ∧ ∀ c, A c → ∀ t, J t → loopM (body c) (mk k t) = some r := by
  generalize hn : μ k = n
  induction n using Nat.strongRecOn generalizing k with
  | ind n ih =>
    subst hn
    rcases hs k h0 with ⟨k', h1, h2, h3⟩ | ⟨r, h1, h2⟩
    · obtain ⟨a, ha, hb⟩ := ih _ h2 k' h1 rfl
      refine ⟨a, ha, fun c hA t hc => ?_⟩
      obtain ⟨t', hc', e⟩ := h3 c hA t hc
      rw [loopM.eq_1, e]
      exact hb c hA t' hc'
    · refine ⟨r, h1, fun c hA t hc => ?_⟩
      rw [loopM.eq_1, h2 c hA t hc]
      rfl

/-- `lz77_optimal` ends and describes the range; the result does not depend on the cache, nor, for less than 256 MiB, on
overflow checks. -/
theorem lz77Optimal_gen (L : FloatLaws F) {O : Oracle} {data : Array UInt8} {instart inend : Nat}
    (hO : IsOracle (data.extract 0 inend) (instart - 32768) O) (h1 : instart ≤ inend) (h2 : inend ≤ data.size) (hsz : data.size < 2 * L.lim)
    (maxIt maxWithout : Nat) :
    ∃ s, StoreOk data instart inend s ∧ ∀ c : Checks, (c.on = true → inend - instart < 2 ^ 28 - 1) →
      ∀ lmc, CacheInv (data.extract 0 inend) O instart lmc → @lz77Optimal c F lmc data instart inend maxIt maxWithout = some s := by
  obtain ⟨s0, hs0, g0⟩ := greedy_spec hO h1 h2
  have hsize := hs0.size_le
  obtain ⟨st0, est, hst1, hst2⟩ := getStatistics_spec L (default_spec (F := F)) hs0.inv (by omega)
  have hst2 : StatOk (2 * (inend - instart) + 2) st0 := ⟨hst2.ll.mono (by omega), hst2.d.mono (by omega)⟩
  have := relLoop0 (fun c : Checks => c.on = true → inend - instart < 2 ^ 28 - 1) (mk := OCore.with (F := F))
    (body := fun c => @optimalStep c F data instart inend maxIt maxWithout)
    (CacheInv (data.extract 0 inend) O instart) (OInv L data instart inend) (fun o => maxIt - o.currentIteration) (StoreOk data instart inend) (by
      rintro ⟨out, stats, best, bestcost, lastcost, ran, last, cur, without⟩ ho
      obtain ⟨s, hs, g⟩ := lz77OptimalRun_spec (L := L) hO ho.ent.cost h1 h2
      have hsize := hs.size_le
      obtain ⟨cost, ec⟩ := calculateBlockSize_ret (F := F) hs.inv (Nat.zero_le _) (Nat.le_refl _) .dynamic
      have hlt := calculateBlockSize_lt_inf L ec
      generalize hout : (if F.lt cost bestcost = true then s else out) = out'
      generalize hbest : (if F.lt cost bestcost = true then stats else best) = best'
      generalize hbc : (if F.lt cost bestcost = true then cost else bestcost) = bestcost'
      generalize hwo : (if F.lt cost bestcost = true then 0 else without + 1) = without'
      have hout' : StoreOk data instart inend out' := by
        rw [← hout]
        split
        · exact hs
        · rename_i hn
          refine ho.later fun h0 => hn ?_
          have := ho.first h0
          dsimp only at this
          rw [this]; exact hlt
      have hbest' : StatOk (2 * (inend - instart) + 2) best' := by
        rw [← hbest]
        split
        · exact ho.cnt
        · exact ho.best
      have hstep : ∀ c : Checks, (c.on = true → inend - instart < 2 ^ 28 - 1) → ∀ lmc, CacheInv (data.extract 0 inend) O instart lmc → ∃ lmc', CacheInv (data.extract 0 inend) O instart lmc' ∧
          @optimalStep c F data instart inend maxIt maxWithout ⟨lmc, out, stats, best, bestcost, lastcost, ran, last, cur, without⟩ =
          (if ¬ F.lt cost bestcost = true ∧ without' ≥ maxWithout then return .inr out'
           else do
            let cur := cur + 1
            if cur ≥ maxIt then return .inr out'
            else do
              let (stats, ranState, lastrandomstep) ← nextStats F s cost lastcost cur last stats best' ran
              return .inl ⟨lmc', out', stats, best', bestcost', cost, ranState, lastrandomstep, cur, without'⟩) := by
        intro c hA lmc hc
        have ec : @calculateBlockSize c F s 0 s.size .dynamic = some cost := by
          obtain ⟨on⟩ := c
          cases on with
          | false => exact ec
          | true => rw [calculateBlockSize_eq _ (hs.small (hA rfl))]; exact ec
        obtain ⟨lmc', hc', e⟩ := g lmc hc
        have e : lz77OptimalRun F lmc data instart inend (getCostStat F stats) Lz77Store.new = some (s, lmc') := e
        refine ⟨lmc', hc', ?_⟩
        rw [optimalStep, e, some_bind]
        dsimp only
        rw [ec, some_bind, hout, hbest, hbc, hwo]
      by_cases hstop : ¬ F.lt cost bestcost = true ∧ without' ≥ maxWithout
      · refine .inr ⟨out', hout', fun c hA lmc hc => ?_⟩
        obtain ⟨lmc', -, e⟩ := hstep c hA lmc hc
        rw [if_pos hstop] at e
        exact e
      · by_cases hmax : cur + 1 ≥ maxIt
        · refine .inr ⟨out', hout', fun c hA lmc hc => ?_⟩
          obtain ⟨lmc', -, e⟩ := hstep c hA lmc hc
          rw [if_neg hstop] at e
          dsimp only at e
          rw [if_pos hmax] at e
          exact e
        · obtain ⟨⟨stats', ran', last'⟩, en, n1, n2⟩ := nextStats_spec L (n := inend - instart) (by omega) hs.inv hsize ho.cnt hbest' cost lastcost (cur + 1) last ran
          refine .inl ⟨⟨out', stats', best', bestcost', cost, ran', last', cur + 1, without'⟩,
            ⟨n1, n2, hbest', fun h => absurd h (Nat.succ_ne_zero _), fun _ => hout'⟩, by simp only; omega, fun c hA lmc hc => ?_⟩
          obtain ⟨lmc', hc', e⟩ := hstep c hA lmc hc
          refine ⟨lmc', hc', ?_⟩
          rw [if_neg hstop] at e
          dsimp only at e
          rw [if_neg hmax, en, some_bind] at e
          exact e)
    ⟨Lz77Store.new, st0, .default F, F.inf, F.ofUsize 0, .new, none, 0, 0⟩
    ⟨hst1, hst2, ⟨default_spec.ll.mono (by omega), default_spec.d.mono (by omega)⟩, fun _ => rfl, fun h => absurd rfl h⟩
  obtain ⟨s, hs, g⟩ := this
  refine ⟨s, hs, fun c hA lmc hc => ?_⟩
  obtain ⟨lmc', hc', e⟩ := g0 lmc hc
  have e : greedy Lz77Store.new lmc data instart inend = some (s0, lmc') := e
  rw [lz77Optimal, e, some_bind]
  dsimp only
  rw [est, some_bind]
  exact g c hA lmc' hc'

/-- `lz77_optimal` ends and describes the range; the result does not depend on the cache. -/
theorem lz77Optimal_spec (L : FloatLaws F) {O : Oracle} {data : Array UInt8} {instart inend : Nat}
    (hO : IsOracle (data.extract 0 inend) (instart - 32768) O) (h1 : instart ≤ inend) (h2 : inend ≤ data.size) (hsz : data.size < 2 * L.lim)
    (maxIt maxWithout : Nat) :
    ∃ s, StoreOk data instart inend s ∧ ∀ lmc, CacheInv (data.extract 0 inend) O instart lmc →
      lz77Optimal F lmc data instart inend maxIt maxWithout = some s := by
  obtain ⟨s, hs, g⟩ := lz77Optimal_gen L hO h1 h2 hsz maxIt maxWithout
  exact ⟨s, hs, g releaseBuild (fun h => nomatch h)⟩

end Zopfli
