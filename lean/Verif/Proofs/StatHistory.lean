import Verif.Proofs.CheapRun
import Verif.Proofs.Passes
/-! # Which statistics a pass works with -/

namespace Zopfli
open Fp Rfc

variable {F : FloatOps}

/-- A table of the values of a function. -/
def tab (n : Nat) (f : Nat → Nat) : Array Nat := Array.ofFn (n := n) fun s => f s.val

theorem tab_size (n : Nat) (f : Nat → Nat) : (tab n f).size = n := by simp [tab]

theorem tab_modify {n : Nat} (f : Nat → Nat) {i : Nat} (hi : i < n) : amod (tab n f) i (· + 1) = some (tab n fun s => f s + if i = s then 1 else 0) := by
  rw [amod_eq (by rw [tab_size]; exact hi)]
  refine congrArg some ?_
  unfold tab
  ext j h1 h2
  · simp
  · simp only [Array.getElem_modify, Array.getElem_ofFn]
    split <;> simp_all

theorem tab_zero (n : Nat) : Array.replicate n 0 = tab n fun _ => 0 := by
  unfold tab
  ext j h1 h2 <;> simp

theorem tab_congr {n : Nat} {f g : Nat → Nat} (h : ∀ s, f s = g s) : tab n f = tab n g := by
  rw [show f = g from funext h]

theorem tab_set {n : Nat} {f : Nat → Nat} {k v : Nat} (hk) : (tab n f).set k v hk = tab n fun s => if s = k then v else f s := by
  unfold tab at hk ⊢
  ext j h1 h2
  · simp
  · rw [Array.getElem_set]
    simp only [Array.getElem_ofFn]
    by_cases hj : k = j
    · rw [if_pos hj, if_pos hj.symm]
    · rw [if_neg hj, if_neg (Ne.symm hj)]

theorem tab_push (n : Nat) (f : Nat → Nat) : (tab n f).push (f n) = tab (n + 1) f := by
  unfold tab
  rw [Array.ofFn_succ]
  rfl

theorem tab_nil (f : Nat → Nat) : tab 0 f = #[] := by simp [tab]

theorem llCounts_tab (xs : List LitLen) : llCounts xs = tab 288 fun s => if s = 256 then 1 else (xs.map LitLen.llSymbol).count s := rfl

theorem dCounts_tab (xs : List LitLen) : dCounts xs = tab 32 fun s => (xs.filterMap LitLen.dSymbol).count s := rfl

theorem halfMixed_tab (xs : List LitLen) (ll d : Array Nat) : halfMixed xs ll d =
    (tab 288 fun s => if s = 256 then 1 else (llCounts xs).getD s 0 + ll.getD s 0 / 2, tab 32 fun s => (dCounts xs).getD s 0 + d.getD s 0 / 2) := rfl

attribute [irreducible] tab
attribute [local irreducible] llCounts dCounts halfMixed

/-- The counts are exact. -/
theorem getStatistics_exact {s s' : SymbolStats F} (h1 : s.litlens = Array.replicate 288 0) (h2 : s.dists = Array.replicate 32 0) {store : Lz77Store}
    (hr : ∀ x ∈ store.litlens.toList, x.InRange) (e : s.getStatistics store = some s') :
    s'.litlens = llCounts store.litlens.toList ∧ s'.dists = dCounts store.litlens.toList ∧ s'.llSymbols = entropyOf F s'.litlens ∧ s'.dSymbols = entropyOf F s'.dists := by
  have := forRange_spec (f := fun i ((ll : Array Nat), (d : Array Nat)) => do
      match ← store.litlens[i]? with
      | .literal lit => return (← amod ll lit (· + 1), d)
      | .lengthDist len dist =>
        return (← amod ll (← getLengthSymbol len) (· + 1), ← amod d (getDistSymbol dist) (· + 1)))
    (a := 0) (b := store.litlens.size) (s := (s.litlens, s.dists))
    (fun i st => st.1 = tab 288 (fun s => ((store.litlens.toList.take i).map LitLen.llSymbol).count s) ∧
      st.2 = tab 32 (fun s => ((store.litlens.toList.take i).filterMap LitLen.dSymbol).count s)) (by omega)
    ⟨by rw [h1, tab_zero]; simp, by rw [h2, tab_zero]; simp⟩ (by
      rintro i ⟨ll, d⟩ - hi ⟨i1, i2⟩
      dsimp only at i1 i2 ⊢
      subst i1 i2
      rw [Array.getElem?_eq_getElem hi, some_bind]
      have hx := hr store.litlens[i] (by simp)
      have ht : store.litlens.toList.take (i + 1) = store.litlens.toList.take i ++ [store.litlens[i]] := by
        rw [List.take_add_one, List.getElem?_eq_getElem (by simpa using hi)]
        simp
      rw [ht]
      cases ex : store.litlens[i] with
      | literal lit =>
        rw [ex] at hx
        have hx : lit < 256 := hx
        dsimp only
        rw [tab_modify (fun s => ((store.litlens.toList.take i).map LitLen.llSymbol).count s) (by omega), some_bind]
        refine ⟨_, rfl, ?_, ?_⟩
        · exact tab_congr fun s => by simp [List.count_append, LitLen.llSymbol, List.count_singleton]
        · exact tab_congr fun s => by simp [LitLen.dSymbol, List.filterMap_cons]
      | lengthDist len dist =>
        rw [ex] at hx
        obtain ⟨r1, r2, r3, r4⟩ := hx
        obtain ⟨eb, e1, -, -, -, e5⟩ := lengthSymbol_facts r1 r2
        obtain ⟨d1, -, -, d4⟩ := distSymbol_facts r3 r4
        dsimp only
        rw [e1, some_bind, d1, tab_modify (fun s => ((store.litlens.toList.take i).map LitLen.llSymbol).count s) (by omega), some_bind,
          tab_modify (fun s => ((store.litlens.toList.take i).filterMap LitLen.dSymbol).count s) (by omega), some_bind]
        refine ⟨_, rfl, ?_, ?_⟩
        · exact tab_congr fun s => by simp [List.count_append, LitLen.llSymbol, List.count_singleton]
        · exact tab_congr fun s => by simp [List.count_append, LitLen.dSymbol, List.count_singleton])
  obtain ⟨⟨ll, d⟩, e', i1, i2⟩ := this
  dsimp only at i1 i2
  rw [List.take_of_length_le (by simp)] at i1 i2
  unfold SymbolStats.getStatistics at e
  have e := (congrArg (· >>= _) e').symm.trans e
  rw [some_bind] at e
  dsimp only at e
  have hs : 256 < ll.size := by rw [i1, tab_size]; omega
  rw [aset_eq hs, some_bind] at e
  cases e
  have hll : ll.set 256 1 hs = llCounts store.litlens.toList := by
    rw [llCounts_tab]
    subst i1
    exact tab_set hs
  exact ⟨hll, i2.trans (dCounts_tab _).symm, rfl, rfl⟩

theorem weight_eq (log2 : Fp → Fp) {a b : Nat} (ha : a < 2 ^ 50) (hb : b < 2 ^ 50) :
    (ieee log2).toUsize ((ieee log2).add ((ieee log2).mul ((ieee log2).ofUsize a) ((ieee log2).ofUsize 1)) ((ieee log2).mul ((ieee log2).ofUsize b) (ieee log2).half)) = a + b / 2 := by
  rw [ieee_ofUsize_small log2 (by omega), ieee_ofUsize_small log2 (by omega), ieee_ofUsize_small log2 (by omega)]
  have e1 : (ieee log2).mul (.fin a) (.fin (1 : ℕ)) = .fin a := by
    show round64 _ = _
    rw [Nat.cast_one, mul_one, round64_nat (by omega)]
  have e2 : (ieee log2).mul (.fin b) (ieee log2).half = .fin (b / 2) := by
    show round64 ((b : ℚ) * (1 / 2)) = _
    have := round64_half (z := b) (by
      push_cast
      rw [abs_of_nonneg (by positivity)]
      have : b < 2 ^ 53 := by omega
      exact_mod_cast this)
    push_cast at this
    rw [show (b : ℚ) * (1 / 2) = b / 2 by ring]
    exact this
  have e3 : (ieee log2).add (.fin a) (.fin (b / 2)) = .fin (((2 * a + b : ℕ) : ℚ) / 2) := by
    show round64 ((a : ℚ) + b / 2) = _
    have := round64_half (z := (2 * a + b : ℕ)) (by
      push_cast
      rw [abs_of_nonneg (by positivity)]
      have : 2 * a + b < 2 ^ 53 := by omega
      exact_mod_cast this)
    push_cast at this ⊢
    rw [show (a : ℚ) + b / 2 = (2 * a + b) / 2 by ring]
    exact this
  rw [e1, e2, e3]
  show Nat.min ⌊((2 * a + b : ℕ) : ℚ) / 2⌋.toNat _ = _
  have : ⌊((2 * a + b : ℕ) : ℚ) / 2⌋ = ((a + b / 2 : ℕ) : ℤ) := by
    have h2 : ((2 * a + b : ℕ) : ℚ) / 2 = (((2 * a + b : ℕ) : ℤ) : ℚ) / ((2 : ℕ) : ℚ) := by push_cast; rfl
    rw [h2, Rat.floor_intCast_div_natCast]
    omega
  rw [this, Int.toNat_natCast]
  exact Nat.min_eq_left (by omega)

theorem pushLoop_exact {n : Nat} {f : Nat → Option Nat} {g : Nat → Nat} (h : ∀ i, i < n → f i = some (g i)) :
    (forRange 0 n #[] fun i (r : Array Nat) => do some (r.push (← f i))) = some (tab n g) := by
  have := forRange_spec (f := fun i (r : Array Nat) => do some (r.push (← f i))) (a := 0) (b := n) (s := #[])
    (fun i r => r = tab i g) (by omega) (tab_nil g).symm (by
      intro i r _ hi hr
      rw [h i hi, some_bind]
      refine ⟨_, rfl, ?_⟩
      subst hr
      exact tab_push i g)
  obtain ⟨r, e, rfl⟩ := this
  exact e

variable {log2 : Fp → Fp}

theorem addWeighed_exact {s1 s2 s : SymbolStats (ieee log2)} {xs : List LitLen} {B : Nat} (hB : B < 2 ^ 50)
    (a1 : s1.litlens = llCounts xs) (a2 : s1.dists = dCounts xs) (h1 : StatOk B s1) (h2 : StatOk B s2)
    (e : addWeighedStatFreqs (ieee log2) s1 s2 = some s) : (s.litlens, s.dists) = halfMixed xs s2.litlens s2.dists := by
  have e1 := pushLoop_exact (n := 288) (f := fun i => do
      some ((ieee log2).toUsize ((ieee log2).add ((ieee log2).mul ((ieee log2).ofUsize (← s1.litlens[i]?)) ((ieee log2).ofUsize 1))
        ((ieee log2).mul ((ieee log2).ofUsize (← s2.litlens[i]?)) (ieee log2).half))))
    (g := fun i => (llCounts xs).getD i 0 + s2.litlens.getD i 0 / 2) (by
    intro i hi
    obtain ⟨x, ex, hx⟩ := h1.ll.get hi
    obtain ⟨y, ey, hy⟩ := h2.ll.get hi
    rw [ex, some_bind, ey, some_bind, weight_eq log2 (by omega) (by omega), ← a1, getD_of_get ex, getD_of_get ey])
  have e2 := pushLoop_exact (n := 32) (f := fun i => do
      some ((ieee log2).toUsize ((ieee log2).add ((ieee log2).mul ((ieee log2).ofUsize (← s1.dists[i]?)) ((ieee log2).ofUsize 1))
        ((ieee log2).mul ((ieee log2).ofUsize (← s2.dists[i]?)) (ieee log2).half))))
    (g := fun i => (dCounts xs).getD i 0 + s2.dists.getD i 0 / 2) (by
    intro i hi
    obtain ⟨x, ex, hx⟩ := h1.d.get hi
    obtain ⟨y, ey, hy⟩ := h2.d.get hi
    rw [ex, some_bind, ey, some_bind, weight_eq log2 (by omega) (by omega), ← a2, getD_of_get ex, getD_of_get ey])
  have hx : ∀ (o : Option Nat) (o' : Option Nat) (g : Nat → Nat → Nat) (r : Array Nat),
      (do some (r.push (← (do some (g (← o) (← o')) : Option Nat))) : Option (Array Nat)) = (do some (r.push (g (← o) (← o')))) := by
    intro o o' g r
    cases o <;> cases o' <;> rfl
  unfold addWeighedStatFreqs at e
  dsimp only at e
  simp only [hx _ _ (fun a b => (ieee log2).toUsize ((ieee log2).add ((ieee log2).mul ((ieee log2).ofUsize a) ((ieee log2).ofUsize 1))
    ((ieee log2).mul ((ieee log2).ofUsize b) (ieee log2).half)))] at e1 e2
  have e := (congrArg (· >>= _) e1).symm.trans e
  rw [some_bind] at e
  have e := (congrArg (· >>= _) e2).symm.trans e
  have hs : 256 < (tab 288 fun i => (llCounts xs).getD i 0 + s2.litlens.getD i 0 / 2).size := by rw [tab_size]; omega
  rw [some_bind, aset_eq hs, some_bind] at e
  cases e
  rw [halfMixed_tab]
  exact congrArg (fun x => (x, _)) (tab_set hs)

theorem randomizeFreqs_shuffled {a : Array Nat} (st : RanState) {r : Array Nat × RanState} (e : randomizeFreqs a st = some r) : Shuffled a r.1 := by
  have := forRange_spec (f := fun i ((freqs : Array Nat), (state : RanState)) => do
    let (r, state) := state.random
    if (r >>> 4) % 3 = 0 then do
      let (r, state) := state.random
      let v ← freqs[r % freqs.size]?
      return (← aset freqs i v, state)
    else return (freqs, state)) (a := 0) (b := a.size) (s := (a, st)) (fun i r => Shuffled a r.1) (by omega) ⟨rfl, fun x h => h⟩ (by
      rintro i ⟨f, st⟩ - hi hf
      dsimp only at hf ⊢
      have hs := hf.1
      split
      · have hm : st.random.2.random.1 % f.size < f.size := Nat.mod_lt _ (by omega)
        rw [Array.getElem?_eq_getElem hm, some_bind, aset_eq (by omega), some_bind]
        refine ⟨_, rfl, by simp [hs], fun x hx => ?_⟩
        dsimp only at hx
        rw [Array.toList_set] at hx
        rcases List.mem_or_eq_of_mem_set hx with h | h
        · exact hf.2 x h
        · rw [h]
          exact hf.2 _ (by simp)
      · exact ⟨_, rfl, hf⟩)
  obtain ⟨r', e', h⟩ := this
  have : r' = r := Option.some.inj (e'.symm.trans e)
  rw [← this]
  exact h

theorem randomize_shuffled {s : SymbolStats F} {st : RanState} {r : SymbolStats F × RanState} (h : s.litlens[256]? = some 1) (e : s.randomizeStatFreqs st = some r) :
    Shuffled s.litlens r.1.litlens ∧ Shuffled s.dists r.1.dists ∧ r.1.litlens[256]? = some 1 := by
  unfold SymbolStats.randomizeStatFreqs at e
  simp only [Option.bind_eq_bind, Option.bind_eq_some_iff, Prod.exists] at e
  obtain ⟨a1, st1, e1, a2, st2, e2, a3, e3, e4⟩ := e
  cases e4
  have g1 := randomizeFreqs_shuffled _ e1
  have g2 := randomizeFreqs_shuffled _ e2
  dsimp only at g1 g2 ⊢
  have hs : 256 < a1.size := by
    rw [g1.1]
    by_contra hc
    rw [Array.getElem?_eq_none (by omega)] at h
    cases h
  rw [aset_eq hs] at e3
  cases e3
  refine ⟨⟨by simp [g1.1], fun x hx => ?_⟩, g2, by simp⟩
  rw [Array.toList_set] at hx
  rcases List.mem_or_eq_of_mem_set hx with h' | h'
  · exact g1.2 x h'
  · rw [h']
    rw [Array.getElem?_eq_some_iff] at h
    obtain ⟨hh, h⟩ := h
    rw [← h]
    simp

theorem same_cost (log2 : Fp → Fp) {a b : Nat} (ha : a < 2 ^ 40) (hb : b < 2 ^ 40) :
    (ieee log2).lt ((ieee log2).abs ((ieee log2).sub ((ieee log2).ofUsize a) ((ieee log2).ofUsize b))) (ieee log2).eps = true ↔ a = b := by
  rw [ieee_ofUsize_small log2 (by omega), ieee_ofUsize_small log2 (by omega)]
  have e : (ieee log2).sub (.fin a) (.fin b) = .fin ((a : ℚ) - b) := by
    show round64 ((a : ℚ) + -(b : ℚ)) = _
    have := round64_half (z := 2 * ((a : ℤ) - b)) (by
      push_cast
      rw [abs_lt]
      have h1 : (a : ℚ) < 2 ^ 40 := by exact_mod_cast ha
      have h2 : (b : ℚ) < 2 ^ 40 := by exact_mod_cast hb
      have h3 : (0 : ℚ) ≤ a := Nat.cast_nonneg _
      have h4 : (0 : ℚ) ≤ b := Nat.cast_nonneg _
      constructor <;> linarith)
    push_cast at this
    rw [show (a : ℚ) + -b = 2 * (a - b) / 2 by ring, this]
    congr 1
    ring
  rw [e]
  show decide (|(a : ℚ) - b| < 1 / 2 ^ 52) = true ↔ _
  rw [decide_eq_true_eq]
  constructor
  · intro h
    by_contra hne
    have h1 : (1 : ℤ) ≤ |(a : ℤ) - b| := Int.one_le_abs (by omega)
    have h2 : (1 : ℚ) ≤ |(a : ℚ) - b| := by exact_mod_cast h1
    linarith
  · rintro rfl
    rw [sub_self, abs_zero]
    norm_num

end Zopfli
