import Verif.Model.WordsPart
import Verif.Proofs.WordsBlocks
import Verif.Proofs.OverflowPart
/-! # The statistics of the parser fit in a machine word -/

namespace Zopfli.Words
open Rfc

variable {F : FloatOps}

/-- A chunk of `n` bytes for which nothing overflows. -/
structure Small (W n : Nat) : Prop where
  u32 : n < 2 ^ 28 - 1
  word : 604 * (n + 290) < 2 ^ W

theorem Small.mono {W n m : Nat} (h : Small W n) (hm : m ≤ n) : Small W m :=
  ⟨Nat.lt_of_le_of_lt hm h.u32, Nat.lt_of_le_of_lt (Nat.mul_le_mul_left _ (Nat.add_le_add_right hm _)) h.word⟩

theorem Small.fits {W n : Nat} (h : Small W n) : Fits W n := by
  have h1 : 302 * (n + 289) ≤ 604 * (n + 290) := by
    clear h
    omega
  exact Nat.lt_of_le_of_lt h1 h.word

theorem sum_words [Checks] {W : Nat} : ∀ (l : List Nat) (a : Nat), a + l.sum < 2 ^ W → l.foldlM (fun s c => usize W (s + c)) a = some (a + l.sum)
  | [], a, _ => rfl
  | x :: l, a, h => by
    rw [List.sum_cons] at h
    rw [List.foldlM_cons, usize_eq (by omega), some_bind, sum_words l (a + x) (by omega), List.sum_cons, Nat.add_assoc]

theorem entropyOf_words [Checks] {W : Nat} {a : Array Nat} (h : a.toList.sum < 2 ^ W) : entropyOf W F a = some (Zopfli.entropyOf F a) := by
  unfold entropyOf
  dsimp only
  rw [sum_words _ _ (by omega), some_bind, Nat.zero_add]
  rfl

theorem bdd_sum {n B : Nat} {a : Array Nat} (h : Bdd n B a) : a.toList.sum ≤ n * B := by
  have := list_sum_le (B := B) a.toList fun x hx => by
    obtain ⟨i, hi, e⟩ := List.mem_iff_getElem.mp hx
    refine h.2 i x ?_
    rw [Array.getElem?_eq_some_iff]
    exact ⟨by simpa using hi, by simpa using e⟩
  simpa [h.1] using this

theorem calculateEntropy_words [Checks] {W B : Nat} {s : SymbolStats F} (h : StatOk B s) (hW : 288 * B < 2 ^ W) :
    calculateEntropy W s = some s.calculateEntropy := by
  have h1 := bdd_sum h.ll
  have h2 := bdd_sum h.d
  unfold calculateEntropy
  rw [entropyOf_words (by omega), some_bind, entropyOf_words (by omega), some_bind]
  rfl

theorem incr_words [Checks] {W n B : Nat} {a : Array Nat} (h : Bdd n B a) {i : Nat} (hi : i < n) (hW : B + 1 < 2 ^ W) :
    incr W a i = amod a i (· + 1) := by
  have hi' : i < a.size := by rw [h.1]; exact hi
  have hb := h.2 i _ (Array.getElem?_eq_getElem hi')
  unfold incr
  rw [Array.getElem?_eq_getElem hi', some_bind, usize_eq (by omega), some_bind, aset_eq hi', amod_eq hi']
  congr 1
  refine Array.ext (by simp) fun j hj hj' => ?_
  rw [Array.getElem_set, Array.getElem_modify]
  split
  · rename_i e; subst e; rfl
  · rfl

theorem getStatistics_words [Checks] {W n : Nat} (hW : Small W n) {s : SymbolStats F} (h : StatOk 0 s) {store : Lz77Store} (hst : StoreInv store)
    (hsz : store.size ≤ n) : getStatistics W s store = s.getStatistics store := by
  have hs : store.size = store.litlens.size := rfl
  have hw := hW.word
  obtain ⟨e, hi⟩ := forRange_congr_inv
    (f := fun i ((ll : Array Nat), (d : Array Nat)) => do
      match ← store.litlens[i]? with
      | .literal lit => return (← incr W ll lit, d)
      | .lengthDist len dist =>
        return (← incr W ll (← getLengthSymbol len), ← incr W d (getDistSymbol dist)))
    (g := fun i ((ll : Array Nat), (d : Array Nat)) => do
      match ← store.litlens[i]? with
      | .literal lit => return (← amod ll lit (· + 1), d)
      | .lengthDist len dist =>
        return (← amod ll (← getLengthSymbol len) (· + 1), ← amod d (getDistSymbol dist) (· + 1)))
    (a := 0) (b := store.litlens.size) (s := (s.litlens, s.dists)) (fun i st => Bdd 288 i st.1 ∧ Bdd 32 i st.2) (by omega) ⟨h.ll, h.d⟩ (by
      rintro i ⟨ll, d⟩ - hi ⟨i1, i2⟩
      dsimp only at i1 i2 ⊢
      rw [Array.getElem?_eq_getElem hi, some_bind, some_bind]
      have hr := hst.range store.litlens[i] (by simp)
      cases e : store.litlens[i] with
      | literal lit =>
        rw [e] at hr
        have hr : lit < 256 := hr
        obtain ⟨a', g1, g2⟩ := i1.incr (i := lit) (by omega)
        dsimp only
        rw [incr_words i1 (by omega) (by omega), g1, some_bind]
        exact ⟨rfl, fun s' hs => by cases hs; exact ⟨g2, i2.mono (by omega)⟩⟩
      | lengthDist len dist =>
        rw [e] at hr
        obtain ⟨r1, r2, r3, r4⟩ := hr
        obtain ⟨t, eb, v, e1, -, -, hs1, hs2, -⟩ := length_spec r1 r2
        have hd := dist_spec r3 r4
        obtain ⟨a', g1, g2⟩ := i1.incr (i := t) (by omega)
        obtain ⟨d', g3, g4⟩ := i2.incr (i := getDistSymbol dist) (by omega)
        dsimp only
        rw [e1, some_bind, some_bind, incr_words i1 (by omega) (by omega), incr_words i2 (by omega) (by omega), g1, some_bind, g3, some_bind]
        exact ⟨rfl, fun s' hs => by cases hs; exact ⟨g2, g4⟩⟩)
  unfold getStatistics SymbolStats.getStatistics
  refine Eq.trans (congrArg (· >>= _) e) ?_
  have hg : ∀ x, (forRange 0 store.litlens.size (s.litlens, s.dists) fun i ((ll : Array Nat), (d : Array Nat)) => do
      match ← store.litlens[i]? with
      | .literal lit => return (← amod ll lit (· + 1), d)
      | .lengthDist len dist =>
        return (← amod ll (← getLengthSymbol len) (· + 1), ← amod d (getDistSymbol dist) (· + 1))) = some x →
      Bdd 288 store.litlens.size x.1 ∧ Bdd 32 store.litlens.size x.2 := hi
  cases hx : (forRange 0 store.litlens.size (s.litlens, s.dists) fun i ((ll : Array Nat), (d : Array Nat)) => do
      match ← store.litlens[i]? with
      | .literal lit => return (← amod ll lit (· + 1), d)
      | .lengthDist len dist =>
        return (← amod ll (← getLengthSymbol len) (· + 1), ← amod d (getDistSymbol dist) (· + 1))) with
  | none => rfl
  | some x =>
    obtain ⟨i1, i2⟩ := hg x hx
    obtain ⟨ll, d⟩ := x
    rw [some_bind, some_bind]
    dsimp only at i1 i2 ⊢
    obtain ⟨ll', e2, i3⟩ := (i1.mono (Nat.le_succ _)).set (i := 256) (v := 1) (by omega) (by omega)
    rw [e2, some_bind, some_bind]
    exact calculateEntropy_words (B := store.litlens.size + 1) ⟨i3, i2.mono (Nat.le_succ _)⟩ (by omega)

theorem weights_words {W n : Nat} (L : FloatLaws F) (hn : n < 2 ^ 28 - 1) (hW : 2 * n + 2 < 2 ^ W) {a b : Nat} (ha : a ≤ n + 1) (hb : b ≤ 2 * n + 2) :
    min (F.toUsize (F.add (F.mul (F.ofUsize a) (F.ofUsize 1)) (F.mul (F.ofUsize b) F.half))) (2 ^ W - 1) =
      F.toUsize (F.add (F.mul (F.ofUsize a) (F.ofUsize 1)) (F.mul (F.ofUsize b) F.half)) := by
  have := L.weight_le a b (by omega) (by omega)
  refine Nat.min_eq_left ?_
  clear hn
  omega

theorem addWeighed_words {W n : Nat} (L : FloatLaws F) (hW : Small W n) {s1 s2 : SymbolStats F} (h1 : StatOk (n + 1) s1) (h2 : StatOk (2 * n + 2) s2) :
    addWeighedStatFreqs W F s1 s2 = Zopfli.addWeighedStatFreqs F s1 s2 := by
  have hw := hW.word
  have hww : 2 * n + 2 < 2 ^ W := by clear hW; omega
  unfold addWeighedStatFreqs Zopfli.addWeighedStatFreqs
  dsimp only
  have e1 : ∀ (i : Nat) (r : Array Nat), 0 ≤ i → i < NUM_LL →
      (do some (r.push (min (F.toUsize (F.add (F.mul (F.ofUsize (← s1.litlens[i]?)) (F.ofUsize 1)) (F.mul (F.ofUsize (← s2.litlens[i]?)) F.half))) (2 ^ W - 1))) : Option (Array Nat)) =
      (do some (r.push (F.toUsize (F.add (F.mul (F.ofUsize (← s1.litlens[i]?)) (F.ofUsize 1)) (F.mul (F.ofUsize (← s2.litlens[i]?)) F.half))))) := by
    intro i r _ hi
    obtain ⟨x, ex, hx⟩ := h1.ll.get hi
    obtain ⟨y, ey, hy⟩ := h2.ll.get hi
    rw [ex, some_bind, ey, some_bind, some_bind, some_bind, weights_words L hW.u32 hww hx hy]
  have e2 : ∀ (i : Nat) (r : Array Nat), 0 ≤ i → i < NUM_D →
      (do some (r.push (min (F.toUsize (F.add (F.mul (F.ofUsize (← s1.dists[i]?)) (F.ofUsize 1)) (F.mul (F.ofUsize (← s2.dists[i]?)) F.half))) (2 ^ W - 1))) : Option (Array Nat)) =
      (do some (r.push (F.toUsize (F.add (F.mul (F.ofUsize (← s1.dists[i]?)) (F.ofUsize 1)) (F.mul (F.ofUsize (← s2.dists[i]?)) F.half))))) := by
    intro i r _ hi
    obtain ⟨x, ex, hx⟩ := h1.d.get hi
    obtain ⟨y, ey, hy⟩ := h2.d.get hi
    rw [ex, some_bind, ey, some_bind, some_bind, some_bind, weights_words L hW.u32 hww hx hy]
  rw [forRange_congr e1, forRange_congr e2]

theorem nextStats_words [Checks] {W n : Nat} (L : FloatLaws F) (hn : 2 * n + 2 < 4 * L.lim + 1) (hW : Small W n) {store : Lz77Store} (hst : StoreInv store)
    (hsz : store.size ≤ n) {stats best : SymbolStats F} (h1 : StatOk (2 * n + 2) stats) (h2 : StatOk (2 * n + 2) best) (cost lastcost : F.F64) (cur : Nat)
    (last : Option Nat) (st : RanState) :
    nextStats W F store cost lastcost cur last stats best st = Zopfli.nextStats F store cost lastcost cur last stats best st := by
  have hw : 288 * (2 * n + 2) < 2 ^ W := Nat.lt_of_le_of_lt (by clear hW hn; omega) hW.word
  unfold nextStats Zopfli.nextStats
  dsimp only
  rw [getStatistics_words hW (clearFreqs_spec stats) hst hsz]
  obtain ⟨s1, e1, g1, g2⟩ := getStatistics_spec L (clearFreqs_spec stats) hst (by omega)
  have g2 : StatOk (n + 1) s1 := ⟨g2.ll.mono (by omega), g2.d.mono (by omega)⟩
  rw [e1, some_bind, some_bind, addWeighed_words L hW g2 h1]
  have hstep : (if last ≠ none then do calculateEntropy W (← Zopfli.addWeighedStatFreqs F s1 stats) else some s1) =
      (if last ≠ none then do some (← Zopfli.addWeighedStatFreqs F s1 stats).calculateEntropy else some s1) := by
    split
    · obtain ⟨s, e, h⟩ := addWeighed_spec L g2 h1 hn
      rw [e, some_bind, some_bind, calculateEntropy_words h hw]
    · rfl
  rw [hstep]
  congr 1
  funext s2
  split
  · obtain ⟨⟨s3, st3⟩, e3, g5⟩ := randomizeStatFreqs_spec h2 (by omega) st
    rw [e3, some_bind, some_bind]
    dsimp only at g5 ⊢
    rw [calculateEntropy_words g5 hw, some_bind]
  · rfl

/-- Two loops that are the same on an invariant. -/
theorem loopM_congr_inv {σ ρ : Type} {f g : σ → Option (σ ⊕ ρ)} (I : σ → Prop) (h : ∀ s, I s → f s = g s ∧ ∀ s', g s = some (.inl s') → I s')
    (s : σ) (h0 : I s) : loopM f s = loopM g s := by
  have h1 : ∀ s r, loopM f s = some r → I s → loopM g s = some r := by
    refine loopM.partial_correctness (body := f) (motive := fun s r => I s → loopM g s = some r) ?_
    intro loop ih s r hr hs
    obtain ⟨e, hp⟩ := h s hs
    rw [e] at hr
    rw [loopM.eq_1]
    cases e2 : g s with
    | none => rw [e2] at hr; cases hr
    | some x =>
      rw [e2] at hr
      cases x with
      | inl s' => exact ih _ _ hr (hp s' e2)
      | inr r' => exact hr
  have h2 : ∀ s r, loopM g s = some r → I s → loopM f s = some r := by
    refine loopM.partial_correctness (body := g) (motive := fun s r => I s → loopM f s = some r) ?_
    intro loop ih s r hr hs
    obtain ⟨e, hp⟩ := h s hs
    rw [loopM.eq_1, e]
    cases e2 : g s with
    | none => rw [e2] at hr; cases hr
    | some x =>
      rw [e2] at hr
      cases x with
      | inl s' => exact ih _ _ hr (hp s' e2)
      | inr r' => exact hr
  cases e : loopM f s with
  | some r => exact (h1 s r e h0).symm
  | none =>
    cases e2 : loopM g s with
    | none => rfl
    | some r => rw [h2 s r e2 h0] at e; cases e

/-- The block sizes of a whole store. -/
theorem blockSize_store (c : Checks) {W : Nat} {data : Array UInt8} {start stop : Nat} {s : Lz77Store} (hs : StoreOk data start stop s)
    (hb : stop < 2 ^ W) (hW : Small W (stop - start)) {k l : Nat} (hkl : k ≤ l) (hl : l ≤ s.size) (bt : BlockType) :
    @calculateBlockSize c W F s k l bt = @Zopfli.calculateBlockSize releaseBuild F s k l bt := by
  have hr := hs.rangeOk hkl hl
  have h1 : bytePos start s l ≤ stop := by
    have h1 := hs.bytePos_size
    have h2 := (hs.rangeOk hl (Nat.le_refl s.size)).parses.le
    omega
  have h2 : start ≤ bytePos start s k := Nat.le_add_right _ _
  rw [calculateBlockSize_words F hr (Nat.lt_of_le_of_lt h1 hb) (hW.mono (by omega)).fits, calculateBlockSize_eq c (hs.small hW.u32)]

theorem autoType_store (c : Checks) {W : Nat} {data : Array UInt8} {start stop : Nat} {s : Lz77Store} (hs : StoreOk data start stop s)
    (hb : stop < 2 ^ W) (hW : Small W (stop - start)) {k l : Nat} (hkl : k ≤ l) (hl : l ≤ s.size) :
    @calculateBlockSizeAutoType c W F s k l = @Zopfli.calculateBlockSizeAutoType releaseBuild F s k l := by
  unfold calculateBlockSizeAutoType Zopfli.calculateBlockSizeAutoType
  simp only [blockSize_store c hs hb hW hkl hl]

/-- The state of the loop of `lz77_optimal`, in exact arithmetic. -/
structure OptInv (L : FloatLaws F) (n : Nat) (J : Cache → Prop) (o : OptimalState F) : Prop where
  cache : J o.lmc
  ent : EntOk L o.stats
  cnt : StatOk (2 * n + 2) o.stats
  best : StatOk (2 * n + 2) o.beststats

theorem lz77Optimal_words (c : Checks) (L : FloatLaws F) {W : Nat} {data : Array UInt8} {instart inend : Nat} (h1 : instart ≤ inend)
    (h2 : inend ≤ data.size) (hsz : data.size < 2 * L.lim) (hb : inend < 2 ^ W) (hW : Small W (inend - instart)) (maxIt maxWithout : Nat) :
    @lz77Optimal c W F (.lmc (.new (inend - instart))) data instart inend maxIt maxWithout =
      @Zopfli.lz77Optimal releaseBuild F (.lmc (.new (inend - instart))) data instart inend maxIt maxWithout := by
  obtain ⟨O, hO⟩ := oracle_exists (data.extract 0 inend) (instart - 32768)
  have hcache := cacheInv_new (data.extract 0 inend) O instart
  rw [show (data.extract 0 inend).size = inend by simp; omega] at hcache
  obtain ⟨s0, hs0, g0⟩ := greedy_spec hO h1 h2
  have hsize := hs0.size_le
  obtain ⟨st0, est, hst1, hst2⟩ := getStatistics_spec L (default_spec (F := F)) hs0.inv (by omega)
  have hst2 : StatOk (2 * (inend - instart) + 2) st0 := ⟨hst2.ll.mono (by omega), hst2.d.mono (by omega)⟩
  obtain ⟨lmc0, hc0, e0⟩ := g0 _ hcache
  have e0 : greedy Lz77Store.new (.lmc (.new (inend - instart))) data instart inend = some (s0, lmc0) := e0
  unfold lz77Optimal Zopfli.lz77Optimal
  rw [e0, some_bind, some_bind]
  dsimp only
  rw [getStatistics_words hW (default_spec (F := F)) hs0.inv hsize, est, some_bind, some_bind]
  refine loopM_congr_inv (OptInv L (inend - instart) (CacheInv (data.extract 0 inend) O instart)) ?_ _
    ⟨hc0, hst1, hst2, ⟨default_spec.ll.mono (by omega), default_spec.d.mono (by omega)⟩⟩
  rintro ⟨lmc, out, stats, best, bestcost, lastcost, ran, last, cur, without⟩ ⟨o1, o2, o3, o4⟩
  dsimp only at o1 o2 o3 o4
  obtain ⟨s, hs, g⟩ := lz77OptimalRun_spec (L := L) hO o2.cost h1 h2
  have hsize := hs.size_le
  obtain ⟨lmc', hc', e⟩ := g lmc o1
  have e : lz77OptimalRun F lmc data instart inend (getCostStat F stats) Lz77Store.new = some (s, lmc') := e
  obtain ⟨cost, ec⟩ := calculateBlockSize_ret (F := F) hs.inv (Nat.zero_le _) (Nat.le_refl _) .dynamic
  unfold optimalStep Zopfli.optimalStep
  dsimp only
  rw [e, some_bind, some_bind]
  dsimp only
  rw [blockSize_store c hs hb hW (Nat.zero_le _) (Nat.le_refl _), ec, some_bind, some_bind]
  generalize hbest : (if F.lt cost bestcost = true then stats else best) = best'
  have hbest' : StatOk (2 * (inend - instart) + 2) best' := by
    rw [← hbest]
    split
    · exact o3
    · exact o4
  obtain ⟨⟨stats', ran', last'⟩, en, n1, n2⟩ := nextStats_spec L (n := inend - instart) (by omega) hs.inv hsize o3 hbest' cost lastcost (cur + 1) last ran
  rw [nextStats_words L (by omega) hW hs.inv hsize o3 hbest', en, some_bind]
  refine ⟨rfl, fun s' hs' => ?_⟩
  generalize (if F.lt cost bestcost = true then s else out) = out' at hs'
  generalize (if F.lt cost bestcost = true then cost else bestcost) = bestcost' at hs'
  generalize (if F.lt cost bestcost = true then 0 else without + 1) = without' at hs'
  split at hs'
  · cases hs'
  · split at hs'
    · cases hs'
    · cases hs'
      exact ⟨hc', n1, n2, hbest'⟩

end Zopfli.Words
