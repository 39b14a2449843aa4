import Verif.Proofs.LogOnly
import Verif.Proofs.WordsEncoder
/-!
# The logarithms of small integers are enough (release build)

A part of `n` bytes asks for no logarithm of a number outside `1 … 576 * (n + 1)`.
-/

namespace Zopfli.LogBounded
open Rfc Words

attribute [local instance] releaseBuild

variable {F : FloatOps} {l : F.F64 → F.F64}

/-- The two logarithms agree on the integers from 1 to `B - 1`. -/
def Agree (l : F.F64 → F.F64) (B : Nat) : Prop := ∀ n : Nat, 0 < n → n < B → l (F.ofUsize n) = F.log2 (F.ofUsize n)

theorem loopM_carry_inv {σ σ' ρ : Type} {body : σ → Option (σ ⊕ ρ)} {body' : σ' → Option (σ' ⊕ ρ)} (f : σ' → σ) (I : σ → Prop)
    (h : ∀ s, I (f s) → (body' s).map (Sum.map f id) = body (f s)) (hp : ∀ t t', I t → body t = some (.inl t') → I t') (s : σ') (h0 : I (f s)) :
    loopM body' s = loopM body (f s) := by
  have h1 : ∀ s r, loopM body' s = some r → I (f s) → loopM body (f s) = some r := by
    refine loopM.partial_correctness (body := body') (motive := fun s r => I (f s) → loopM body (f s) = some r) ?_
    intro loop ih s r hr hI
    have hs := h s hI
    rw [loopM.eq_1]
    cases e : body' s with
    | none => rw [e] at hr; cases hr
    | some x =>
      rw [e] at hr hs
      rw [← hs]
      cases x with
      | inl s' => exact ih _ _ hr (hp _ _ hI hs.symm)
      | inr r' => cases hr; rfl
  have h2 : ∀ t r, loopM body t = some r → I t → ∀ s, f s = t → loopM body' s = some r := by
    refine loopM.partial_correctness (body := body) (motive := fun t r => I t → ∀ s, f s = t → loopM body' s = some r) ?_
    intro loop ih t r hr hI s hs
    subst hs
    have hs := h s hI
    rw [← hs] at hr
    cases e : body' s with
    | none => rw [e] at hr; cases hr
    | some x =>
      rw [e] at hr hs
      rw [loopM.eq_1, e]
      cases x with
      | inl s' => exact ih _ _ hr (hp _ _ hI hs.symm) s' rfl
      | inr r' => cases hr; rfl
  cases e : loopM body' s with
  | some r => exact (h1 s r e h0).symm
  | none =>
    cases e2 : loopM body (f s) with
    | none => rfl
    | some r => rw [h2 _ r e2 h0 s rfl] at e; cases e

/-! ## The statistics -/

section
variable {B n : Nat} (h : Agree l B) (hn : 576 * (n + 1) < B)
include h

theorem entropyOf_log {a : Array Nat} (h0 : 0 < a.size) (h1 : a.size < B) (hs : a.toList.sum < B) : entropyOf (F.withLog l) a = entropyOf F a := by
  unfold entropyOf
  have h' : ∀ n : Nat, 0 < n → n < B → (F.withLog l).log2 ((F.withLog l).ofUsize n) = F.log2 (F.ofUsize n) := h
  show a.map (fun c => if c = 0 then (F.withLog l).log2 ((F.withLog l).ofUsize (if a.toList.sum = 0 then a.size else a.toList.sum))
    else F.sub ((F.withLog l).log2 ((F.withLog l).ofUsize (if a.toList.sum = 0 then a.size else a.toList.sum)))
      ((F.withLog l).log2 ((F.withLog l).ofUsize c))) = _
  rw [h' _ (by split <;> omega) (by split <;> omega)]
  refine Array.map_congr_left fun c hc => ?_
  by_cases h3 : c = 0
  · rw [if_pos h3, if_pos h3]
  · rw [if_neg h3, if_neg h3, h' c (by omega) (Nat.lt_of_le_of_lt (List.le_sum_of_mem (by simpa using hc)) hs)]

include hn

theorem calculateEntropy_log {s : SymbolStats (F.withLog l)} (hs : StatOk (2 * n + 2) s.re) : s.calculateEntropy.re = s.re.calculateEntropy := by
  have h1 := bdd_sum hs.ll
  have h2 := bdd_sum hs.d
  have h3 := hs.ll.1
  have h4 := hs.d.1
  have e1 : entropyOf (F.withLog l) s.re.litlens = entropyOf F s.re.litlens := entropyOf_log h (by omega) (by omega) (by omega)
  have e2 : entropyOf (F.withLog l) s.re.dists = entropyOf F s.re.dists := entropyOf_log h (by omega) (by omega) (by omega)
  unfold SymbolStats.calculateEntropy SymbolStats.re
  dsimp only
  exact congr (congrArg (SymbolStats.mk s.litlens s.dists) e1) e2

end

theorem calculateEntropy_stat {B' : Nat} {s : SymbolStats F} (hs : StatOk B' s.calculateEntropy) : StatOk B' s := ⟨hs.ll, hs.d⟩

theorem map_bind_inv {α β γ : Type} {x : Option α} {f : α → Option β} {f' : α → Option γ} {g : β → γ} {r : γ} (hr : (x >>= f') = some r)
    (h : ∀ a, f' a = some r → (f a).map g = f' a) : (x >>= f).map g = x >>= f' := by
  cases x with
  | none => cases hr
  | some a => exact h a hr

theorem getStatistics_log {B n : Nat} (h : Agree l B) (hn : 576 * (n + 1) < B) {s : SymbolStats (F.withLog l)} {store : Lz77Store}
    {s' : SymbolStats F} (he : s.re.getStatistics store = some s') (hs : StatOk (2 * n + 2) s') :
    (s.getStatistics store).map SymbolStats.re = s.re.getStatistics store := by
  unfold SymbolStats.getStatistics at he ⊢
  refine map_bind_inv he fun x hx => ?_
  refine map_bind_inv hx fun y hy => ?_
  cases hy
  exact congrArg some (calculateEntropy_log (s := { s with litlens := y, dists := x.2 }) h hn ⟨hs.ll, hs.d⟩)

theorem map_bind_map_inv {α α' β γ : Type} {x : Option α} {x' : Option α'} {k : α → α'} {f : α → Option β} {f' : α' → Option γ} {g : β → γ}
    (hx : x.map k = x') (hf : ∀ a, x' = some (k a) → (f a).map g = f' (k a)) : (x >>= f).map g = x' >>= f' := by
  subst hx
  cases x with
  | none => rfl
  | some a => exact hf a rfl

theorem nextStats_log {B n : Nat} (h : Agree l B) (hn : 576 * (n + 1) < B) (L : FloatLaws F) (hl : 2 * n + 2 < 4 * L.lim + 1) {store : Lz77Store}
    (hst : StoreInv store) (hsz : store.size ≤ n) {s b : SymbolStats (F.withLog l)} (h1 : StatOk (2 * n + 2) s.re) (h2 : StatOk (2 * n + 2) b.re)
    (cost lastcost : F.F64) (cur : Nat) (lr : Option Nat) (r : RanState) :
    (nextStats (F.withLog l) store cost lastcost cur lr s b r).map (Prod.map SymbolStats.re id)
      = nextStats F store cost lastcost cur lr s.re b.re r := by
  obtain ⟨s1, e1, -, g2⟩ := getStatistics_spec L (clearFreqs_spec s.re) hst (by omega)
  have g2 : StatOk (n + 1) s1 := ⟨g2.ll.mono (by omega), g2.d.mono (by omega)⟩
  unfold nextStats
  dsimp only
  refine map_bind_map_inv (k := SymbolStats.re) (getStatistics_log h hn (s := s.clearFreqs) e1 ⟨g2.ll.mono (by omega), g2.d.mono (by omega)⟩) fun t1 ht1 => ?_
  have ht1 : some s1 = some t1.re := e1.symm.trans ht1
  obtain rfl := Option.some.inj ht1
  refine map_bind_map (k := SymbolStats.re) ?_ fun s2 => ?_
  · by_cases h4 : lr ≠ none
    · rw [if_pos h4, if_pos h4]
      obtain ⟨w, ew, hw⟩ := addWeighed_spec L g2 h1 hl
      refine map_bind_map_inv (k := SymbolStats.re) (addWeighedStatFreqs_log _ _) fun t ht => ?_
      obtain rfl := Option.some.inj (ew.symm.trans ht)
      exact congrArg some (calculateEntropy_log h hn hw)
    · rw [if_neg h4, if_neg h4]; rfl
  · by_cases h4 : cur > 5 ∧ F.lt (F.abs (F.sub cost lastcost)) F.eps
    · rw [if_pos h4, if_pos h4]
      obtain ⟨w, ew, hw⟩ := randomizeStatFreqs_spec h2 (by omega) r
      refine map_bind_map_inv (k := Prod.map SymbolStats.re id) (randomizeStatFreqs_log _ _) fun t ht => ?_
      obtain rfl := Option.some.inj (ew.symm.trans ht)
      exact congrArg some (Prod.ext (calculateEntropy_log h hn hw) rfl)
    · rw [if_neg h4, if_neg h4]; rfl

/-- One pass. -/
theorem optimalStep_log {B : Nat} (h : Agree l B) (L : FloatLaws F) {data : Array UInt8} {instart inend : Nat} (h1 : instart ≤ inend)
    (h2 : inend ≤ data.size) (hsz : data.size < 2 * L.lim) (hn : 576 * (inend - instart + 1) < B) {O} (hO : IsOracle (data.extract 0 inend) (instart - 32768) O)
    (mi mw : Nat) (s : OptimalState (F.withLog l)) (hs : OptInv L (inend - instart) (CacheInv (data.extract 0 inend) O instart) s.re) :
    (optimalStep (F.withLog l) data instart inend mi mw s).map (Sum.map OptimalState.re id)
      = optimalStep F data instart inend mi mw s.re := by
  obtain ⟨lmc, out, stats, best, bc, lc, ran, lr, cur, wo⟩ := s
  obtain ⟨o1, o2, o3, o4⟩ := hs
  show _ = optimalStep F data instart inend mi mw ⟨lmc, out, stats.re, best.re, bc, lc, ran, lr, cur, wo⟩
  have o2 : EntOk L stats.re := o2
  have o3 : StatOk (2 * (inend - instart) + 2) stats.re := o3
  have o4 : StatOk (2 * (inend - instart) + 2) best.re := o4
  obtain ⟨st, hst, g⟩ := lz77OptimalRun_spec (L := L) hO o2.cost h1 h2
  have hsize := hst.size_le
  obtain ⟨lmc', -, e⟩ := g lmc o1
  have e : lz77OptimalRun F lmc data instart inend (getCostStat F stats.re) Lz77Store.new = some (st, lmc') := e
  have e' : lz77OptimalRun (F.withLog l) lmc data instart inend (getCostStat (F.withLog l) stats) Lz77Store.new = some (st, lmc') :=
    (lz77OptimalRun_log lmc data instart inend (getCostStat F stats.re) Lz77Store.new).trans e
  unfold optimalStep
  dsimp only
  rw [e, e', some_bind, some_bind]
  dsimp only
  refine map_bind_congr fun cost => ?_
  have key : ∀ (b' : SymbolStats (F.withLog l)) (_ : StatOk (2 * (inend - instart) + 2) b'.re) (out' : Lz77Store) (bc' : F.F64) (wo' : Nat) (p : Prop) [Decidable p],
      Option.map (Sum.map OptimalState.re id)
        (if p then (some (Sum.inr out') : Option (OptimalState (F.withLog l) ⊕ Lz77Store))
         else if cur + 1 ≥ mi then some (Sum.inr out')
         else nextStats (F.withLog l) st cost lc (cur + 1) lr stats b' ran >>= fun y =>
           some (Sum.inl ⟨lmc', out', y.1, b', bc', cost, y.2.1, y.2.2, cur + 1, wo'⟩))
        = (if p then (some (Sum.inr out') : Option (OptimalState F ⊕ Lz77Store))
         else if cur + 1 ≥ mi then some (Sum.inr out')
         else nextStats F st cost lc (cur + 1) lr stats.re b'.re ran >>= fun y =>
           some (Sum.inl ⟨lmc', out', y.1, b'.re, bc', cost, y.2.1, y.2.2, cur + 1, wo'⟩)) := by
    intro b' hb' out' bc' wo' p _
    by_cases hp : p
    · rw [if_pos hp, if_pos hp]; rfl
    · rw [if_neg hp, if_neg hp]
      by_cases hc : cur + 1 ≥ mi
      · rw [if_pos hc, if_pos hc]; rfl
      · rw [if_neg hc, if_neg hc]
        exact map_bind_map (k := Prod.map SymbolStats.re id) (nextStats_log h hn L (by omega) hst.inv hsize o3 hb' _ _ _ _ _) fun t => rfl
  have e2 : (if (F.withLog l).lt cost bc = true then stats else best).re = if F.lt cost bc = true then stats.re else best.re := by
    by_cases hb : F.lt cost bc = true
    · rw [if_pos hb, if_pos hb]
    · rw [if_neg hb, if_neg hb]
  have hb' : StatOk (2 * (inend - instart) + 2) (if (F.withLog l).lt cost bc = true then stats else best).re := by
    rw [e2]
    split
    · exact o3
    · exact o4
  rw [← e2]
  exact key _ hb' _ _ _ _

theorem optInv_step (L : FloatLaws F) {data : Array UInt8} {instart inend : Nat} (h1 : instart ≤ inend)
    (h2 : inend ≤ data.size) (hsz : data.size < 2 * L.lim) {O} (hO : IsOracle (data.extract 0 inend) (instart - 32768) O) (mi mw : Nat) (t t' : OptimalState F)
    (hI : OptInv L (inend - instart) (CacheInv (data.extract 0 inend) O instart) t) (ht : optimalStep F data instart inend mi mw t = some (.inl t')) :
    OptInv L (inend - instart) (CacheInv (data.extract 0 inend) O instart) t' := by
  obtain ⟨lmc, out, stats, best, bestcost, lastcost, ran, last, cur, without⟩ := t
  obtain ⟨o1, o2, o3, o4⟩ := hI
  dsimp only at o1 o2 o3 o4
  obtain ⟨s, hs, g⟩ := lz77OptimalRun_spec (L := L) hO o2.cost h1 h2
  have hsize := hs.size_le
  obtain ⟨lmc', hc', e⟩ := g lmc o1
  have e : lz77OptimalRun F lmc data instart inend (getCostStat F stats) Lz77Store.new = some (s, lmc') := e
  obtain ⟨cost, ec⟩ := calculateBlockSize_ret (F := F) hs.inv (Nat.zero_le _) (Nat.le_refl _) .dynamic
  unfold optimalStep at ht
  dsimp only at ht
  rw [e, some_bind] at ht
  dsimp only at ht
  rw [ec, some_bind] at ht
  generalize hbest : (if F.lt cost bestcost = true then stats else best) = best' at ht
  have hbest' : StatOk (2 * (inend - instart) + 2) best' := by
    rw [← hbest]
    split
    · exact o3
    · exact o4
  obtain ⟨⟨stats', ran', last'⟩, en, n1, n2⟩ := nextStats_spec L (n := inend - instart) (by omega) hs.inv hsize o3 hbest' cost lastcost (cur + 1) last ran
  rw [en, some_bind] at ht
  generalize (if F.lt cost bestcost = true then s else out) = out' at ht
  generalize (if F.lt cost bestcost = true then cost else bestcost) = bestcost' at ht
  generalize (if F.lt cost bestcost = true then 0 else without + 1) = without' at ht
  split at ht
  · cases ht
  · split at ht
    · cases ht
    · cases ht
      exact ⟨hc', n1, n2, hbest'⟩

theorem lz77Optimal_log {B : Nat} (h : Agree l B) (L : FloatLaws F) {data : Array UInt8} {instart inend : Nat} (h1 : instart ≤ inend)
    (h2 : inend ≤ data.size) (hsz : data.size < 2 * L.lim) (hn : 576 * (inend - instart + 1) < B) (mi mw : Nat) :
    lz77Optimal (F.withLog l) (.lmc (.new (inend - instart))) data instart inend mi mw =
      lz77Optimal F (.lmc (.new (inend - instart))) data instart inend mi mw := by
  obtain ⟨O, hO⟩ := oracle_exists (data.extract 0 inend) (instart - 32768)
  have hcache := cacheInv_new (data.extract 0 inend) O instart
  rw [show (data.extract 0 inend).size = inend by simp; omega] at hcache
  obtain ⟨s0, hs0, g0⟩ := greedy_spec hO h1 h2
  have hsize := hs0.size_le
  obtain ⟨st0, est, hst1, hst2⟩ := getStatistics_spec L (default_spec (F := F)) hs0.inv (by omega)
  have hst2 : StatOk (2 * (inend - instart) + 2) st0 := ⟨hst2.ll.mono (by omega), hst2.d.mono (by omega)⟩
  obtain ⟨lmc0, hc0, e0⟩ := g0 _ hcache
  have e0 : greedy Lz77Store.new (.lmc (.new (inend - instart))) data instart inend = some (s0, lmc0) := e0
  unfold lz77Optimal
  rw [e0, some_bind, some_bind]
  dsimp only
  refine Eq.trans (Option.map_id_apply (x := _)).symm ?_
  refine map_bind_map_inv (k := SymbolStats.re) (getStatistics_log h hn (s := SymbolStats.default (F.withLog l)) est hst2) fun s hs => ?_
  obtain rfl := Option.some.inj (est.symm.trans hs)
  rw [Option.map_id_apply]
  exact loopM_carry_inv OptimalState.re (OptInv L (inend - instart) (CacheInv (data.extract 0 inend) O instart))
    (fun s hs => optimalStep_log h L h1 h2 hsz hn hO mi mw s hs) (fun t t' hI ht => optInv_step L h1 h2 hsz hO mi mw t t' hI ht) _
    ⟨hc0, hst1, hst2, ⟨default_spec.ll.mono (by omega), default_spec.d.mono (by omega)⟩⟩

/-! ## The blocks -/

theorem optimizeParts_log {B : Nat} (h : Agree l B) (L : FloatLaws F) (options : Options) {data : Array UInt8} {instart inend : Nat} (h2 : inend ≤ data.size)
    (hsz : data.size < 2 * L.lim) (hn : 576 * (inend - instart + 1) < B) : ∀ (items : List Nat) (lz77 : Lz77Store) (sp : List Nat) (tc : F.F64) (last : Nat),
    instart ≤ last → items.Pairwise (· < ·) → (∀ x ∈ items, last < x ∧ x < inend) →
    optimizeParts (F.withLog l) options data items (lz77, sp, tc, last) = optimizeParts F options data items (lz77, sp, tc, last)
  | [], lz77, sp, tc, last, _, _, _ => rfl
  | item :: rest, lz77, sp, tc, last, h0, h3, h4 => by
    have hi := h4 item (by simp)
    rw [List.pairwise_cons] at h3
    unfold optimizeParts
    rw [usub_eq (by omega), some_bind, some_bind, lz77Optimal_log h L (by omega) (by omega) hsz (by omega)]
    refine bind_congr fun x => ?_
    refine bind_congr fun x => ?_
    refine bind_congr fun x => ?_
    refine bind_congr fun x => ?_
    exact optimizeParts_log h L options h2 hsz hn rest _ _ _ item (by omega) h3.2 (fun x hx => ⟨h3.1 x hx, (h4 x (by simp [hx])).2⟩)

theorem blocksplitPlan_log {B : Nat} (h : Agree l B) (L : FloatLaws F) (options : Options) {data : Array UInt8} {instart inend : Nat} (h1 : instart ≤ inend)
    (h2 : inend ≤ data.size) (hsz : data.size < 2 * L.lim) (hn : 576 * (inend - instart + 1) < B) :
    blocksplitPlan (F.withLog l) options data instart inend = blocksplitPlan F options data instart inend := by
  unfold blocksplitPlan
  obtain ⟨spu, e, a1, a2, a3⟩ := blocksplit_spec (F := F) h1 h2 options.maximumBlockSplits
  have e' : blocksplit (F.withLog l) data instart inend options.maximumBlockSplits = some spu := e
  rw [e, e', some_bind, some_bind, optimizeParts_log h L options h2 hsz hn spu _ _ _ instart (Nat.le_refl _) a1 a2]
  obtain ⟨⟨lz77, sp, tc, last⟩, e, b1, b2, b3, b4⟩ := optimizeParts_spec L options h2 hsz spu Lz77Store.new [] (F.ofUsize 0) instart a1 a2
    (StoreOk.new _ _) ⟨by simp, by simp⟩
  dsimp only at b1 b2 b3 b4
  have e' : optimizeParts F options data spu (Lz77Store.new, [], (F.withLog l).ofUsize 0, instart) = some (lz77, sp, tc, last) := e
  rw [e, e', some_bind, some_bind]
  dsimp only
  have hlast : last ≤ inend := by
    split at b4
    · omega
    · omega
  have hlast0 := b1.parses.le
  rw [usub_eq hlast, some_bind, some_bind, lz77Optimal_log h L hlast h2 hsz (by omega)]
  refine bind_congr fun x => ?_
  refine bind_congr fun x => ?_
  refine bind_congr fun x => ?_
  refine bind_congr fun lz => ?_
  split
  · refine bind_congr fun sp2 => ?_
    have e := totalCostOf_log (F := F) (l := l) lz sp2 0 (F.ofUsize 0)
    change totalCostOf (F.withLog l) lz sp2 0 ((F.withLog l).ofUsize 0) = _ at e
    rw [e]
  · rfl

/-- The blocks of a part with either logarithm. -/
theorem deflatePart_log {B : Nat} (h : Agree l B) (L : FloatLaws F) (options : Options) (bt : BlockType) (final : Bool) {data : Array UInt8}
    {instart inend : Nat} (h1 : instart ≤ inend) (h2 : inend ≤ data.size) (hsz : data.size < 2 * L.lim) (hn : 576 * (inend - instart + 1) < B) :
    deflatePart (F.withLog l) options bt final data instart inend = deflatePart F options bt final data instart inend := by
  cases bt with
  | uncompressed => rfl
  | fixed => exact deflatePart_no_log options (by decide) final data instart inend
  | dynamic =>
    unfold deflatePart
    simp only [blocksplitAttempt, blocksplitPlan_log h L options h1 h2 hsz hn, addAllBlocks, addSplitBlocks_log, addLz77BlockAutoType_log]

end Zopfli.LogBounded
