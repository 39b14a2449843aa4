import Verif.Proofs.Sizes
/-! # The passes of `lz77_optimal`: the best one is kept -/

namespace Zopfli
open Rfc

variable {F : FloatOps}

/-- The estimate of a dynamic block is a natural number. -/
theorem calculateBlockSize_nat (X : FloatExact F) {data : Array UInt8} {a b : Nat} {s : Lz77Store} (h : StoreOk data a b s) :
    ∃ n, n < 2 ^ 40 ∧ calculateBlockSize F s 0 s.size .dynamic = some (F.ofUsize n) := by
  obtain ⟨⟨n, ll, d⟩, e1, g1, ⟨t, g2, g3⟩, -⟩ := getDynamicLengths_spec h.inv (Nat.zero_le _) (Nat.le_refl s.size)
  dsimp only at g1 g2 g3
  have ht := calculateTreeSize_le g1 g2
  have hm : dataCost ll d ((s.litlens.toList.take s.size).drop 0) % 2 ^ 32 < 2 ^ 32 := Nat.mod_lt _ (by norm_num)
  refine ⟨n + 3, by omega, ?_⟩
  unfold calculateBlockSize
  dsimp only
  rw [e1, some_bind]
  show some (F.add (F.ofUsize n) (F.ofUsize 3)) = _
  rw [X.add _ _ (by omega)]

/-- One pass of `lz77_optimal`, whatever the limits and the cache. -/
structure Pass (F : FloatOps) (data : Array UInt8) (O : Oracle) (instart inend : Nat) (o : OCore F) (s : Lz77Store) (cost : Nat) (o' : OCore F) :
    Prop where
  store : StoreOk data instart inend s
  small : cost < 2 ^ 40
  size : calculateBlockSize F s 0 s.size .dynamic = some (F.ofUsize cost)
  cur : o'.currentIteration = o.currentIteration + 1
  out : o'.outputstore = if F.lt (F.ofUsize cost) o.bestcost = true then s else o.outputstore
  best : o'.bestcost = if F.lt (F.ofUsize cost) o.bestcost = true then F.ofUsize cost else o.bestcost
  without : o'.iterationsWithoutImprovement =
    if F.lt (F.ofUsize cost) o.bestcost = true then 0 else o.iterationsWithoutImprovement + 1
  lastc : o'.lastcost = F.ofUsize cost
  beststats : o'.beststats = if F.lt (F.ofUsize cost) o.bestcost = true then o.stats else o.beststats
  next : nextStats F s (F.ofUsize cost) o.lastcost (o.currentIteration + 1) o.lastrandomstep o.stats o'.beststats o.ranState =
    some (o'.stats, o'.ranState, o'.lastrandomstep)
  run : ∀ lmc, CacheInv (data.extract 0 inend) O instart lmc → ∃ lmc', CacheInv (data.extract 0 inend) O instart lmc' ∧
    lz77OptimalRun F lmc data instart inend (getCostStat F o.stats) Lz77Store.new = some (s, lmc')
  step : ∀ maxIt maxWithout lmc, CacheInv (data.extract 0 inend) O instart lmc → ∃ lmc', CacheInv (data.extract 0 inend) O instart lmc' ∧
    optimalStep F data instart inend maxIt maxWithout (o.with lmc) =
      if ¬ F.lt (F.ofUsize cost) o.bestcost = true ∧ o'.iterationsWithoutImprovement ≥ maxWithout then some (.inr o'.outputstore)
      else if o'.currentIteration ≥ maxIt then some (.inr o'.outputstore)
      else some (.inl (o'.with lmc'))

theorem pass_exists (L : FloatLaws F) (X : FloatExact F) {O : Oracle} {data : Array UInt8} {instart inend : Nat}
    (hO : IsOracle (data.extract 0 inend) (instart - 32768) O) (h1 : instart ≤ inend) (h2 : inend ≤ data.size) (hsz : data.size < 2 * L.lim)
    (o : OCore F) (ho : OInv L data instart inend o) :
    ∃ s cost o', OInv L data instart inend o' ∧ Pass F data O instart inend o s cost o' := by
  obtain ⟨out, stats, best, bestcost, lastcost, ran, last, cur, without⟩ := o
  obtain ⟨s, hs, g⟩ := lz77OptimalRun_spec (L := L) hO ho.ent.cost h1 h2
  have hsize := hs.size_le
  obtain ⟨n, hn, ec⟩ := calculateBlockSize_nat X hs
  have hlt := calculateBlockSize_lt_inf L ec
  generalize hcost : F.ofUsize n = cost at ec hlt
  generalize hout : (if F.lt cost bestcost = true then s else out) = out'
  generalize hbest : (if F.lt cost bestcost = true then stats else best) = best'
  generalize hbc : (if F.lt cost bestcost = true then cost else bestcost) = bestcost'
  generalize hwo : (if F.lt cost bestcost = true then 0 else without + 1) = without'
  have hout' : StoreOk data instart inend out' := by
    rw [← hout]
    split
    · exact hs
    · rename_i hn
      refine ho.later fun h0 => hn ?_
      have := ho.first h0
      dsimp only at this
      rw [this]; exact hlt
  have hbest' : StatOk (2 * (inend - instart) + 2) best' := by
    rw [← hbest]
    split
    · exact ho.cnt
    · exact ho.best
  obtain ⟨⟨stats', ran', last'⟩, en, n1, n2⟩ := nextStats_spec L (n := inend - instart) (by omega) hs.inv hsize ho.cnt hbest' cost lastcost (cur + 1) last ran
  refine ⟨s, n, ⟨out', stats', best', bestcost', cost, ran', last', cur + 1, without'⟩,
    ⟨n1, n2, hbest', fun h => absurd h (Nat.succ_ne_zero _), fun _ => hout'⟩, hs, hn, by rw [hcost]; exact ec, rfl, ?_, ?_, ?_, ?_, ?_, ?_, g, ?_⟩
  · rw [hcost]; exact hout.symm
  · rw [hcost]; exact hbc.symm
  · rw [hcost]; exact hwo.symm
  · exact hcost.symm
  · rw [hcost]; exact hbest.symm
  · rw [hcost]; exact en
  · intro maxIt maxWithout lmc hc
    obtain ⟨lmc', hc', e⟩ := g lmc hc
    have e : lz77OptimalRun F lmc data instart inend (getCostStat F stats) Lz77Store.new = some (s, lmc') := e
    refine ⟨lmc', hc', ?_⟩
    rw [hcost]
    show optimalStep F data instart inend maxIt maxWithout ⟨lmc, out, stats, best, bestcost, lastcost, ran, last, cur, without⟩ = _
    rw [optimalStep, e, some_bind]
    dsimp only
    rw [ec, some_bind, hout, hbest, hbc, hwo]
    by_cases hstop : ¬ F.lt cost bestcost = true ∧ without' ≥ maxWithout
    · rw [if_pos hstop, if_pos hstop]; rfl
    · rw [if_neg hstop, if_neg hstop]
      by_cases hmax : cur + 1 ≥ maxIt
      · rw [if_pos hmax, if_pos hmax]; rfl
      · rw [if_neg hmax, if_neg hmax, en, some_bind]; rfl

/-- What is known before pass `k`. -/
structure Before (F : FloatOps) (store : Nat → Lz77Store) (cost : Nat → Nat) (k : Nat) (o : OCore F) : Prop where
  cur : o.currentIteration = k
  first : k = 0 → o.bestcost = F.inf
  later : k ≠ 0 → ∃ b, b < k ∧ o.outputstore = store b ∧ o.bestcost = F.ofUsize (cost b) ∧ o.iterationsWithoutImprovement = k - 1 - b ∧
    (∀ i, i < k → cost b ≤ cost i) ∧ ∀ i, i < b → cost b < cost i

/-- The state before the first pass. -/
structure Begin (F : FloatOps) (data : Array UInt8) (O : Oracle) (instart inend : Nat) (o : OCore F) : Prop where
  stats : ∃ s0, StoreOk data instart inend s0 ∧ (SymbolStats.default F).getStatistics s0 = some o.stats ∧
    ∀ lmc, CacheInv (data.extract 0 inend) O instart lmc → ∃ lmc', CacheInv (data.extract 0 inend) O instart lmc' ∧
      greedy Lz77Store.new lmc data instart inend = some (s0, lmc')
  best : o.bestcost = F.inf
  last : o.lastrandomstep = none
  lastc : o.lastcost = F.ofUsize 0
  cur : o.currentIteration = 0

/-- The sequence of passes depends neither on the limits nor on the cache; the best pass run is the result. -/
theorem lz77Optimal_core (L : FloatLaws F) (X : FloatExact F) {O : Oracle} {data : Array UInt8} {instart inend : Nat}
    (hO : IsOracle (data.extract 0 inend) (instart - 32768) O) (h1 : instart ≤ inend) (h2 : inend ≤ data.size) (hsz : data.size < 2 * L.lim) :
    ∃ (core : Nat → OCore F) (store : Nat → Lz77Store) (cost : Nat → Nat),
      Begin F data O instart inend (core 0) ∧
      (∀ k, OInv L data instart inend (core k) ∧ Pass F data O instart inend (core k) (store k) (cost k) (core (k + 1)) ∧ Before F store cost k (core k)) ∧
      ∀ maxIt maxWithout, ∃ n b, b < n ∧ n ≤ max 1 maxIt ∧
        (∀ i, i < n → cost b ≤ cost i) ∧ (∀ i, i < b → cost b < cost i) ∧
        (n = max 1 maxIt ∨ n = b + 1 + max 1 maxWithout) ∧
        (∀ m, 1 ≤ m → m < n → ∃ i, i < m ∧ m < i + 1 + max 1 maxWithout ∧ ∀ j, j < i → cost i < cost j) ∧
        ∀ lmc, CacheInv (data.extract 0 inend) O instart lmc → lz77Optimal F lmc data instart inend maxIt maxWithout = some (store b) := by
  classical
  obtain ⟨s0, hs0, g0⟩ := greedy_spec hO h1 h2
  have hsize := hs0.size_le
  obtain ⟨st0, est, hst1, hst2⟩ := getStatistics_spec L (default_spec (F := F)) hs0.inv (by omega)
  have hst2 : StatOk (2 * (inend - instart) + 2) st0 := ⟨hst2.ll.mono (by omega), hst2.d.mono (by omega)⟩
  let o0 : {o : OCore F // OInv L data instart inend o} := ⟨⟨Lz77Store.new, st0, .default F, F.inf, F.ofUsize 0, .new, none, 0, 0⟩,
    ⟨hst1, hst2, ⟨default_spec.ll.mono (by omega), default_spec.d.mono (by omega)⟩, fun _ => rfl, fun h => absurd rfl h⟩⟩
  have hnext : ∀ o : {o : OCore F // OInv L data instart inend o}, ∃ p : Lz77Store × Nat × {o : OCore F // OInv L data instart inend o},
      Pass F data O instart inend o.1 p.1 p.2.1 p.2.2.1 := by
    rintro ⟨o, ho⟩
    obtain ⟨s, c, o', ho', hp⟩ := pass_exists L X hO h1 h2 hsz o ho
    exact ⟨⟨s, c, o', ho'⟩, hp⟩
  choose next hnext using hnext
  let core : Nat → {o : OCore F // OInv L data instart inend o} := fun k => Nat.rec o0 (fun _ o => (next o).2.2) k
  let store : Nat → Lz77Store := fun k => (next (core k)).1
  let cost : Nat → Nat := fun k => (next (core k)).2.1
  have hp : ∀ k, Pass F data O instart inend (core k).1 (store k) (cost k) (core (k + 1)).1 := fun k => hnext (core k)
  have himp : ∀ k, Before F store cost k (core k).1 →
      (F.lt (F.ofUsize (cost k)) (core k).1.bestcost = true ↔ ∀ i, i < k → cost k < cost i) := by
    intro k hb
    by_cases hk : k = 0
    · subst hk
      rw [hb.first rfl]
      refine ⟨fun _ i hi => absurd hi (Nat.not_lt_zero _), fun _ => ?_⟩
      exact calculateBlockSize_lt_inf L (hp 0).size
    · obtain ⟨b, b1, b2, b3, b4, b5, b6⟩ := hb.later hk
      have := (hp k).small
      have := (hp b).small
      rw [b3, X.lt _ _ (by omega) (by omega), decide_eq_true_iff]
      exact ⟨fun h i hi => by have := b5 i hi; omega, fun h => h b b1⟩
  have hbefore : ∀ k, Before F store cost k (core k).1 := by
    intro k
    induction k with
    | zero => exact ⟨rfl, fun _ => rfl, fun h => absurd rfl h⟩
    | succ k ih =>
      have hi := himp k ih
      refine ⟨by rw [(hp k).cur, ih.cur], fun h => absurd h (Nat.succ_ne_zero _), fun _ => ?_⟩
      by_cases hlt : F.lt (F.ofUsize (cost k)) (core k).1.bestcost = true
      · have hall := hi.1 hlt
        refine ⟨k, by omega, ?_, ?_, ?_, ?_, hall⟩
        · rw [(hp k).out, if_pos hlt]
        · rw [(hp k).best, if_pos hlt]
        · rw [(hp k).without, if_pos hlt]; omega
        · intro i hik
          rcases Nat.lt_or_eq_of_le (Nat.lt_succ_iff.1 hik) with h | h
          · exact Nat.le_of_lt (hall i h)
          · rw [h]
      · have hk : k ≠ 0 := by
          rintro rfl
          exact hlt (hi.2 fun i hi => absurd hi (Nat.not_lt_zero _))
        obtain ⟨b, b1, b2, b3, b4, b5, b6⟩ := ih.later hk
        refine ⟨b, by omega, ?_, ?_, ?_, ?_, b6⟩
        · rw [(hp k).out, if_neg hlt, b2]
        · rw [(hp k).best, if_neg hlt, b3]
        · rw [(hp k).without, if_neg hlt, b4]; omega
        · intro i hik
          rcases Nat.lt_or_eq_of_le (Nat.lt_succ_iff.1 hik) with h | h
          · exact b5 i h
          · rw [h]
            by_contra hcon
            exact hlt (hi.2 fun j hj => by have := b5 j hj; omega)
  refine ⟨fun k => (core k).1, store, cost, ⟨⟨s0, hs0, est, g0⟩, rfl, rfl, rfl, rfl⟩, fun k => ⟨(core k).2, hp k, hbefore k⟩, fun maxIt maxWithout => ?_⟩
  -- the loop from pass `k` on
  have hloop : ∀ (d k : Nat), max 1 maxIt - k = d → k < max 1 maxIt →
      (∀ m, 1 ≤ m → m ≤ k → ∃ i, i < m ∧ m < i + 1 + max 1 maxWithout ∧ ∀ j, j < i → cost i < cost j) →
      ∃ n b, b < n ∧ n ≤ max 1 maxIt ∧
        (∀ i, i < n → cost b ≤ cost i) ∧ (∀ i, i < b → cost b < cost i) ∧
        (n = max 1 maxIt ∨ n = b + 1 + max 1 maxWithout) ∧
        (∀ m, 1 ≤ m → m < n → ∃ i, i < m ∧ m < i + 1 + max 1 maxWithout ∧ ∀ j, j < i → cost i < cost j) ∧
        ∀ lmc, CacheInv (data.extract 0 inend) O instart lmc →
          loopM (optimalStep F data instart inend maxIt maxWithout) ((core k).1.with lmc) = some (store b) := by
    intro d
    induction d with
    | zero => intro k h h'; omega
    | succ d ih =>
      intro k hd hk hm
      have hb := hbefore k
      have hi := himp k hb
      obtain ⟨b, b1, b2, b3, b4, b5, b6⟩ := (hbefore (k + 1)).later (Nat.succ_ne_zero _)
      have hcur : (core (k + 1)).1.currentIteration = k + 1 := (hbefore (k + 1)).cur
      -- an improvement is the best so far
      have hbk : F.lt (F.ofUsize (cost k)) (core k).1.bestcost = true ↔ b = k := by
        constructor
        · intro h
          have := hi.1 h
          by_contra hne
          have h3 := this b (by omega)
          have h4 := b5 k (by omega)
          omega
        · rintro rfl
          exact hi.2 b6
      have hnstop : ¬ (¬ F.lt (F.ofUsize (cost k)) (core k).1.bestcost = true ∧ (core (k + 1)).1.iterationsWithoutImprovement ≥ maxWithout) →
          k + 1 < b + 1 + max 1 maxWithout := by
        intro h
        rw [hbk, b4] at h
        rcases Nat.lt_or_ge k (b + 1) with h' | h' <;> omega
      by_cases hstop : ¬ F.lt (F.ofUsize (cost k)) (core k).1.bestcost = true ∧ (core (k + 1)).1.iterationsWithoutImprovement ≥ maxWithout
      · refine ⟨k + 1, b, b1, by omega, b5, b6, Or.inr ?_, fun m h1 h2 => hm m h1 (by omega), fun lmc hc => ?_⟩
        · have h3 := hstop.2
          have h4 := hstop.1
          rw [hbk] at h4
          rw [b4] at h3
          -- the limit was not reached before
          by_cases hk0 : k = 0
          · omega
          obtain ⟨i, i1, i2, i3⟩ := hm k (by omega) (Nat.le_refl _)
          have hib : i ≤ b := by
            by_contra hcon
            have h5 := i3 b (by omega)
            have h6 := b5 i (by omega)
            omega
          omega
        · obtain ⟨lmc', -, e⟩ := (hp k).step maxIt maxWithout lmc hc
          rw [if_pos hstop] at e
          rw [loopM.eq_1, e, ← b2]
          rfl
      · have hns := hnstop hstop
        by_cases hmax : k + 1 ≥ maxIt
        · refine ⟨k + 1, b, b1, by omega, b5, b6, Or.inl (by omega), fun m h1 h2 => hm m h1 (by omega), fun lmc hc => ?_⟩
          obtain ⟨lmc', -, e⟩ := (hp k).step maxIt maxWithout lmc hc
          rw [if_neg hstop, hcur, if_pos hmax] at e
          rw [loopM.eq_1, e, ← b2]
          rfl
        · obtain ⟨n, b', r1, r2, r3, r4, r5, r6, r7⟩ := ih (k + 1) (by omega) (by omega) (fun m h1 h2 => by
            rcases Nat.lt_or_eq_of_le h2 with h | h
            · exact hm m h1 (by omega)
            · exact ⟨b, by omega, by omega, b6⟩)
          refine ⟨n, b', r1, r2, r3, r4, r5, r6, fun lmc hc => ?_⟩
          obtain ⟨lmc', hc', e⟩ := (hp k).step maxIt maxWithout lmc hc
          rw [if_neg hstop, hcur, if_neg hmax] at e
          rw [loopM.eq_1, e]
          exact r7 lmc' hc'
  obtain ⟨n, b, r1, r2, r3, r4, r5, r6, r7⟩ := hloop _ 0 rfl (by omega) (fun m h1 h2 => by omega)
  refine ⟨n, b, r1, r2, r3, r4, r5, r6, fun lmc hc => ?_⟩
  obtain ⟨lmc', hc', e⟩ := g0 lmc hc
  have e : greedy Lz77Store.new lmc data instart inend = some (s0, lmc') := e
  rw [lz77Optimal, e, some_bind]
  dsimp only
  rw [est, some_bind]
  exact r7 lmc' hc'

/-- The sequence of passes depends neither on the limits nor on the cache; the best pass run is the result. -/
theorem lz77Optimal_passes (L : FloatLaws F) (X : FloatExact F) {O : Oracle} {data : Array UInt8} {instart inend : Nat}
    (hO : IsOracle (data.extract 0 inend) (instart - 32768) O) (h1 : instart ≤ inend) (h2 : inend ≤ data.size) (hsz : data.size < 2 * L.lim) :
    ∃ (store : Nat → Lz77Store) (cost : Nat → Nat),
      (∀ k, StoreOk data instart inend (store k) ∧ calculateBlockSize F (store k) 0 (store k).size .dynamic = some (F.ofUsize (cost k)) ∧
        cost k < 2 ^ 40) ∧
      ∀ maxIt maxWithout, ∃ n b, b < n ∧ n ≤ max 1 maxIt ∧
        (∀ i, i < n → cost b ≤ cost i) ∧ (∀ i, i < b → cost b < cost i) ∧
        (n = max 1 maxIt ∨ n = b + 1 + max 1 maxWithout) ∧
        (∀ m, 1 ≤ m → m < n → ∃ i, i < m ∧ m < i + 1 + max 1 maxWithout ∧ ∀ j, j < i → cost i < cost j) ∧
        ∀ lmc, CacheInv (data.extract 0 inend) O instart lmc → lz77Optimal F lmc data instart inend maxIt maxWithout = some (store b) := by
  obtain ⟨_, store, cost, -, hp, h⟩ := lz77Optimal_core L X hO h1 h2 hsz
  exact ⟨store, cost, fun k => ⟨(hp k).2.1.store, (hp k).2.1.size, (hp k).2.1.small⟩, h⟩

end Zopfli
