import Verif.Proofs.StatHistory
import Verif.Props.Parsing
import Verif.Props.FixedOptimal
import Verif.Props.Math
/-!
# C52: every pass finds a cheapest parse, up to rounding
-/

namespace Zopfli
open Fp Rfc

attribute [local irreducible] llCounts dCounts halfMixed

variable {log2 : Fp → Fp}

/-- What `nextStats` does. -/
theorem nextStats_cases {s : Lz77Store} {cost prev k : Nat} {last last' : Option Nat} {stats best stats' : SymbolStats (ieee log2)} {st st' : RanState} {B : Nat}
    (hB : B < 2 ^ 50) (hr : ∀ x ∈ s.litlens.toList, x.InRange) (hc : cost < 2 ^ 40) (hp : prev < 2 ^ 40) (hstats : StatOk B stats) (hbest : best.litlens[256]? = some 1)
    (hcnt : ∀ s', stats.clearFreqs.getStatistics s = some s' → StatOk B s')
    (e : nextStats (ieee log2) s ((ieee log2).ofUsize cost) ((ieee log2).ofUsize prev) (k + 1) last stats best st = some (stats', st', last')) :
    CostsOf log2 stats'.litlens stats'.dists stats' ∧ stats'.litlens[256]? = some 1 ∧
      ((5 ≤ k ∧ cost = prev) → last' ≠ none ∧ Shuffled best.litlens stats'.litlens ∧ Shuffled best.dists stats'.dists) ∧
      (¬ (5 ≤ k ∧ cost = prev) → last' = last ∧ (last ≠ none → (stats'.litlens, stats'.dists) = halfMixed s.litlens.toList stats.litlens stats.dists) ∧
        (last = none → (stats'.litlens, stats'.dists) = (llCounts s.litlens.toList, dCounts s.litlens.toList))) := by
  unfold nextStats at e
  dsimp only at e
  cases e1 : stats.clearFreqs.getStatistics s with
  | none => rw [e1] at e; cases e
  | some s1 =>
    rw [e1, some_bind] at e
    obtain ⟨g1, g2, g3, g4⟩ := getStatistics_exact (s := stats.clearFreqs) rfl rfl hr e1
    have hs1 := hcnt s1 e1
    have hl1 : (llCounts s.litlens.toList)[256]? = some 1 := by unfold llCounts; rw [Array.getElem?_ofFn]; simp
    obtain ⟨s2, e2, k1, k2, k3, k4⟩ : ∃ s2, (if last ≠ none then do some (← addWeighedStatFreqs (ieee log2) s1 stats).calculateEntropy else some s1) = some s2 ∧
        CostsOf log2 s2.litlens s2.dists s2 ∧ s2.litlens[256]? = some 1 ∧
        (last ≠ none → (s2.litlens, s2.dists) = halfMixed s.litlens.toList stats.litlens stats.dists) ∧
        (last = none → (s2.litlens, s2.dists) = (llCounts s.litlens.toList, dCounts s.litlens.toList)) := by
      by_cases hl : last ≠ none
      · rw [if_pos hl] at e ⊢
        cases e3 : addWeighedStatFreqs (ieee log2) s1 stats with
        | none => rw [e3] at e; cases e
        | some s3 =>
          have := addWeighed_exact hB g1 g2 hs1 hstats e3
          refine ⟨_, rfl, ⟨rfl, rfl⟩, ?_, fun _ => this, fun h => absurd h hl⟩
          have h2 : s3.litlens = (halfMixed s.litlens.toList stats.litlens stats.dists).1 := congrArg Prod.fst this
          show s3.litlens[256]? = some 1
          rw [h2]
          unfold halfMixed
          rw [Array.getElem?_ofFn]
          simp
      · rw [if_neg hl]
        refine ⟨s1, rfl, ⟨g3, g4⟩, by rw [g1]; exact hl1, fun h => absurd h hl, fun _ => by rw [g1, g2]⟩
    rw [e2, some_bind] at e
    have hiff : (k + 1 > 5 ∧ (ieee log2).lt ((ieee log2).abs ((ieee log2).sub ((ieee log2).ofUsize cost) ((ieee log2).ofUsize prev))) (ieee log2).eps = true) ↔
        (5 ≤ k ∧ cost = prev) := by
      rw [same_cost log2 hc hp]
      omega
    by_cases hst : 5 ≤ k ∧ cost = prev
    · rw [if_pos (hiff.mpr hst)] at e
      cases e4 : best.randomizeStatFreqs st with
      | none => rw [e4] at e; cases e
      | some r =>
        rw [e4, some_bind] at e
        cases e
        obtain ⟨m1, m2, m3⟩ := randomize_shuffled hbest e4
        exact ⟨⟨rfl, rfl⟩, m3, fun _ => ⟨by simp, m1, m2⟩, fun h => absurd hst h⟩
    · rw [if_neg (fun h => hst (hiff.mp h))] at e
      cases e
      exact ⟨k1, k2, fun h => absurd h hst, fun _ => ⟨rfl, k3, k4⟩⟩

theorem tally_of {B L : Nat} (hB : 288 * B < L) {s : SymbolStats (ieee log2)} (h : StatOk B s) : TallyOk L s.litlens s.dists := by
  have hsum : ∀ {n : Nat} {a : Array Nat}, Bdd n B a → n ≤ 288 → a.toList.sum < L := by
    intro n a h hn
    have := list_sum_le (B := B) a.toList fun x hx => by
      obtain ⟨i, hi, e⟩ := List.mem_iff_getElem.mp hx
      refine h.2 i x ?_
      rw [Array.getElem?_eq_some_iff]
      exact ⟨by simpa using hi, by simpa using e⟩
    rw [Array.length_toList, h.1] at this
    have : n * B ≤ 288 * B := Nat.mul_le_mul_right B hn
    omega
  exact ⟨h.ll.1, h.d.1, hsum h.ll (by omega), hsum h.d (by omega)⟩

/-- What is known of the counts before pass `k`. -/
structure CountsBefore (log2 : Fp → Fp) (cost : Nat → Nat) (core : Nat → OCore (ieee log2)) (k : Nat) : Prop where
  costs : CostsOf log2 (core k).stats.litlens (core k).stats.dists (core k).stats
  one : (core k).stats.litlens[256]? = some 1
  last : (core k).lastrandomstep ≠ none ↔ ∃ j, j < k ∧ Stalled cost j
  prev : k ≠ 0 → (core k).lastcost = (ieee log2).ofUsize (cost (k - 1))
  best : k ≠ 0 → ∃ b, b < k ∧ (core k).beststats = (core b).stats ∧ (∀ i, i < k → cost b ≤ cost i) ∧ ∀ i, i < b → cost b < cost i

theorem plain_of' {arr : Array UInt8} {pos : Nat} (h : Searchable arr pos) : Plain arr pos := ⟨h.few, fun _ => h.run257, fun _ => h.run258⟩

theorem no_long_run {arr : Array UInt8} {start : Nat} (h : ∀ pos, start ≤ pos → pos < arr.size → runLength arr pos ≤ 775) (t : Nat) (ht : start ≤ t) : ¬ Run arr t 775 := by
  intro hr
  have hlt : t < arr.size := by have := hr.1; omega
  have := (run_iff (data := arr) (q := t) 775 hlt).mp hr
  have := h t ht hlt
  omega

theorem ItemOk.extract {data : Array UInt8} {e pos : Nat} {x : LitLen} (h : ItemOk data pos x) (he : pos + x.size ≤ e) : ItemOk (data.extract 0 e) pos x := by
  cases x with
  | literal b =>
    obtain ⟨u, h1, h2⟩ := h
    have := (Array.getElem?_eq_some_iff.mp h1).1
    have he : pos + 1 ≤ e := he
    exact ⟨u, by rw [Array.getElem?_extract, Nat.zero_add, if_pos (by omega)]; exact h1, h2⟩
  | lengthDist len dist =>
    obtain ⟨h1, h2, h3, h4, h5, h6, h7⟩ := h
    have he : pos + len ≤ e := he
    refine ⟨h1, h2, h3, h4, h5, by rw [Array.size_extract]; omega, fun k hk => ?_⟩
    rw [Array.getElem?_extract, Array.getElem?_extract, Nat.zero_add, Nat.zero_add, if_pos (by omega), if_pos (by omega)]
    exact h7 k hk

theorem Parses.extract {data : Array UInt8} {e : Nat} : ∀ {xs : List LitLen} {a b : Nat}, Parses data a xs b → b ≤ e → Parses (data.extract 0 e) a xs b
  | [], _, _, h, _ => h
  | _ :: _, _, _, h, hb => ⟨h.1.extract (h.2.le.trans hb), h.2.extract hb⟩

theorem estimateAll_nonneg (hlog : Log2Ok log2) {L : Nat} (hmono : Log2Up log2 L) {ll d : Array Nat} (hk : TallyOk L ll d) (xs : List LitLen) : 0 ≤ estimateAll (lgOf log2) ll d xs := by
  refine List.sum_nonneg fun x hx => ?_
  obtain ⟨y, -, rfl⟩ := List.mem_map.mp hx
  exact estimate_nonneg hlog hmono hk y

/-- **C52** For any range of any data and any limits: with the passes of C30, every pass is a cheapest parse of the range, up to rounding,
by the costs it estimates (`log2 (total / count)` bits for a symbol, and the extra bits), among the parses whose copies come from the
nearest place; and the counts for these costs are those of the pass before it (or as `PassCounts` says).  Provided that the match
finder does not have to give up in the range and no 776 equal bytes are in it. -/
theorem C52_cheapest_passes (hlog : Log2Ok log2) {lim : Nat} (hge : 2 ^ 10 ≤ lim) (hle : lim ≤ 2 ^ 47) (hmono : Log2Mono log2 (2 ^ 11 * lim))
    (data : Array UInt8) (start stop : Nat) (h1 : start ≤ stop) (h2 : stop ≤ data.size) (hsz : data.size < lim) :
    ∃ (g : Lz77Store) (pass : Nat → Lz77Store) (size : Nat → Nat) (ll d : Nat → Array Nat),
      (∃ cache, greedy Lz77Store.new (.lmc (.new (stop - start))) data start stop = some (g, cache)) ∧
      (∀ k, calculateBlockSize (ieee log2) (pass k) 0 (pass k).size .dynamic = some (Fp.fin (size k))) ∧
      (∀ iterations withoutImprovement, 1 ≤ iterations → 1 ≤ withoutImprovement → ∃ n best, best < n ∧ n ≤ iterations ∧
        lz77Optimal (ieee log2) (.lmc (.new (stop - start))) data start stop iterations withoutImprovement = some (pass best) ∧
        (∀ i, i < n → size best ≤ size i) ∧ (∀ i, i < best → size best < size i) ∧
        (n = iterations ∨ n = best + 1 + withoutImprovement)) ∧
      PassCounts g.litlens.toList (fun k => (pass k).litlens.toList) size ll d ∧
      ((∀ pos, start ≤ pos → pos < stop → Searchable (data.extract 0 stop) pos ∧ runLength (data.extract 0 stop) pos ≤ 775) →
        ∀ k, CheapestNearest (lgOf log2) (ll k) (d k) (data.extract 0 stop) start stop (pass k).litlens.toList) := by
  have hsize : (data.extract 0 stop).size = stop := by simp; omega
  have hmono : Log2Up log2 (2 ^ 11 * lim) := ⟨hmono, by omega, by omega⟩
  obtain ⟨O, hO⟩ := oracle_exists (data.extract 0 stop) (start - 32768)
  have hc := cacheInv_new (data.extract 0 stop) O start
  rw [hsize] at hc
  obtain ⟨core, pass, size, hbeg, hp, hr⟩ := lz77Optimal_core (ieeeLaws hlog) (ieee_exact log2) hO h1 h2 (ieee_size hlog (Nat.lt_trans hsz (by omega)))
  obtain ⟨g, hg1, hg2, hg3⟩ := hbeg.stats
  have hB : 2 * (stop - start) + 2 < 2 ^ 50 := by omega
  have hgs := getStatistics_exact (s := SymbolStats.default (ieee log2)) rfl rfl hg1.inv.range hg2
  have hl1 : ∀ xs, (llCounts xs)[256]? = some 1 := fun xs => by unfold llCounts; rw [Array.getElem?_ofFn]; simp
  have hsmall : ∀ k, size k < 2 ^ 40 := fun k => (hp k).2.1.small
  have hcnt : ∀ k s', (core k).stats.clearFreqs.getStatistics (pass k) = some s' → StatOk (2 * (stop - start) + 2) s' := by
    intro k s' e
    have hs := (hp k).2.1.store
    have hsl := hs.size_le
    obtain ⟨s'', e', -, g2⟩ := getStatistics_spec (ieeeLaws hlog) (clearFreqs_spec (core k).stats) hs.inv (by rw [ieeeLaws_lim]; omega)
    cases e'.symm.trans e
    exact ⟨g2.ll.mono (by omega), g2.d.mono (by omega)⟩
  -- what a pass does to the counts
  have hnext : ∀ k, CountsBefore log2 size core k → ∃ b, b ≤ k ∧ (core (k + 1)).beststats = (core b).stats ∧ (∀ i, i ≤ k → size b ≤ size i) ∧ (∀ i, i < b → size b < size i) := by
    intro k hk
    have hb := (hp (k + 1)).2.2.later (Nat.succ_ne_zero _)
    have hbs := (hp k).2.1.beststats
    by_cases hlt : (ieee log2).lt ((ieee log2).ofUsize (size k)) (core k).bestcost = true
    · rw [if_pos hlt] at hbs
      refine ⟨k, Nat.le_refl _, hbs, ?_⟩
      obtain ⟨b, b1, -, b3, -, b5, b6⟩ := hb
      have hbc := (hp k).2.1.best
      rw [if_pos hlt, b3] at hbc
      have := hsmall b
      have := hsmall k
      have hbc : (Fp.fin (size b : ℚ)) = Fp.fin (size k : ℚ) := by
        have h := hbc
        rw [ieee_ofUsize_small _ (by omega), ieee_ofUsize_small _ (by omega)] at h
        exact h
      have hbc : size b = size k := by exact_mod_cast Fp.fin.inj hbc
      have hbk : b = k := by
        by_contra hne
        have hb2 : b < k := by omega
        by_cases hk0 : k = 0
        · omega
        · obtain ⟨b', c1, -, c3, -, c5, -⟩ := (hp k).2.2.later hk0
          have := hsmall b'
          rw [c3, (ieee_exact log2).lt _ _ (by omega) (by omega), decide_eq_true_iff] at hlt
          have := c5 b hb2
          omega
      subst hbk
      exact ⟨fun i hi => b5 i (by omega), b6⟩
    · rw [if_neg hlt] at hbs
      have hk0 : k ≠ 0 := by
        rintro rfl
        apply hlt
        rw [hbeg.best]
        exact (ieee_exact log2).lt_inf _ (by have := hsmall 0; omega)
      obtain ⟨b, b1, b2, b3, b4⟩ := hk.best hk0
      refine ⟨b, by omega, by rw [hbs, b2], fun i hi => ?_, b4⟩
      rcases Nat.lt_or_eq_of_le hi with h | h
      · exact b3 i h
      · subst h
        obtain ⟨b', c1, -, c3, -, c5, -⟩ := (hp i).2.2.later hk0
        have := hsmall b'
        have := hsmall i
        rw [c3, (ieee_exact log2).lt _ _ (by omega) (by omega), decide_eq_true_iff] at hlt
        have := b3 b' c1
        omega
  have hstep : ∀ k, CountsBefore log2 size core k → (k ≠ 0 → ∀ j, j < k → (core j).stats.litlens[256]? = some 1) →
      CostsOf log2 (core (k + 1)).stats.litlens (core (k + 1)).stats.dists (core (k + 1)).stats ∧ (core (k + 1)).stats.litlens[256]? = some 1 ∧
      (Stalled size k → (core (k + 1)).lastrandomstep ≠ none ∧ ∃ b, b ≤ k ∧ (∀ i, i ≤ k → size b ≤ size i) ∧ (∀ i, i < b → size b < size i) ∧
        Shuffled (core b).stats.litlens (core (k + 1)).stats.litlens ∧ Shuffled (core b).stats.dists (core (k + 1)).stats.dists) ∧
      (¬ Stalled size k → (core (k + 1)).lastrandomstep = (core k).lastrandomstep ∧
        ((core k).lastrandomstep ≠ none → ((core (k + 1)).stats.litlens, (core (k + 1)).stats.dists) =
          halfMixed (pass k).litlens.toList (core k).stats.litlens (core k).stats.dists) ∧
        ((core k).lastrandomstep = none → ((core (k + 1)).stats.litlens, (core (k + 1)).stats.dists) =
          (llCounts (pass k).litlens.toList, dCounts (pass k).litlens.toList))) := by
    intro k hk hone
    obtain ⟨b, b1, b2, b3, b4⟩ := hnext k hk
    have e := (hp k).2.1.next
    have hcur := (hp k).2.2.cur
    have hbest : (core (k + 1)).beststats.litlens[256]? = some 1 := by
      rw [b2]
      rcases Nat.lt_or_eq_of_le b1 with h | h
      · exact hone (by omega) b h
      · rw [h]; exact hk.one
    obtain ⟨prev, hprev1, hprev2, hprev3⟩ : ∃ prev, prev < 2 ^ 40 ∧ (core k).lastcost = (ieee log2).ofUsize prev ∧ (5 ≤ k → prev = size (k - 1)) := by
      by_cases hk0 : k = 0
      · subst hk0
        exact ⟨0, by omega, hbeg.lastc, fun h => by omega⟩
      · exact ⟨size (k - 1), hsmall _, hk.prev hk0, fun _ => rfl⟩
    rw [hcur, hprev2] at e
    obtain ⟨r1, r2, r3, r4⟩ := nextStats_cases hB (hp k).2.1.store.inv.range (hsmall k) hprev1 (hp k).1.cnt hbest (hcnt k) e
    have hiff : Stalled size k ↔ 5 ≤ k ∧ size k = prev := by
      unfold Stalled
      constructor
      · rintro ⟨a, b⟩; exact ⟨a, by rw [hprev3 a]; exact b⟩
      · rintro ⟨a, b⟩; exact ⟨a, by rw [← hprev3 a]; exact b⟩
    rw [hiff]
    refine ⟨r1, r2, fun h => ?_, r4⟩
    obtain ⟨q1, q2, q3⟩ := r3 h
    rw [b2] at q2 q3
    exact ⟨q1, b, b1, b3, b4, q2, q3⟩
  have hall : ∀ k, ∀ j, j ≤ k → CountsBefore log2 size core j := by
    intro k
    induction k with
    | zero =>
      intro j hj
      have : j = 0 := by omega
      subst this
      refine ⟨⟨hgs.2.2.1, hgs.2.2.2⟩, by rw [hgs.1]; exact hl1 _, ?_, fun h => absurd rfl h, fun h => absurd rfl h⟩
      rw [hbeg.last]
      simp
    | succ k ih =>
      intro j hj
      rcases Nat.lt_or_eq_of_le hj with h | h
      · exact ih j (by omega)
      · subst h
        have hk := ih k (Nat.le_refl _)
        obtain ⟨s1, s2, s3, s4⟩ := hstep k hk (fun _ j hj => (ih j (by omega)).one)
        refine ⟨s1, s2, ?_, fun _ => (hp k).2.1.lastc, fun _ => ?_⟩
        · by_cases hst : Stalled size k
          · exact ⟨fun _ => ⟨k, by omega, hst⟩, fun _ => (s3 hst).1⟩
          · rw [(s4 hst).1, hk.last]
            constructor
            · rintro ⟨j, h1, h2⟩; exact ⟨j, by omega, h2⟩
            · rintro ⟨j, h1, h2⟩
              rcases Nat.lt_or_eq_of_le (Nat.lt_succ_iff.mp h1) with h | h
              · exact ⟨j, h, h2⟩
              · subst h; exact absurd h2 hst
        · obtain ⟨b, b1, b2, b3, b4⟩ := hnext k hk
          exact ⟨b, by omega, b2, fun i hi => b3 i (by omega), b4⟩
  have hcb : ∀ k, CountsBefore log2 size core k := fun k => hall k k (Nat.le_refl _)
  have hst := fun k => (hstep k (hcb k) (fun _ j _ => (hcb j).one)).2.2
  refine ⟨g, pass, size, fun k => (core k).stats.litlens, fun k => (core k).stats.dists, ?_, fun k => ?_, fun it w hit hw => ?_, ⟨?_, fun k hk => ?_, fun k j hk hj hsj => ?_, fun k hk => (((hst k).1 hk).2)⟩, fun hsearch k => ?_⟩
  · obtain ⟨lmc', -, e⟩ := hg3 _ hc
    exact ⟨lmc', e⟩
  · have := hsmall k
    rw [(hp k).2.1.size, ieee_ofUsize_small _ (by omega)]
    rfl
  · obtain ⟨n, b, r1, r2, r3, r4, r5, r6, r7⟩ := hr it w
    rw [show max 1 it = it by omega, show max 1 w = w by omega] at *
    exact ⟨n, b, r1, r2, r7 _ hc, r3, r4, r5⟩
  · rw [hgs.1, hgs.2.1]
  · refine ((hst k).2 (hk k (Nat.le_refl _))).2.2 ?_
    by_contra hne
    obtain ⟨j, h1, h2⟩ := (hcb k).last.mp hne
    exact hk j (by omega) h2
  · exact ((hst k).2 hk).2.1 ((hcb k).last.mpr ⟨j, hj, hsj⟩)
  · have htally : TallyOk (2 ^ 11 * lim) _ _ := tally_of (by omega) (hp k).1.cnt
    obtain ⟨s, hs, gs⟩ := statRun_cheapest hlog hmono htally (hcb k).costs hO h1 h2 (fun pos a b => plain_of' (hsearch pos a b).1)
      (no_long_run (start := start) fun pos a b => (hsearch pos a (by omega)).2)
    obtain ⟨l1, -, e1⟩ := gs _ hc
    obtain ⟨l2, -, e2⟩ := (hp k).2.1.run _ hc
    have : s = pass k := by
      have := e1.symm.trans e2
      cases this
      rfl
    subst this
    obtain ⟨q1, q2, q3⟩ := hs
    refine ⟨?_, q2, fun ys y1 y2 n n1 n2 n3 => ?_⟩
    · exact q1.parses.extract (Nat.le_refl _)
    · exact nearly_simple (q3 ys y1 y2) (estimateAll_nonneg hlog hmono htally _) (estimateAll_nonneg hlog hmono htally _) n1 n2 n3

/-! ## The hypotheses are met -/

example := C52_cheapest_passes (lim := 2 ^ 47) floorLog2_ok (by decide) (by decide) (fun m n h1 h2 h3 => floorLog2_mono m n h1 h2 (by omega)) exampleParseData 2 9 (by decide) (by decide) (by decide)
/-- With the crate's own logarithm, up to 16 GiB. -/
example := C52_cheapest_passes (log2 := Fp.log2NoStd) (lim := 2 ^ 34) C45_log2_ok.1 (by decide) (by decide) C45_log2_ok.2 exampleParseData 2 9 (by decide) (by decide) (by decide)

theorem runLength_le (data : Array UInt8) (pos : Nat) : runLength data pos ≤ data.size := by
  refine (List.takeWhile_sublist _).length_le.trans ?_
  rw [List.length_drop, Array.length_toList]
  exact Nat.sub_le _ _

/-- In any short data the match finder never gives up. -/
theorem searchable_runs_short {data : Array UInt8} (h : data.size < 257) (pos : Nat) (hpos : pos < data.size) : Searchable data pos ∧ runLength data pos ≤ 775 :=
  ⟨searchable_short h pos hpos, by have := runLength_le data pos; omega⟩

example : ∀ pos, 2 ≤ pos → pos < 9 → Searchable (exampleParseData.extract 0 9) pos ∧ runLength (exampleParseData.extract 0 9) pos ≤ 775 :=
  fun pos _ h => searchable_runs_short (by decide) pos h

/-- There are several parses with copies from the nearest place to choose from. -/
example : Parses exampleParseData 2 [.literal 99, .lengthDist 6 3] 9 ∧ Nearest exampleParseData 2 [.literal 99, .lengthDist 6 3] := by
  refine ⟨⟨⟨99, by decide, rfl⟩, ⟨by decide, by decide, by decide, by decide, by decide, by decide, by decide⟩, rfl⟩, ⟨fun _ _ h => (by cases h), ?_, trivial⟩⟩
  rintro len dist h dist' - hr
  cases h
  by_contra hlt
  have h0 := hr.1
  have h1 := hr.2.2.2 0 (by decide)
  have : dist' = 1 ∨ dist' = 2 := by omega
  rcases this with rfl | rfl <;> exact absurd h1 (by decide)

example : Parses exampleParseData 7 [.literal 98, .literal 99] 9 ∧ Nearest exampleParseData 7 [.literal 98, .literal 99] :=
  ⟨⟨⟨98, by decide, rfl⟩, ⟨99, by decide, rfl⟩, rfl⟩, fun _ _ h => (by cases h), fun _ _ h => (by cases h), trivial⟩

end Zopfli
