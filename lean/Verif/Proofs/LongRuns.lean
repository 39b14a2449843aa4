import Verif.Proofs.OptFixed
import Verif.Proofs.FixedCost
import Mathlib.Tactic.Ring
/-! # In long runs of equal bytes the steps that are not tried are not needed -/

namespace Zopfli

/-- The cost in the fixed code of a copy of `k` bytes from distance 1. -/
def rcost (k : Nat) : Nat :=
  if k ≤ 10 then 12 else if k ≤ 18 then 13 else if k ≤ 34 then 14 else if k ≤ 66 then 15 else if k ≤ 114 then 16 else if k ≤ 130 then 17
  else if k ≤ 257 then 18 else 13

theorem rcost_eq : ∀ k, k < 259 → 3 ≤ k → fcost (.lengthDist k 1) = rcost k := by decide +kernel

/-- The cost of a step of `k` bytes in a run, if literals cost `lam`. -/
def scost (lam k : Nat) : Nat := if k = 1 then lam else rcost k

/-- The least cost of less than 258 bytes, given that at least 258 more are wanted. -/
def least (lam s : Nat) : Nat := if s = 0 then 0 else if s = 1 then lam else if s = 2 then min (2 * lam) 17 else rcost s

def leastCost (lam d : Nat) : Nat := 13 * (d / 258) + least lam (d % 258)

theorem least_check : (List.range 258).all (fun s => (List.range 259).all fun m => Nat.beq m 0 || Nat.beq m 2 ||
    (Nat.ble (leastCost 8 (s + m)) (scost 8 m + least 8 s) && Nat.ble (leastCost 9 (s + m)) (scost 9 m + least 9 s))) = true := by decide +kernel

theorem leastCost_step {lam : Nat} (hl : lam = 8 ∨ lam = 9) (d m : Nat) (hm : m = 1 ∨ 3 ≤ m ∧ m ≤ 258) : leastCost lam (m + d) ≤ scost lam m + leastCost lam d := by
  have key : leastCost lam (d % 258 + m) ≤ scost lam m + least lam (d % 258) := by
    have := List.all_eq_true.mp (List.all_eq_true.mp least_check (d % 258) (List.mem_range.mpr (by omega))) m (List.mem_range.mpr (by omega))
    simp only [Bool.or_eq_true, Bool.and_eq_true, Nat.ble_eq, Nat.beq_eq] at this
    rcases hl with rfl | rfl <;> omega
  have e : leastCost lam (m + d) = 13 * (d / 258) + leastCost lam (d % 258 + m) := by
    unfold leastCost
    rw [show (m + d) % 258 = (d % 258 + m) % 258 by omega, show (m + d) / 258 = d / 258 + (d % 258 + m) / 258 by omega]
    omega
  rw [e]
  unfold leastCost at key ⊢
  omega

theorem leastCost_le {lam : Nat} (hl : lam = 8 ∨ lam = 9) : ∀ (ms : List Nat), (∀ m ∈ ms, m = 1 ∨ 3 ≤ m ∧ m ≤ 258) → leastCost lam ms.sum ≤ (ms.map (scost lam)).sum
  | [], _ => by
    rcases hl with rfl | rfl <;> decide
  | m :: ms, h => by
    have := leastCost_le hl ms fun x hx => h x (by simp [hx])
    have := leastCost_step hl ms.sum m (h m (by simp))
    rw [List.sum_cons, List.map_cons, List.sum_cons]
    omega

/-- The steps in a run of equal bytes, the first of them at `r`. -/
structure RunSteps (O : Oracle) (W : Nat → Nat → Nat) (lam r e : Nat) : Prop where
  two : lam = 8 ∨ lam = 9
  lit : ∀ p, r < p → p < e → W p 1 = lam
  copy : ∀ p k, r < p → 3 ≤ k → k ≤ 258 → p + k ≤ e → k ≤ O.L p ∧ W p k = rcost k

/-- The runs in which steps have been skipped. -/
structure Blocks (O : Oracle) (W : Nat → Nat → Nat) (ts : List Nat) (stop : Nat) : Prop where
  gap : ∀ t ∈ ts, ∀ t' ∈ ts, t = t' ∨ t + 259 ≤ t' ∨ t' + 259 ≤ t
  run : ∀ t ∈ ts, 258 ≤ t ∧ ∃ e lam, RunSteps O W lam (t - 258) e ∧ t + 518 ≤ e ∧ e ≤ stop ∧ ∀ t' ∈ ts, t < t' → t' < e → t' + 518 ≤ e

/-- Not between skipped positions. -/
def Fine (ts : List Nat) (a : Nat) : Prop := ∀ t ∈ ts, ¬ (t < a ∧ a < t + 258)

variable {O : Oracle} {W : Nat → Nat → Nat} {lam r e : Nat}

/-- A path up to the last step that stays in the run. -/
theorem split_path (hL : ∀ p, O.L p ≤ 258) : ∀ (ks : List Nat) (a stop : Nat), a ≤ e → e ≤ stop → PathOk O a ks stop →
    ∃ ms rest, ks = ms ++ rest ∧ a + ms.sum ≤ e ∧ e ≤ a + ms.sum + 257 ∧ PathOk O (a + ms.sum) rest stop ∧ ∀ m ∈ ms, m = 1 ∨ 3 ≤ m ∧ m ≤ 258
  | [], a, stop, h1, h2, hp => by
    have : a = stop := hp
    exact ⟨[], [], rfl, by simpa using h1, by simp; omega, by simpa using hp, by simp⟩
  | k :: ks, a, stop, h1, h2, hp => by
    have hk : k = 1 ∨ 3 ≤ k ∧ k ≤ 258 := by
      rcases hp.1 with h | h
      · exact .inl h
      · have := hL a
        exact .inr ⟨h.1, by omega⟩
    by_cases hle : a + k ≤ e
    · obtain ⟨ms, rest, e1, e2, e3, e4, e5⟩ := split_path hL ks (a + k) stop hle h2 hp.2
      refine ⟨k :: ms, rest, by rw [e1]; rfl, by rw [List.sum_cons]; omega, by rw [List.sum_cons]; omega, ?_, ?_⟩
      · rw [List.sum_cons, ← Nat.add_assoc]; exact e4
      · intro m hm
        rcases List.mem_cons.mp hm with rfl | hm
        · exact hk
        · exact e5 m hm
    · exact ⟨[], k :: ks, rfl, by simpa using h1, by simp; omega, by simpa using hp, by simp⟩

theorem RunSteps.pathCost (h : RunSteps O W lam r e) : ∀ (ms : List Nat) (a : Nat), r < a → a + ms.sum ≤ e → (∀ m ∈ ms, m = 1 ∨ 3 ≤ m ∧ m ≤ 258) →
    PathOk O a ms (a + ms.sum) ∧ pathCost W a ms = (ms.map (scost lam)).sum
  | [], _, _, _, _ => ⟨rfl, rfl⟩
  | m :: ms, a, h1, h2, h3 => by
    rw [List.sum_cons] at h2
    have hm := h3 m (by simp)
    obtain ⟨g1, g2⟩ := h.pathCost ms (a + m) (by omega) (by omega) fun x hx => h3 x (by simp [hx])
    have hstep : (m = 1 ∨ 3 ≤ m ∧ m ≤ O.L a) ∧ W a m = scost lam m := by
      rcases hm with rfl | hm
      · exact ⟨.inl rfl, by rw [h.lit a h1 (by omega), scost, if_pos rfl]⟩
      · obtain ⟨c1, c2⟩ := h.copy a m h1 hm.1 hm.2 (by omega)
        exact ⟨.inr ⟨hm.1, c1⟩, by rw [c2, scost, if_neg (by omega)]⟩
    rw [List.sum_cons, ← Nat.add_assoc]
    refine ⟨⟨hstep.1, g1⟩, ?_⟩
    rw [Zopfli.pathCost, hstep.2, g2, List.map_cons, List.sum_cons]

theorem PathTried.append {ts : List Nat} : ∀ {xs ys : List Nat} {a : Nat}, PathTried ts a xs → PathTried ts (a + xs.sum) ys → PathTried ts a (xs ++ ys)
  | [], _, _, _, h' => by simpa using h'
  | x :: xs, ys, a, h, h' => by
    refine ⟨h.1, PathTried.append h.2 ?_⟩
    rw [List.sum_cons, ← Nat.add_assoc] at h'
    exact h'

theorem pathTried_replicate (ts : List Nat) : ∀ (n a : Nat), PathTried ts a (List.replicate n 258)
  | 0, _ => trivial
  | n + 1, _ => ⟨fun _ => rfl, pathTried_replicate ts n _⟩

/-- The best way to write `d` bytes of a run. -/
theorem best_middle {lam : Nat} (hl : lam = 8 ∨ lam = 9) {d : Nat} (hd : 261 ≤ d) : ∃ (xs ys : List Nat) (n : Nat), 1 ≤ n ∧ xs.length ≤ 1 ∧ ys.length ≤ 1 ∧ ys.sum ≤ 3 ∧
    xs.sum + 258 * n + ys.sum = d ∧ (∀ m ∈ xs ++ ys, m = 1 ∨ 3 ≤ m ∧ m ≤ 258) ∧
    (xs.map (scost lam)).sum + 13 * n + (ys.map (scost lam)).sum = leastCost lam d := by
  have hs : d % 258 < 258 := by omega
  unfold leastCost
  by_cases h0 : d % 258 = 0
  · refine ⟨[], [], d / 258, by omega, by simp, by simp, by simp, by simp; omega, by simp, ?_⟩
    rw [h0]; simp [least]
  by_cases h1 : d % 258 = 1
  · refine ⟨[1], [], d / 258, by omega, by simp, by simp, by simp, by simp; omega, by simp, ?_⟩
    rw [h1]; simp [least, scost]; omega
  by_cases h2 : d % 258 = 2
  · rw [h2]
    rcases hl with rfl | rfl
    · refine ⟨[1], [1], d / 258, by omega, by simp, by simp, by simp, by simp; omega, by simp, ?_⟩
      simp [least, scost]; omega
    · refine ⟨[257], [3], d / 258 - 1, by omega, by simp, by simp, by simp, by simp; omega, by simp, ?_⟩
      simp [least, scost, rcost]; omega
  · refine ⟨[d % 258], [], d / 258, by omega, by simp, by simp, by simp, by simp; omega, by simp; omega, ?_⟩
    have e1 : ((([d % 258] : List Nat)).map (scost lam)).sum = rcost (d % 258) := by simp [scost, h1]
    rw [e1]
    simp only [least, if_neg h0, if_neg h1, if_neg h2, List.map_nil, List.sum_nil]
    omega

theorem sum_map_append {α : Type} (f : α → Nat) (a b : List α) : ((a ++ b).map f).sum = (a.map f).sum + (b.map f).sum := by simp

theorem scost_258 (lam : Nat) : scost lam 258 = 13 := rfl

/-- In a run the tried steps are enough. -/
theorem middle {ts : List Nat} (h : RunSteps O W lam r e) {a w t : Nat} (ht : t ∈ ts) (ha : r < a) (hat : a ≤ t) (htw : t + 261 ≤ w) (hwe : w ≤ e)
    (hskip : ∀ y, 1 ≤ y → y ≤ 3 → ¬ Skipped ts (w - y)) (hat2 : Skipped ts a → a = t) (ht2 : ¬ Skipped ts (t + 258)) :
    ∃ ms, PathOk O a ms w ∧ PathTried ts a ms ∧ pathCost W a ms = leastCost lam (w - a) := by
  obtain ⟨xs, ys, n, c1, c2, c3, c4, c5, c6, c7⟩ := best_middle h.two (d := w - a) (by omega)
  have hx : ∀ p, ¬ Skipped ts p → PathTried ts p xs := by
    intro p hp
    match xs, c2 with
    | [], _ => trivial
    | [x], _ => exact ⟨fun hs => absurd hs hp, trivial⟩
  have hy : PathTried ts (w - ys.sum) ys := by
    match ys, c3 with
    | [], _ => trivial
    | [y], _ => exact ⟨fun hs => absurd hs (hskip _ (by have := c6 y (by simp); simp; omega) (by simpa using c4)), trivial⟩
  by_cases hs : Skipped ts a
  · obtain rfl := hat2 hs
    obtain ⟨n, rfl⟩ : ∃ k, n = k + 1 := ⟨n - 1, by omega⟩
    have hsum : (258 :: (xs ++ (List.replicate n 258 ++ ys))).sum = w - a := by
      rw [List.sum_cons, List.sum_append, List.sum_append, List.sum_replicate_nat, ← c5]; ring
    have hall : ∀ m ∈ 258 :: (xs ++ (List.replicate n 258 ++ ys)), m = 1 ∨ 3 ≤ m ∧ m ≤ 258 := by
      intro m hm
      simp only [List.mem_cons, List.mem_append, List.mem_replicate] at hm
      rcases hm with rfl | hm | ⟨-, rfl⟩ | hm
      · omega
      · exact c6 m (by simp [hm])
      · omega
      · exact c6 m (by simp [hm])
    obtain ⟨g1, g2⟩ := h.pathCost _ a ha (by rw [hsum]; omega) hall
    refine ⟨258 :: (xs ++ (List.replicate n 258 ++ ys)), ?_, ⟨fun _ => rfl, (hx _ ht2).append ((pathTried_replicate ts n _).append ?_)⟩, ?_⟩
    · rw [hsum, show a + (w - a) = w by omega] at g1; exact g1
    · rw [List.sum_replicate_nat, show a + 258 + xs.sum + n * 258 = w - ys.sum by omega]
      exact hy
    · rw [g2, List.map_cons, List.sum_cons, sum_map_append, sum_map_append, List.map_replicate, List.sum_replicate_nat, scost_258, ← c7]
      omega
  · have hsum : (xs ++ (List.replicate n 258 ++ ys)).sum = w - a := by
      simp only [List.sum_append, List.sum_replicate_nat]; omega
    have hall : ∀ m ∈ xs ++ (List.replicate n 258 ++ ys), m = 1 ∨ 3 ≤ m ∧ m ≤ 258 := by
      intro m hm
      simp only [List.mem_append, List.mem_replicate] at hm
      rcases hm with hm | ⟨-, rfl⟩ | hm
      · exact c6 m (by simp [hm])
      · omega
      · exact c6 m (by simp [hm])
    obtain ⟨g1, g2⟩ := h.pathCost _ a ha (by rw [hsum]; omega) hall
    refine ⟨xs ++ (List.replicate n 258 ++ ys), ?_, (hx _ hs).append ((pathTried_replicate ts n _).append ?_), ?_⟩
    · rw [hsum, show a + (w - a) = w by omega] at g1; exact g1
    · rw [List.sum_replicate_nat, show a + xs.sum + n * 258 = w - ys.sum by omega]
      exact hy
    · rw [g2, sum_map_append, sum_map_append, List.map_replicate, List.sum_replicate_nat, scost_258, ← c7]
      omega

/-- For every path there is one, not more expensive, that takes only steps that are tried. -/
theorem tried_enough {ts : List Nat} {stop : Nat} (hB : Blocks O W ts stop) (hL : ∀ p, O.L p ≤ 258) : ∀ (d a : Nat) (ks : List Nat), stop - a ≤ d → Fine ts a → PathOk O a ks stop →
    ∃ ks', PathOk O a ks' stop ∧ PathTried ts a ks' ∧ pathCost W a ks' ≤ pathCost W a ks
  | d, a, [], _, _, hp => ⟨[], hp, trivial, Nat.le_refl _⟩
  | 0, a, k :: ks, hd, _, hp => by
    have := hp.2.le
    have := hp.1
    omega
  | d + 1, a, k :: ks, hd, hf, hp => by
    have hle := hp.2.le
    have h1 := hp.1
    have hk : k ≤ 258 := by have := hL a; omega
    by_cases hn : ¬ Skipped ts a ∧ Fine ts (a + k)
    · obtain ⟨ks', e1, e2, e3⟩ := tried_enough hB hL d (a + k) ks (by omega) hn.2 hp.2
      refine ⟨k :: ks', ⟨h1, e1⟩, ⟨fun hs => absurd hs hn.1, e2⟩, ?_⟩
      rw [pathCost, pathCost]
      omega
    · have ht : ∃ t ∈ ts, t < a + 258 ∧ a ≤ t := by
        by_cases hs : Skipped ts a
        · obtain ⟨t, t1, t2, t3⟩ := hs
          have := hf t t1
          exact ⟨t, t1, by omega, by omega⟩
        · have hnf : ¬ Fine ts (a + k) := fun h => hn ⟨hs, h⟩
          unfold Fine at hnf
          push Not at hnf
          obtain ⟨t, t1, t2, t3⟩ := hnf
          have := hf t t1
          exact ⟨t, t1, by omega, by omega⟩
      obtain ⟨t, t1, t2, t3⟩ := ht
      obtain ⟨r0, e, lam, hR, r1, r2, r3⟩ := hB.run t t1
      obtain ⟨ms, rest, s1, s2, s3, s4, s5⟩ := split_path (e := e) hL (k :: ks) a stop (by omega) r2 hp
      have hblock : ∀ t' ∈ ts, t' < e → t' + 258 ≤ a ∨ t' + 261 ≤ a + ms.sum := by
        intro t' ht' hlt
        rcases hB.gap t t1 t' ht' with rfl | h | h
        · omega
        · have := r3 t' ht' (by omega) hlt
          omega
        · have := hf t' ht'
          omega
      have hskip : ∀ y, 1 ≤ y → y ≤ 3 → ¬ Skipped ts (a + ms.sum - y) := by
        rintro y hy1 hy ⟨t', i1, i2, i3⟩
        have := hblock t' i1 (by omega)
        omega
      obtain ⟨ms', m1, m2, m3⟩ := middle hR (a := a) (w := a + ms.sum) t1 (by omega) t3 (by omega) s2 hskip (by
        rintro ⟨t', i1, i2, i3⟩
        have := hf t' i1
        have := hB.gap t t1 t' i1
        omega) (by
        rintro ⟨t', i1, i2, i3⟩
        have := hB.gap t t1 t' i1
        omega)
      obtain ⟨ks', e1, e2, e3⟩ := tried_enough hB hL d (a + ms.sum) rest (by omega) (by
        rintro t' i1 ⟨i2, i3⟩
        have := hblock t' i1 (by omega)
        omega) s4
      have hms := m1.sum
      refine ⟨ms' ++ ks', m1.append e1, m2.append (by rw [hms]; exact e2), ?_⟩
      obtain ⟨-, p2⟩ := hR.pathCost ms a (by omega) s2 s5
      have p3 := leastCost_le hR.two ms s5
      rw [s1, pathCost_append, pathCost_append, hms, m3, p2, show a + ms.sum - a = ms.sum by omega]
      omega

end Zopfli
