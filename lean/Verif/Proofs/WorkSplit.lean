import Verif.Proofs.WorkParse
import Verif.Proofs.Part
/-!
# The steps of block splitting and of a whole part
-/

namespace Zopfli
namespace Work

variable {F : FloatOps}

/-! ## blocksplitter.rs -/

theorem log2_shrinks {d x : Nat} (hd : 10 ≤ d) (hx : x ≤ d - 8 * (d / 10)) : x.log2 + 1 ≤ d.log2 := by
  by_cases hx0 : x = 0
  · subst hx0
    have h1 : Nat.log2 0 = 0 := by simp
    have h2 : 1 ≤ d.log2 := (Nat.le_log2 (by omega)).2 (by omega)
    omega
  · have h1 : d < 2 ^ (d.log2 + 1) := Nat.lt_log2_self
    have h3 : x.log2 < d.log2 := by
      rw [Nat.log2_lt hx0]
      rw [Nat.pow_succ] at h1
      by_cases h30 : 30 ≤ d
      · omega
      · have h8 : 3 ≤ d.log2 := (Nat.le_log2 (by omega)).2 (by omega)
        by_cases h16 : 16 ≤ d
        · have h4 : 4 ≤ d.log2 := (Nat.le_log2 (by omega)).2 (by omega)
          have : 2 ^ 4 ≤ 2 ^ d.log2 := Nat.pow_le_pow_right (by omega) h4
          omega
        · have : 2 ^ 3 ≤ 2 ^ d.log2 := Nat.pow_le_pow_right (by omega) h8
          omega
    omega

theorem findMinimumLinear_cost (f : Nat → Work F.F64) (g : Nat → Option F.F64) (e : Nat) (hf : ∀ i, Cost (f i) (g i) fun _ t => t ≤ e)
    (start end_ : Nat) :
    Cost (findMinimumLinear F f start end_) (Zopfli.findMinimumLinear F g start end_) fun _ t => t ≤ (end_ - start) * (e + 1) := by
  unfold findMinimumLinear Zopfli.findMinimumLinear
  refine (Cost.forRange (fun _ _ => True) (fun i _ => (start + (end_ - start) - i) * (e + 1)) (fun i s hi _ => ?_) trivial).mono fun s t _ q => ?_
  · obtain ⟨result, best⟩ := s
    dsimp only
    refine Cost.bind (hf i) fun v t _ p => ?_
    have e1 : (start + (end_ - start) - i) * (e + 1) = (start + (end_ - start) - (i + 1)) * (e + 1) + (e + 1) := by
      rw [show start + (end_ - start) - i = start + (end_ - start) - (i + 1) + 1 by omega, Nat.add_mul, Nat.one_mul]
    refine Cost.ite (fun _ => Cost.pure ?_) fun _ => Cost.pure ?_ <;> exact ⟨trivial, by rw [e1]; omega⟩
  · have h := q.2
    rw [show start + (end_ - start) - start = end_ - start by omega] at h
    omega

/-- The best of the nine points. -/
theorem nine_cost (f : Nat → Work F.F64) (g : Nat → Option F.F64) (e : Nat) (hf : ∀ i, Cost (f i) (g i) fun _ t => t ≤ e) (p : Nat → Nat) :
    Cost (forRange 0 NUM (0, F.inf) fun i (besti, best) => do
        let v ← f (p i)
        if F.lt v best then return (i, v) else return (besti, best))
      (Zopfli.forRange 0 NUM (0, F.inf) fun i (besti, best) => do
        let v ← g (p i)
        if F.lt v best then return (i, v) else return (besti, best)) fun r t => r.1 < 9 ∧ t ≤ 9 * (e + 1) := by
  refine (Cost.forRange (fun _ s => s.1 < 9) (fun i _ => (9 - i) * (e + 1)) (fun i s hi hs => ?_) (Nat.succ_pos 8)).mono fun s t _ q => ?_
  · obtain ⟨besti, best⟩ := s
    dsimp only at hs ⊢
    have hi : i < 9 := hi
    refine Cost.bind (hf (p i)) fun v t _ q => ?_
    have e1 : (9 - i) * (e + 1) = (9 - (i + 1)) * (e + 1) + (e + 1) := by
      rw [show 9 - i = 9 - (i + 1) + 1 by omega, Nat.add_mul, Nat.one_mul]
    refine Cost.ite (fun _ => Cost.pure ?_) fun _ => Cost.pure ?_
    · exact ⟨by dsimp only; omega, by rw [e1]; omega⟩
    · exact ⟨hs, by rw [e1]; omega⟩
  · have h := q.2
    exact ⟨q.1, by simp only [Nat.sub_zero] at h; omega⟩

theorem findMinimumStep_cost (f : Nat → Work F.F64) (g : Nat → Option F.F64) (e : Nat) (hf : ∀ i, Cost (f i) (g i) fun _ t => t ≤ e)
    (s : Nat × Nat × Nat × F.F64) (C : Nat) (hC : C = 9 * (e + 1) + 1) :
    Cost (findMinimumStep F f s) (Zopfli.findMinimumStep F g s) fun x t =>
      (∀ s', x = .inl s' → True ∧
        t + 1 + ((s'.2.1 - s'.1).log2 + 1) * C ≤ ((s.2.1 - s.1).log2 + 1) * C) ∧
      (∀ r, x = .inr r → True ∧ t + 1 ≤ ((s.2.1 - s.1).log2 + 1) * C) := by
  obtain ⟨start, end_, pos, lastbest⟩ := s
  unfold findMinimumStep Zopfli.findMinimumStep
  dsimp only
  refine Cost.liftBind fun d hd => ?_
  have hd : start ≤ end_ ∧ d = end_ - start := by
    unfold usub at hd
    split at hd
    · cases hd
      exact ⟨‹_›, rfl⟩
    · cases hd
  have hone : C ≤ ((end_ - start).log2 + 1) * C := Nat.le_mul_of_pos_left _ (Nat.succ_pos _)
  refine Cost.ite (fun hgt => ?_) fun _ => Cost.pure ⟨nofun, ?_⟩
  · refine Cost.bind (nine_cost f g e hf _) fun r t1 _ p1 => ?_
    obtain ⟨besti, best⟩ := r
    dsimp only at p1 ⊢
    refine Cost.ite (fun _ => Cost.pure ⟨nofun, ?_⟩) fun _ => Cost.pure ⟨?_, nofun⟩
    · rintro _ _
      exact ⟨trivial, by omega⟩
    · rintro _ ⟨⟩
      refine ⟨trivial, ?_⟩
      dsimp only
      have hm : (NUM : Nat) = 9 := rfl
      rw [hm] at hgt
      generalize hmul : (end_ - start) / (NUM + 1) = m
      have hm10 : m = (end_ - start) / 10 := hmul.symm
      have hlog : ((if besti = NUM - 1 then end_ else start + (besti + 1 + 1) * m) - (if besti = 0 then start else start + (besti - 1 + 1) * m)).log2 + 1 ≤
          (end_ - start).log2 := by
        refine log2_shrinks (by omega) ?_
        rw [← hm10]
        by_cases hb0 : besti = 0
        · subst hb0
          rw [if_neg (by decide), if_pos rfl]
          omega
        · rw [if_neg hb0, Nat.sub_add_cancel (by omega)]
          by_cases hb8 : besti = NUM - 1
          · subst hb8
            rw [if_pos rfl]
            show end_ - (start + 8 * m) ≤ _
            omega
          · rw [if_neg hb8, Nat.add_mul, Nat.add_mul]
            omega
      generalize ((if besti = NUM - 1 then end_ else start + (besti + 1 + 1) * m) - (if besti = 0 then start else start + (besti - 1 + 1) * m)).log2 = l at hlog ⊢
      have : (l + 1 + 1) * C ≤ ((end_ - start).log2 + 1) * C := Nat.mul_le_mul_right _ (by omega)
      rw [Nat.add_mul (l + 1) 1] at this
      omega
  · rintro _ _
    exact ⟨trivial, by omega⟩

/-- The search for the best split point tries at most 1024 of them. -/
theorem findMinimum_cost (f : Nat → Work F.F64) (g : Nat → Option F.F64) (e : Nat) (hf : ∀ i, Cost (f i) (g i) fun _ t => t ≤ e)
    (start end_ : Nat) (hn : end_ < 2 ^ 64) :
    Cost (findMinimum F f start end_) (Zopfli.findMinimum F g start end_) fun _ t => t ≤ 1024 * (e + 1) := by
  unfold findMinimum Zopfli.findMinimum
  refine Cost.liftBind fun d hd => ?_
  have hd : d = end_ - start := by
    unfold usub at hd
    split at hd
    · cases hd
      rfl
    · cases hd
  refine Cost.ite (fun hlt => ?_) fun hge => ?_
  · refine (findMinimumLinear_cost f g e hf start end_).mono fun _ t _ p => ?_
    have : (end_ - start) * (e + 1) ≤ 1024 * (e + 1) := Nat.mul_le_mul_right _ (by omega)
    omega
  · obtain ⟨C, hC⟩ : ∃ C, C = 9 * (e + 1) + 1 := ⟨_, rfl⟩
    refine (Cost.loop (fun _ => True) (fun s => ((s.2.1 - s.1).log2 + 1) * C) (fun _ => True)
      (fun s _ => findMinimumStep_cost f g e hf s C hC) _ trivial).mono fun _ t _ q => ?_
    have hl : (end_ - start).log2 < 64 := by
      rw [Nat.log2_lt (by omega)]
      omega
    have h1 : ((end_ - start).log2 + 1) * C ≤ 64 * C := Nat.mul_le_mul_right _ (by omega)
    have h2 := q.2
    dsimp only at h2
    omega

/-- The largest block not done yet starts at 0 or at a split point that is not done. -/
theorem findLargestLoop_start (done : Array Nat) (n : Nat) : ∀ (l : List Nat) (st r : Nat × Option (Nat × Nat) × Nat) (all : List Nat),
    findLargestLoop done l st = some r → (∀ x ∈ l, x ∈ all ∧ x ≤ n) → st.2.2 ∈ 0 :: all →
    (∀ a b, st.2.1 = some (a, b) → a ∈ 0 :: all ∧ done[a]? = some 0 ∧ b ≤ n) →
    r.2.2 ∈ 0 :: all ∧ ∀ a b, r.2.1 = some (a, b) → a ∈ 0 :: all ∧ done[a]? = some 0 ∧ b ≤ n
  | [], st, r, all, h, _, h2, h3 => by
    cases h
    exact ⟨h2, h3⟩
  | item :: rest, (longest, found, last), r, all, h, h1, h2, h3 => by
    rw [findLargestLoop, Option.bind_eq_bind, Option.bind_eq_some_iff] at h
    obtain ⟨d, hd, h⟩ := h
    rw [Option.bind_eq_some_iff] at h
    obtain ⟨w, hw, h⟩ := h
    have hitem := h1 item (by simp)
    split at h
    · rename_i hc
      refine findLargestLoop_start done n rest _ r all h (fun x hx => h1 x (by simp [hx])) (by dsimp only; simp [hitem.1]) ?_
      rintro a b ⟨⟩
      exact ⟨h2, by rw [hd, hc.1], hitem.2⟩
    · exact findLargestLoop_start done n rest _ r all h (fun x hx => h1 x (by simp [hx])) (by dsimp only; simp [hitem.1]) h3

theorem findLargest_start {done : Array Nat} {n : Nat} {sp : List Nat} {a b : Nat}
    (h : findLargestSplittableBlock n done sp = some (some (a, b))) (hsp : ∀ x ∈ sp, x ≤ n) :
    a ∈ 0 :: sp ∧ done[a]? = some 0 ∧ b ≤ n := by
  unfold findLargestSplittableBlock at h
  rw [Option.bind_eq_bind, Option.bind_eq_some_iff] at h
  obtain ⟨⟨longest, found, last⟩, hl, h⟩ := h
  obtain ⟨q1, q2⟩ := findLargestLoop_start done n sp _ _ sp hl (fun x hx => ⟨hx, hsp x hx⟩) (by simp) nofun
  dsimp only at q1 q2 h
  rw [Option.bind_eq_bind, Option.bind_eq_some_iff] at h
  obtain ⟨e, he, h⟩ := h
  rw [Option.bind_eq_some_iff] at h
  obtain ⟨d, hd, h⟩ := h
  rw [Option.bind_eq_some_iff] at h
  obtain ⟨w, hw, h⟩ := h
  split at h
  · rename_i hc
    cases h
    refine ⟨q1, by rw [hd, hc.1], ?_⟩
    unfold usub at he
    split at he
    · cases he
      omega
    · cases he
  · cases h
    exact q2 a b rfl

/-- How many of the block starts are not done. -/
def undone (done : Array Nat) (l : List Nat) : Nat := l.countP fun x => decide (done[x]? = some 0)

theorem undone_mark {done done' : Array Nat} {a : Nat} (h : aset done a 1 = some done') {l : List Nat} (ha : a ∈ l) (h0 : done[a]? = some 0) :
    undone done' l + 1 ≤ undone done l := by
  unfold aset at h
  split at h
  · rename_i hlt
    cases h
    have hle : ∀ l : List Nat, undone (done.set a 1 hlt) l ≤ undone done l := by
      intro l
      refine List.countP_mono_left fun x _ hx => ?_
      rw [decide_eq_true_eq] at hx ⊢
      rw [Array.getElem?_set] at hx
      split at hx
      · cases hx
      · exact hx
    induction l with
    | nil => cases ha
    | cons x l ih =>
      have hl := hle l
      unfold undone at hl ih ⊢
      rw [List.countP_cons, List.countP_cons]
      by_cases hxa : x = a
      · subst hxa
        rw [if_neg (by rw [decide_eq_true_eq, Array.getElem?_set_self]; exact nofun), if_pos (by rw [decide_eq_true_eq]; exact h0)]
        omega
      · have := ih (by rcases List.mem_cons.mp ha with rfl | ha; exacts [absurd rfl hxa, ha])
        have e : (done.set a 1 hlt)[x]? = done[x]? := Array.getElem?_set_ne _ (fun h => hxa h.symm)
        rw [e]
        omega
  · cases h

theorem undone_perm {done : Array Nat} {l l' : List Nat} (p : l.Perm l') : undone done l = undone done l' := p.countP_eq _

/-- The invariant of the loop of `blocksplit_lz77` that bounds its rounds. -/
structure RoundInv (n M : Nat) (s : SplitState) : Prop where
  nb : s.numblocks = s.splitpoints.length + 1
  max : s.numblocks ≤ Max.max 1 M
  start : s.lstart ∈ 0 :: s.splitpoints
  todo : s.done[s.lstart]? = some 0
  stop : s.lend ≤ n
  le : ∀ x ∈ s.splitpoints, x ≤ n

/-- The rounds left: a block is split, or it is marked as done. -/
def rounds (M : Nat) (s : SplitState) : Nat := 2 * (M - s.numblocks) + undone s.done (0 :: s.splitpoints)

theorem undone_pos {done : Array Nat} {l : List Nat} {a : Nat} (ha : a ∈ l) (h : done[a]? = some 0) : 1 ≤ undone done l := by
  unfold undone
  rw [Nat.one_le_iff_ne_zero, ← Nat.pos_iff_ne_zero, List.countP_pos_iff]
  exact ⟨a, ha, by rw [decide_eq_true_eq]; exact h⟩

theorem autoType_cost [Checks] (E : Nat) (F : FloatOps) (lz77 : Lz77Store) (a b : Nat) :
    Cost (calculateBlockSizeAutoType E F lz77 a b) (Zopfli.calculateBlockSizeAutoType F lz77 a b) fun _ t => t = 3 * E :=
  Cost.tick (Cost.lift fun _ _ => rfl)

theorem splitStep_cost [Checks] (E : Nat) (lz77 : Lz77Store) (M : Nat) (hn : lz77.size < 2 ^ 64) (R : Nat)
    (hR : R = 6147 * E + 1025 + 18 * M) (s : SplitState) (hI : RoundInv lz77.size M s) :
    Cost (splitStep E F lz77 M s) (Zopfli.splitStep F lz77 M s) fun x t =>
      (∀ s', x = .inl s' → RoundInv lz77.size M s' ∧ t + 1 + rounds M s' * R ≤ rounds M s * R) ∧
      (∀ r, x = .inr r → r.length + 1 ≤ max 1 M ∧ t + 1 ≤ rounds M s * R) := by
  obtain ⟨nb, done, lstart, lend, sp⟩ := s
  obtain ⟨h1, hmax, h2, h3, h4, h5⟩ := hI
  dsimp only at h1 hmax h2 h3 h4 h5
  have hpos : 1 ≤ rounds M ⟨nb, done, lstart, lend, sp⟩ := by
    have := undone_pos h2 h3
    unfold rounds
    dsimp only
    omega
  have hone : R ≤ rounds M ⟨nb, done, lstart, lend, sp⟩ * R := Nat.le_mul_of_pos_left _ hpos
  unfold splitStep Zopfli.splitStep
  dsimp only
  refine Cost.ite (fun hM => ?_) fun _ => Cost.pure ⟨nofun, ?_⟩
  swap
  · rintro _ ⟨⟩
    exact ⟨by omega, by omega⟩
  refine Cost.liftBind fun _ _ => ?_
  refine Cost.bind (findMinimum_cost _ (fun i => do return F.add (← estimateCost F lz77 lstart i) (← estimateCost F lz77 i lend)) (6 * E) (fun i => ?_) _ _ (by omega)) fun r t1 _ p1 => ?_
  · unfold estimateCost
    refine Cost.bind (autoType_cost ..) fun a ta _ pa => Cost.bind (autoType_cost ..) fun b tb _ pb => Cost.pure ?_
    omega
  obtain ⟨llpos, splitcost⟩ := r
  dsimp only
  refine Cost.liftBind fun _ hg => ?_
  have hll : llpos > lstart ∧ llpos < lend := by
    unfold guardR at hg
    split at hg
    · rename_i hc
      simpa using hc
    · cases hg
  refine Cost.bind (autoType_cost ..) fun origcost t2 _ p2 => ?_
  refine Cost.bind (P := fun x t => x.2.2 = x.2.1.length + 1 ∧ x.2.2 ≤ M ∧ (∀ y ∈ x.2.1, y ≤ lz77.size) ∧ t ≤ 17 * M ∧
    2 * (M - x.2.2) + undone x.1 (0 :: x.2.1) + 1 ≤ rounds M ⟨nb, done, lstart, lend, sp⟩) ?_ fun x t3 _ p3 => ?_
  · refine Cost.ite (fun _ => ?_) fun _ => Cost.tick (Cost.pure ?_)
    · refine Cost.lift fun x hx => ?_
      rw [Option.bind_eq_bind, Option.bind_eq_some_iff] at hx
      obtain ⟨done', hd, hx⟩ := hx
      cases hx
      have := undone_mark hd h2 h3
      unfold rounds
      dsimp only
      exact ⟨h1, by omega, h5, by omega, by omega⟩
    · have hperm := List.mergeSort_perm (sp ++ [llpos]) (fun a b => decide (a ≤ b))
      have hu : undone done (0 :: (sp ++ [llpos]).mergeSort (fun a b => decide (a ≤ b))) ≤ undone done (0 :: sp) + 1 := by
        rw [undone_perm (hperm.cons 0), ← List.cons_append]
        unfold undone
        rw [List.countP_append]
        have := List.countP_le_length (p := fun x => decide (done[x]? = some 0)) (l := [llpos])
        rw [List.length_singleton] at this
        omega
      have hlen : ((sp ++ [llpos]).mergeSort (fun a b => decide (a ≤ b))).length = sp.length + 1 := by
        rw [hperm.length_eq]
        simp
      unfold rounds
      dsimp only
      refine ⟨by omega, by omega, fun y hy => ?_, by omega, by omega⟩
      rw [hperm.mem_iff, List.mem_append, List.mem_singleton] at hy
      rcases hy with hy | rfl
      · exact h5 y hy
      · omega
  · obtain ⟨done', sp', nb'⟩ := x
    dsimp only at p3 ⊢
    obtain ⟨q1, q2, q3, q4, q5⟩ := p3
    refine Cost.tick (Cost.liftBind fun found hf => ?_)
    cases found with
    | none =>
      refine Cost.pure ⟨nofun, ?_⟩
      rintro _ ⟨⟩
      exact ⟨by omega, by omega⟩
    | some ab =>
      obtain ⟨a, b⟩ := ab
      dsimp only
      obtain ⟨g1, g2, g3⟩ := findLargest_start hf q3
      refine Cost.liftBind fun d _ => Cost.ite (fun _ => Cost.pure ⟨nofun, ?_⟩) fun _ => Cost.pure ⟨?_, nofun⟩
      · rintro _ ⟨⟩
        exact ⟨by omega, by omega⟩
      rintro _ ⟨⟩
      refine ⟨⟨q1, Nat.le_trans q2 (Nat.le_max_right _ _), g1, g2, g3, q3⟩, ?_⟩
      have hr : (rounds M ⟨nb', done', a, b, sp'⟩ + 1) * R ≤ rounds M ⟨nb, done, lstart, lend, sp⟩ * R := Nat.mul_le_mul_right _ q5
      rw [Nat.add_mul, Nat.one_mul] at hr
      omega

/-- Looking for split points among the items. -/
theorem blocksplitLz77_cost [Checks] (E : Nat) (lz77 : Lz77Store) (M : Nat) (hn : lz77.size < 2 ^ 64) :
    Cost (blocksplitLz77 E F lz77 M) (Zopfli.blocksplitLz77 F lz77 M) fun sp t => sp.length + 1 ≤ max 1 M ∧
      t ≤ (2 * M + 1) * (6147 * E + 1025 + 18 * M) + 2 * lz77.size := by
  unfold blocksplitLz77 Zopfli.blocksplitLz77
  refine Cost.ite (fun _ => Cost.pure ⟨Nat.le_max_left _ _, Nat.zero_le _⟩) fun hs => Cost.tick ?_
  obtain ⟨R, hR⟩ : ∃ R, R = 6147 * E + 1025 + 18 * M := ⟨_, rfl⟩
  have hI : RoundInv lz77.size M ⟨1, Array.replicate lz77.size 0, 0, lz77.size, []⟩ := by
    refine ⟨rfl, Nat.le_max_left _ _, by simp, ?_, Nat.le_refl _, by simp⟩
    dsimp only
    rw [Array.getElem?_replicate, if_pos (by omega)]
  refine Cost.bind (Cost.loop (RoundInv lz77.size M) (fun s => rounds M s * R) (fun r => r.length + 1 ≤ max 1 M)
    (fun s hs => splitStep_cost E lz77 M hn R hR s hs) _ hI) fun sp t _ q => Cost.tick (Cost.liftBind fun _ _ => Cost.pure ?_)
  have hr : rounds M ⟨1, Array.replicate lz77.size 0, 0, lz77.size, []⟩ ≤ 2 * M + 1 := by
    unfold rounds undone
    have := List.countP_le_length (p := fun x => decide ((Array.replicate lz77.size 0)[x]? = some 0)) (l := [0])
    rw [List.length_singleton] at this
    dsimp only
    omega
  have := Nat.mul_le_mul_right R hr
  have := q.2
  rw [← hR]
  exact ⟨q.1, by omega⟩

/-- Looking for split points in the data. -/
theorem blocksplit_cost [Checks] (E : Nat) (inData : Array UInt8) (instart inend M : Nat) (hie : instart ≤ inend) (hn : inend - instart < 2 ^ 64) :
    Cost (blocksplit E F inData instart inend M) (Zopfli.blocksplit F inData instart inend M) fun _ t =>
      t ≤ 274005 * (inend - instart) + 393217 + (2 * M + 1) * (6147 * E + 1025 + 18 * M) := by
  unfold blocksplit Zopfli.blocksplit
  refine Cost.bind (greedy_cost _ _ _ _ _ hie) fun r t1 _ p1 => ?_
  obtain ⟨store, lmc⟩ := r
  dsimp only at p1 ⊢
  have h0 : Lz77Store.new.size = 0 := rfl
  refine Cost.bind (blocksplitLz77_cost E store M (by omega)) fun sp t2 _ p2 => ?_
  refine Cost.ite (fun _ => Cost.tick (Cost.liftBind fun _ _ => Cost.liftBind fun _ _ => Cost.pure ?_)) fun _ => Cost.pure ?_ <;> omega

end Work
end Zopfli
