import Verif.Proofs.WorkMatch
/-!
# Steps of the parsers
-/

namespace Zopfli
namespace Work

/-- Positions entered one after the other. -/
theorem updates_cost (arr : Array UInt8) (a b : Nat) (h : ZopfliHash) (hh : HashAt arr.size a h) :
    Cost (forRange a b h fun i h => update h arr i) (Zopfli.forRange a b h fun i h => h.update arr i) fun h' t =>
      (HashAt arr.size (a + (b - a)) h' ∧ (a < b → b ≤ arr.size)) ∧
        t + hashPot arr.size (a + (b - a)) h' ≤ hashPot arr.size a h + 2 * (b - a) := by
  refine (Cost.forRange (fun i h => HashAt arr.size i h ∧ a ≤ i ∧ (a < i → i ≤ arr.size)) (fun i h => hashPot arr.size i h + 2 * (a + (b - a) - i))
    (fun i h hi hI => ?_) ⟨hh, Nat.le_refl _, fun h => absurd h (Nat.lt_irrefl _)⟩).mono fun h' t _ p => ?_
  · refine (update_cost h arr i hI.1).mono fun h' t _ p => ?_
    exact ⟨⟨p.2.1, by omega, fun _ => by omega⟩, by omega⟩
  · refine ⟨⟨p.1.1, fun h => ?_⟩, ?_⟩
    · have := p.1.2.2 (by omega)
      omega
    · have := p.2
      omega

theorem new_same (i : Nat) : (ZopfliHash.new.same[i]?).getD 0 = 0 := by
  unfold ZopfliHash.new
  by_cases h : i < WINDOW_SIZE
  · rw [Array.getElem?_replicate, if_pos h]; rfl
  · rw [Array.getElem?_replicate, if_neg h]; rfl

theorem warmHash_cost (arr : Array UInt8) (instart inend : Nat) (hs : instart ≤ arr.size) :
    Cost (warmHash arr instart inend) (Zopfli.warmHash arr instart inend) fun h t =>
      HashAt arr.size instart h ∧ t + hashPot arr.size instart h ≤ 393216 + (arr.size - instart) := by
  unfold warmHash Zopfli.warmHash
  refine Cost.tick (Cost.liftBind fun h hw => ?_)
  have hsame : ∀ p, runAt h p = 0 := by
    intro p
    have : h.same = ZopfliHash.new.same := by
      revert hw
      generalize ZopfliHash.new = nh
      obtain ⟨h1, h2, same⟩ := nh
      intro hw
      unfold ZopfliHash.warmup at hw
      simp only [Option.bind_eq_bind, Option.bind_eq_some_iff] at hw
      obtain ⟨_, _, _, _, e⟩ := hw
      cases e
      rfl
    rw [runAt, this, new_same]
  have hat : HashAt arr.size (instart - WINDOW_SIZE) h := by
    unfold HashAt
    rw [hsame]
    omega
  refine (updates_cost arr (instart - WINDOW_SIZE) instart h hat).mono fun h' t _ p => ?_
  rw [show instart - WINDOW_SIZE + (instart - (instart - WINDOW_SIZE)) = instart by omega] at p
  refine ⟨p.1.1, ?_⟩
  have h2 := p.2
  have : hashPot arr.size (instart - WINDOW_SIZE) h ≤ arr.size - instart + 32768 := by
    unfold hashPot
    dsimp only [WINDOW_SIZE]
    omega
  have : instart - (instart - WINDOW_SIZE) ≤ 32768 := by
    dsimp only [WINDOW_SIZE]
    omega
  omega

theorem append_size {s s' : Lz77Store} {x : LitLen} {pos : Nat} (h : s.appendStoreItem x pos = some s') : s'.size = s.size + 1 := by
  obtain ⟨ll, ps, lls, ds, lc, dc⟩ := s
  unfold Lz77Store.appendStoreItem at h
  simp only [Option.bind_eq_bind, Option.bind_eq_some_iff] at h
  obtain ⟨_, _, _, _, h⟩ := h
  cases x with
  | literal l =>
    simp only [Option.bind_eq_some_iff] at h
    obtain ⟨_, _, h⟩ := h
    cases h
    simp [Lz77Store.size]
  | lengthDist l d =>
    simp only [Option.bind_eq_some_iff] at h
    obtain ⟨_, _, _, _, _, _, h⟩ := h
    cases h
    simp [Lz77Store.size]

theorem litLenDist_cost (s : Lz77Store) (length dist pos : Nat) :
    Cost (litLenDist s length dist pos) (s.litLenDist length dist pos) fun s' t => s'.size = s.size + 1 ∧ t = 321 := by
  unfold litLenDist
  exact Cost.tick (Cost.lift fun a h => ⟨append_size h, rfl⟩)

theorem verifyLenDist_cost (data : Array UInt8) (pos dist length : Nat) :
    Cost (verifyLenDist data pos dist length) (Zopfli.verifyLenDist data pos dist length) fun _ t => t = length := by
  unfold verifyLenDist
  exact Cost.tick (Cost.lift fun a h => rfl)

/-- What is true and left to do at the start of a round of `greedy`. -/
def GreedyInv (size base instart : Nat) (s : GreedyState) : Prop :=
  HashAt size s.i s.h ∧ s.prevLength ≤ 258 ∧ instart ≤ s.i ∧ s.i ≤ size ∧
    s.store.size + (if s.matchAvailable then 1 else 0) + instart ≤ base + s.i

def greedyPot (size : Nat) (s : GreedyState) : Nat := 274000 * (size - s.i) + hashPot size s.i s.h + 1

theorem greedyStep_cost (arr : Array UInt8) (instart base : Nat) (s : GreedyState) (hI : GreedyInv arr.size base instart s) :
    Cost (greedyStep arr instart arr.size s) (Zopfli.greedyStep arr instart arr.size s) fun x t =>
      (∀ s', x = .inl s' → GreedyInv arr.size base instart s' ∧ t + 1 + greedyPot arr.size s' ≤ greedyPot arr.size s) ∧
      (∀ r, x = .inr r → r.1.size + instart ≤ base + arr.size ∧ t + 1 ≤ greedyPot arr.size s) := by
  obtain ⟨i, h, lmc, store, prevLength, prevMatch, ma⟩ := s
  obtain ⟨h1, h2, h3, h4, h5⟩ := hI
  dsimp only at h1 h2 h3 h4 h5
  unfold greedyStep Zopfli.greedyStep
  refine Cost.ite (fun hi => ?_) fun hi => ?_
  · refine Cost.bind (update_cost h arr i h1) fun h' t1 _ p1 => ?_
    refine Cost.bind (findLongestMatch_cost lmc h' arr i arr.size instart MAX_MATCH none nofun (by decide)) fun r t2 _ p2 => ?_
    obtain ⟨m, lmc', sub⟩ := r
    dsimp only at p2 ⊢
    -- the part at the end of most branches
    have add : ∀ (store' : Lz77Store) (t : Nat), store'.size + instart ≤ base + i → t ≤ 321 →
        Cost (do
          let (leng, store) ←
            (if i32AsUsize (getLengthScore m.length m.distance) ≥ MIN_MATCH then do
              verifyLenDist arr i m.distance m.length
              let store ← litLenDist store' m.length m.distance i
              pure (m.length, store)
            else do
              let c ← lift arr[i]?
              let store ← litLenDist store' c.toNat 0 i
              pure (1, store))
          let h ← forRange (i + 1) (i + leng) h' fun k h => update h arr k
          return (Sum.inl ⟨i + (leng - 1) + 1, h, lmc', store, prevLength, prevMatch, false⟩ : GreedyState ⊕ (Lz77Store × Cache)))
        (do
          let (leng, store) ←
            (if i32AsUsize (getLengthScore m.length m.distance) ≥ MIN_MATCH then do
              Zopfli.verifyLenDist arr i m.distance m.length
              some (m.length, ← store'.litLenDist m.length m.distance i)
            else do some (1, ← store'.litLenDist (← arr[i]?).toNat 0 i))
          let h ← Zopfli.forRange (i + 1) (i + leng) h' fun k h => h.update arr k
          return .inl ⟨i + (leng - 1) + 1, h, lmc', store, prevLength, prevMatch, false⟩) fun x t' =>
      (∀ s', x = .inl s' → GreedyInv arr.size base instart s' ∧ t1 + (t2 + (t + t')) + 1 + greedyPot arr.size s' ≤ greedyPot arr.size ⟨i, h, lmc, store, prevLength, prevMatch, ma⟩) ∧
      (∀ r, x = .inr r → r.1.size + instart ≤ base + arr.size ∧ t1 + (t2 + (t + t')) + 1 ≤ greedyPot arr.size ⟨i, h, lmc, store, prevLength, prevMatch, ma⟩) := by
      intro store' t hst ht
      have fst : Cost (if i32AsUsize (getLengthScore m.length m.distance) ≥ MIN_MATCH then do
              verifyLenDist arr i m.distance m.length
              let store ← litLenDist store' m.length m.distance i
              pure (m.length, store)
            else do
              let c ← lift arr[i]?
              let store ← litLenDist store' c.toNat 0 i
              pure (1, store))
          (if i32AsUsize (getLengthScore m.length m.distance) ≥ MIN_MATCH then do
              Zopfli.verifyLenDist arr i m.distance m.length
              some (m.length, ← store'.litLenDist m.length m.distance i)
            else do some (1, ← store'.litLenDist (← arr[i]?).toNat 0 i)) fun r t => r.2.size = store'.size + 1 ∧ r.1 ≤ 258 ∧ i + r.1 ≤ arr.size ∧ t ≤ 579 := by
        refine Cost.ite (fun _ => ?_) fun _ => ?_
        · refine Cost.bind (verifyLenDist_cost ..) fun _ t _ p => ?_
          refine Cost.bind (litLenDist_cost ..) fun s' t' _ p' => Cost.pure ⟨p'.1, p2.2.1, p2.2.2.1, by omega⟩
        · refine Cost.liftBind fun c hc => ?_
          refine Cost.bind (litLenDist_cost ..) fun s' t' _ p' => Cost.pure ⟨p'.1, by omega, by dsimp only; omega, by omega⟩
      refine Cost.bind fst fun r t3 _ p3 => ?_
      obtain ⟨leng, store''⟩ := r
      dsimp only at p3 ⊢
      refine Cost.bind (updates_cost arr (i + 1) (i + leng) h' p1.2.1) fun h'' t4 _ p4 => Cost.pure ⟨?_, nofun⟩
      rintro _ ⟨⟩
      rw [show i + 1 + (i + leng - (i + 1)) = i + (leng - 1) + 1 by omega] at p4
      unfold GreedyInv greedyPot
      dsimp only
      obtain ⟨⟨q1, q2⟩, q3⟩ := p4
      refine ⟨⟨q1, h2, by omega, by omega, by simp only [Bool.false_eq_true, if_false]; omega⟩, ?_⟩
      omega
    cases ma with
    | true =>
      simp only [if_true] at h5 ⊢
      by_cases hsc : getLengthScore m.length m.distance > getLengthScore prevLength prevMatch + 1
      · simp only [if_pos hsc]
        by_cases h0 : i = 0
        · simp only [if_pos h0]
          exact Cost.noneBind
        · simp only [if_neg h0]
          refine Cost.liftBind fun c _ => ?_
          refine Cost.bind (litLenDist_cost ..) fun store' t3 _ p3 => ?_
          refine Cost.ite (fun hc => ?_) fun _ => ?_
          · refine Cost.pure ⟨?_, nofun⟩
            rintro _ ⟨⟩
            unfold GreedyInv greedyPot
            dsimp only
            refine ⟨⟨p1.2.1, by omega, by omega, by omega, by simp only [if_true]; omega⟩, ?_⟩
            omega
          · exact add store' t3 (by omega) (by omega)
      · simp only [if_neg hsc]
        by_cases h0 : i = 0
        · simp only [if_pos h0]
          exact Cost.noneBind
        · simp only [if_neg h0]
          refine Cost.bind (verifyLenDist_cost ..) fun _ t3 _ p3 => ?_
          refine Cost.bind (litLenDist_cost ..) fun store' t4 _ p4 => ?_
          refine Cost.bind (updates_cost arr (i + 1) (i + 1 + (prevLength - 2)) h' p1.2.1) fun h'' t5 _ p5 => Cost.pure ⟨?_, nofun⟩
          rintro _ ⟨⟩
          rw [show i + 1 + (i + 1 + (prevLength - 2) - (i + 1)) = i + (prevLength - 2) + 1 by omega] at p5
          unfold GreedyInv greedyPot
          dsimp only
          obtain ⟨⟨q1, q2⟩, q3⟩ := p5
          have hle : i + (prevLength - 2) + 1 ≤ arr.size := by
            by_cases hp : prevLength - 2 = 0
            · omega
            · have := q2 (by omega)
              omega
          refine ⟨⟨q1, h2, by omega, hle, by simp only [Bool.false_eq_true, if_false]; omega⟩, ?_⟩
          omega
    | false =>
      simp only [Bool.false_eq_true, if_false] at h5 ⊢
      refine Cost.ite (fun hc => ?_) fun _ => ?_
      · refine Cost.pure ⟨?_, nofun⟩
        rintro _ ⟨⟩
        unfold GreedyInv greedyPot
        dsimp only
        refine ⟨⟨p1.2.1, by omega, by omega, by omega, by simp only [if_true]; omega⟩, ?_⟩
        omega
      · refine (add store 0 (by omega) (by omega)).mono fun x t _ p => ?_
        simp only [Nat.zero_add] at p
        exact p
  · refine Cost.pure ⟨nofun, ?_⟩
    rintro _ ⟨⟩
    unfold greedyPot
    dsimp only
    refine ⟨?_, by omega⟩
    split at h5 <;> omega

theorem slice_size {α : Type} {a b : Array α} {e : Nat} (h : slice a 0 e = some b) : b.size = e := by
  unfold slice at h
  split at h
  · cases h
    rw [Array.size_extract]
    omega
  · cases h

theorem greedy_cost (store : Lz77Store) (lmc : Cache) (inData : Array UInt8) (instart inend : Nat) (hie : instart ≤ inend) :
    Cost (greedy store lmc inData instart inend) (Zopfli.greedy store lmc inData instart inend) fun r t =>
      r.1.size ≤ store.size + (inend - instart) ∧ t ≤ 274002 * (inend - instart) + 393217 := by
  unfold greedy Zopfli.greedy
  refine Cost.ite (fun he => Cost.pure ⟨by dsimp only; omega, by omega⟩) fun hne => ?_
  refine Cost.liftBind fun arr ha => ?_
  have hsz : arr.size = inend := slice_size ha
  subst hsz
  refine Cost.bind (warmHash_cost arr instart arr.size hie) fun h t _ p => ?_
  have hI : GreedyInv arr.size store.size instart ⟨instart, h, lmc, store, 0, 0, false⟩ := by
    unfold GreedyInv
    simp only [Bool.false_eq_true, if_false]
    exact ⟨p.1, by omega, by omega, hie, by omega⟩
  refine (Cost.loop (GreedyInv arr.size store.size instart) (greedyPot arr.size) (fun r => r.1.size + instart ≤ store.size + arr.size)
    (fun s hs => greedyStep_cost arr instart store.size s hs) _ hI).mono fun r t' _ q => ?_
  · unfold greedyPot at q
    dsimp only at q
    have h1 := q.1
    have h2 := q.2
    have h3 := p.2
    refine ⟨by omega, by omega⟩

theorem followPathLoop_cost (arr : Array UInt8) (instart : Nat) (path : List Nat) : ∀ (pos : Nat) (h : ZopfliHash) (lmc : Cache) (store : Lz77Store),
    (∀ x ∈ path, x ≤ 258) → HashAt arr.size pos h →
    Cost (followPathLoop arr instart arr.size path pos h lmc store) (Zopfli.followPathLoop arr instart arr.size path pos h lmc store) fun r t =>
      r.1.size ≤ store.size + (arr.size - pos) ∧ t ≤ 274000 * (arr.size - pos) + hashPot arr.size pos h := by
  induction path with
  | nil =>
    intro pos h lmc store _ _
    refine Cost.pure ⟨?_, ?_⟩
    · exact Nat.le_add_right _ _
    · exact Nat.zero_le _
  | cons item path ih =>
    intro pos h lmc store hp hh
    unfold followPathLoop Zopfli.followPathLoop
    refine Cost.tick (Cost.bind (update_cost h arr pos hh) fun h' t1 _ p1 => ?_)
    have hitem : item ≤ 258 := hp item (by simp)
    have fst : Cost (if item ≥ MIN_MATCH then do
          let (m, lmc, _) ← findLongestMatch lmc h' arr pos arr.size instart item none
          lift (guardR ¬ (m.length ≠ item ∧ item > 2 ∧ m.length > 2))
          verifyLenDist arr pos m.distance item
          let store ← litLenDist store item m.distance pos
          pure (item, lmc, store)
        else do
          let c ← lift arr[pos]?
          let store ← litLenDist store c.toNat 0 pos
          pure (1, lmc, store))
        (if item ≥ MIN_MATCH then do
          let (m, lmc, _) ← Zopfli.findLongestMatch lmc h' arr pos arr.size instart item none
          guardR ¬ (m.length ≠ item ∧ item > 2 ∧ m.length > 2)
          Zopfli.verifyLenDist arr pos m.distance item
          some (item, lmc, ← store.litLenDist item m.distance pos)
        else do some (1, lmc, ← store.litLenDist (← arr[pos]?).toNat 0 pos)) fun r t => 1 ≤ r.1 ∧ r.1 ≤ 258 ∧ r.2.2.size = store.size + 1 ∧ t ≤ 273579 := by
      refine Cost.ite (fun hm => ?_) fun _ => ?_
      · refine Cost.bind (findLongestMatch_cost lmc h' arr pos arr.size instart item none nofun hitem) fun r t2 _ p2 => ?_
        refine Cost.liftBind fun _ _ => ?_
        refine Cost.bind (verifyLenDist_cost ..) fun _ t3 _ p3 => ?_
        refine Cost.bind (litLenDist_cost ..) fun s' t' _ p' => Cost.pure ⟨?_, hitem, p'.1, by omega⟩
        dsimp only [MIN_MATCH] at hm ⊢
        omega
      · refine Cost.liftBind fun c hc => ?_
        refine Cost.bind (litLenDist_cost ..) fun s' t' _ p' => Cost.pure ⟨by omega, by omega, p'.1, by omega⟩
    refine Cost.bind fst fun r t2 _ p2 => ?_
    obtain ⟨length, lmc', store'⟩ := r
    dsimp only at p2 ⊢
    refine Cost.liftBind fun _ hg => ?_
    have hg := of_decide_eq_true (guardR_some hg)
    refine Cost.bind (updates_cost arr (pos + 1) (pos + length) h' p1.2.1) fun h'' t3 _ p3 => ?_
    rw [show pos + 1 + (pos + length - (pos + 1)) = pos + length by omega] at p3
    refine (ih (pos + length) h'' lmc' store' (fun x hx => hp x (List.mem_cons_of_mem _ hx)) p3.1.1).mono fun r t _ q => ?_
    have h1 := p3.2
    have h2 := q.1
    have h3 := q.2
    refine ⟨by omega, by omega⟩

theorem followPath_cost (store : Lz77Store) (inData : Array UInt8) (instart inend : Nat) (path : List Nat) (lmc : Cache) (hie : instart ≤ inend)
    (hp : ∀ x ∈ path, x ≤ 258) (hl : path.length ≤ inend - instart) :
    Cost (followPath store inData instart inend path lmc) (Zopfli.followPath store inData instart inend path lmc) fun r t =>
      r.1.size ≤ store.size + (inend - instart) ∧ t ≤ 274002 * (inend - instart) + 393216 := by
  unfold followPath Zopfli.followPath
  refine Cost.ite (fun he => Cost.pure ⟨by dsimp only; omega, by omega⟩) fun hne => ?_
  refine Cost.liftBind fun arr ha => ?_
  have hsz : arr.size = inend := slice_size ha
  subst hsz
  refine Cost.bind (warmHash_cost arr instart arr.size hie) fun h t _ p => Cost.tick ?_
  refine (followPathLoop_cost arr instart path.reverse instart h lmc store (fun x hx => hp x (List.mem_reverse.1 hx)) p.1).mono fun r t' _ q => ?_
  have h2 := q.2
  have h3 := p.2
  exact ⟨q.1, by omega⟩

theorem traceFrom_cost (la : Array Nat) : ∀ index, Cost (traceFrom la index) (Zopfli.traceFrom la index) fun l t =>
    (∀ x ∈ l, x ≤ 258) ∧ l.length ≤ index ∧ t ≤ index := by
  intro index
  induction index using Nat.strongRecOn with
  | ind index ih =>
    rw [traceFrom, Zopfli.traceFrom]
    by_cases h0 : index = 0
    · rw [if_pos h0, if_pos h0]
      exact Cost.pure ⟨by simp, by simp, by omega⟩
    · rw [if_neg h0, if_neg h0]
      cases la[index]? with
      | none => exact Cost.none
      | some lai =>
        dsimp only
        by_cases hc : lai ≤ index ∧ lai ≤ MAX_MATCH ∧ lai ≠ 0
        · rw [if_pos hc, if_pos hc]
          refine Cost.tick (Cost.bind (ih (index - lai) (by omega)) fun l t _ p => Cost.pure ⟨?_, ?_, by omega⟩)
          · intro x hx
            rw [List.mem_cons] at hx
            rcases hx with rfl | hx
            · exact hc.2.1
            · exact p.1 x hx
          · rw [List.length_cons]
            omega
        · rw [if_neg hc, if_neg hc]
          exact Cost.none

/-- What is true at the start of a round of `get_best_lengths`. -/
def BestInv {F : FloatOps} (size : Nat) (s : BestState F) : Prop :=
  HashAt size s.i s.h ∧ s.i ≤ size ∧ s.sublen.size = 259

def bestPot {F : FloatOps} (size : Nat) (s : BestState F) : Nat := 274000 * (size - s.i) + hashPot size s.i s.h + 1

theorem skipRun_cost (F : FloatOps) (costmodel : Nat → Nat → Option F.F64) (arr : Array UInt8) (instart i : Nat) (h : ZopfliHash) (costs : Array F.F32)
    (la : Array Nat) (hh : HashAt arr.size (i + 1) h) :
    Cost (skipRun F costmodel arr instart i h costs la) (Zopfli.skipRun F costmodel arr instart i h costs la) fun r t =>
      HashAt arr.size (i + MAX_MATCH + 1) r.1 ∧ i + MAX_MATCH + 1 ≤ arr.size ∧
        t + hashPot arr.size (i + MAX_MATCH + 1) r.1 ≤ hashPot arr.size (i + 1) h + 2 * MAX_MATCH := by
  unfold skipRun Zopfli.skipRun
  refine Cost.liftBind fun sc _ => ?_
  have hM : 0 < MAX_MATCH := by decide
  generalize MAX_MATCH = M at hM ⊢
  refine (Cost.forRange (fun k (s : ZopfliHash × Array F.F32 × Array Nat) => HashAt arr.size (i + k + 1) s.1 ∧ (0 < k → i + k + 1 ≤ arr.size))
    (fun k s => hashPot arr.size (i + k + 1) s.1 + 2 * (M - k)) (fun k s hk hI => ?_) ?_).mono fun r t _ p => ?_
  · obtain ⟨h, costs, la⟩ := s
    dsimp only at hk hI ⊢
    refine Cost.liftBind fun c _ => Cost.liftBind fun costs' _ => Cost.liftBind fun la' _ => ?_
    refine Cost.bind (update_cost h arr (i + k + 1) hI.1) fun h' t _ p => Cost.pure ?_
    dsimp only
    rw [show i + (k + 1) + 1 = i + k + 1 + 1 by omega]
    exact ⟨⟨p.2.1, fun _ => by omega⟩, by omega⟩
  · refine ⟨hh, ?_⟩
    intro h
    exact absurd h (Nat.lt_irrefl _)
  · dsimp only at p
    rw [show 0 + (M - 0) = M by omega] at p
    have h1 := p.1.2 hM
    have h2 := p.2
    refine ⟨p.1.1, by omega, ?_⟩
    rw [show i + 0 + 1 = i + 1 by omega] at h2
    omega

theorem tryLengths_cost (F : FloatOps) (costmodel : Nat → Nat → Option F.F64) (m : F.F64) (sublen : Array Nat) (kend j : Nat) (costs : Array F.F32)
    (la : Array Nat) :
    Cost (tryLengths F costmodel m sublen kend j costs la) (Zopfli.tryLengths F costmodel m sublen kend j costs la) fun _ t => t ≤ sublen.size := by
  unfold tryLengths
  exact Cost.tick (Cost.lift fun a h => by omega)

theorem bestStep_cost (F : FloatOps) (costmodel : Nat → Nat → Option F.F64) (mincost : F.F64) (arr : Array UInt8) (instart : Nat) (s : BestState F)
    (hI : BestInv arr.size s) :
    Cost (bestStep F costmodel mincost arr instart arr.size s) (Zopfli.bestStep F costmodel mincost arr instart arr.size s) fun x t =>
      (∀ s', x = .inl s' → BestInv arr.size s' ∧ t + 1 + bestPot arr.size s' ≤ bestPot arr.size s) ∧
      (∀ r, x = .inr r → True ∧ t + 1 ≤ bestPot arr.size s) := by
  obtain ⟨i, h, lmc, costs, la, sublen⟩ := s
  obtain ⟨h1, h2, h3⟩ := hI
  dsimp only at h1 h2 h3
  unfold bestStep Zopfli.bestStep
  refine Cost.ite (fun hi => ?_) fun hi => ?_
  · refine Cost.bind (update_cost h arr i h1) fun h' t1 _ p1 => ?_
    refine Cost.liftBind fun long _ => ?_
    have fst : Cost (if long = true then do
          let (h, costs, lengthArray) ← skipRun F costmodel arr instart i h' costs la
          pure (i + MAX_MATCH, h, costs, lengthArray)
        else pure (i, h', costs, la))
        (if long = true then do
          let (h, costs, lengthArray) ← Zopfli.skipRun F costmodel arr instart i h' costs la
          some (i + MAX_MATCH, h, costs, lengthArray)
        else some (i, h', costs, la)) fun r t => HashAt arr.size (r.1 + 1) r.2.1 ∧ i ≤ r.1 ∧ r.1 + 1 ≤ arr.size ∧
          t + hashPot arr.size (r.1 + 1) r.2.1 ≤ hashPot arr.size (i + 1) h' + 2 * (r.1 - i) := by
      refine Cost.ite (fun _ => ?_) fun _ => Cost.pure ⟨p1.2.1, by dsimp only; omega, p1.1, by dsimp only; omega⟩
      refine Cost.bind (skipRun_cost F costmodel arr instart i h' costs la p1.2.1) fun r t _ p => Cost.pure ?_
      dsimp only [MAX_MATCH] at p ⊢
      exact ⟨p.1, by omega, p.2.1, by omega⟩
    refine Cost.bind fst fun r t2 _ p2 => ?_
    obtain ⟨i', h'', costs', la'⟩ := r
    dsimp only at p2 ⊢
    refine Cost.bind (findLongestMatch_cost lmc h'' arr i' arr.size instart MAX_MATCH (some sublen) (by rintro _ ⟨⟩; exact h3) (by decide)) fun r t3 _ p3 => ?_
    obtain ⟨m, lmc', sub⟩ := r
    dsimp only at p3 ⊢
    refine Cost.liftBind fun sublen' hsub => Cost.liftBind fun lit _ => ?_
    have hsz := p3.1 _ hsub
    obtain ⟨costs'', la''⟩ := lit
    dsimp only
    refine Cost.liftBind fun cj _ => ?_
    refine Cost.bind (tryLengths_cost ..) fun r t4 _ p4 => Cost.pure ⟨?_, nofun⟩
    rintro _ ⟨⟩
    unfold BestInv bestPot
    dsimp only
    refine ⟨⟨p2.1, p2.2.2.1, hsz⟩, ?_⟩
    rw [hsz] at p4
    have h4 := p2.2.2.2
    omega
  · refine Cost.lift fun a ha => ⟨?_, fun r _ => ⟨trivial, ?_⟩⟩
    · rintro s' rfl
      simp only [Option.bind_eq_bind, Option.bind_eq_some_iff] at ha
      obtain ⟨_, _, _, _, _, _, _, _, e⟩ := ha
      cases e
    · unfold bestPot
      omega

theorem getBestLengths_cost (F : FloatOps) (lmc : Cache) (inData : Array UInt8) (instart inend : Nat) (costmodel : Nat → Nat → Option F.F64) :
    Cost (getBestLengths F lmc inData instart inend costmodel) (Zopfli.getBestLengths F lmc inData instart inend costmodel) fun _ t =>
      instart ≤ inend ∧ t ≤ 274004 * (inend - instart) + 393507 := by
  unfold getBestLengths Zopfli.getBestLengths
  refine Cost.liftBind fun bs hbs => Cost.tick ?_
  have hb : instart ≤ inend ∧ bs = inend - instart := by
    unfold usub at hbs
    split at hbs
    · cases hbs
      exact ⟨‹_›, rfl⟩
    · cases hbs
  refine Cost.ite (fun he => Cost.pure ⟨hb.1, by omega⟩) fun hne => ?_
  refine Cost.liftBind fun arr ha => ?_
  have hsz : arr.size = inend := slice_size ha
  subst hsz
  refine Cost.bind (warmHash_cost arr instart arr.size hb.1) fun h t _ p => Cost.tick ?_
  refine Cost.liftBind fun costs _ => Cost.tick (Cost.liftBind fun mc _ => ?_)
  have hI : BestInv arr.size (⟨instart, h, lmc, costs, Array.replicate (bs + 1) 0, Array.replicate (MAX_MATCH + 1) 0⟩ : BestState F) := by
    unfold BestInv
    refine ⟨p.1, hb.1, ?_⟩
    simp only [Array.size_replicate]
  refine (Cost.loop (BestInv arr.size) (bestPot arr.size) (fun _ => True) (fun s hs => bestStep_cost F costmodel mc arr instart s hs) _ hI).mono fun r t' _ q => ?_
  unfold bestPot at q
  dsimp only at q
  have h2 := q.2
  have h3 := p.2
  exact ⟨hb.1, by omega⟩

/-- One pass of the optimiser. -/
theorem run_cost (F : FloatOps) (lmc : Cache) (inData : Array UInt8) (instart inend : Nat) (costmodel : Nat → Nat → Option F.F64) (store : Lz77Store) :
    Cost (lz77OptimalRun F lmc inData instart inend costmodel store) (Zopfli.lz77OptimalRun F lmc inData instart inend costmodel store) fun r t =>
      r.1.size ≤ store.size + (inend - instart) ∧ t ≤ 548007 * (inend - instart) + 786723 := by
  unfold lz77OptimalRun Zopfli.lz77OptimalRun
  refine Cost.bind (getBestLengths_cost ..) fun r t1 _ p1 => ?_
  obtain ⟨la, lmc'⟩ := r
  dsimp only
  refine Cost.bind (traceFrom_cost la (inend - instart)) fun path t2 _ p2 => ?_
  refine (followPath_cost store inData instart inend path lmc' p1.1 p2.1 p2.2.1).mono fun r t3 _ p3 => ?_
  exact ⟨p3.1, by omega⟩

theorem fixed_cost (F : FloatOps) (lmc : Cache) (inData : Array UInt8) (instart inend : Nat) (store : Lz77Store) :
    Cost (lz77OptimalFixed F lmc inData instart inend store) (Zopfli.lz77OptimalFixed F lmc inData instart inend store) fun r t =>
      r.1.size ≤ store.size + (inend - instart) ∧ t ≤ 548007 * (inend - instart) + 1081635 := by
  unfold lz77OptimalFixed Zopfli.lz77OptimalFixed
  refine Cost.tick ((run_cost ..).mono fun r t _ p => ⟨p.1, by omega⟩)

theorem newCache_cost (n : Nat) : Cost (newCache n) (some (.lmc (.new n))) fun _ t => t = 26 * n := by
  unfold newCache
  exact Cost.tick (Cost.pure rfl)

theorem getStatistics_cost (E : Nat) {F : FloatOps} (s : SymbolStats F) (store : Lz77Store) :
    Cost (getStatistics E s store) (s.getStatistics store) fun _ t => t = store.size + E := by
  unfold getStatistics
  exact Cost.tick (Cost.lift fun _ _ => rfl)

theorem optimalStep_cost [Checks] (E : Nat) (F : FloatOps) (inData : Array UInt8) (instart inend maxI maxW : Nat) (s : OptimalState F)
    (hI : s.outputstore.size ≤ inend - instart ∧ s.currentIteration < max maxI 1) :
    Cost (optimalStep E F inData instart inend maxI maxW s) (Zopfli.optimalStep F inData instart inend maxI maxW s) fun x t =>
      (∀ s', x = .inl s' → (s'.outputstore.size ≤ inend - instart ∧ s'.currentIteration < max maxI 1) ∧
        t + 1 + (max maxI 1 - s'.currentIteration) * (548014 * (inend - instart) + 787044 + 6 * E) ≤
          (max maxI 1 - s.currentIteration) * (548014 * (inend - instart) + 787044 + 6 * E)) ∧
      (∀ r, x = .inr r → r.size ≤ inend - instart ∧
        t + 1 ≤ (max maxI 1 - s.currentIteration) * (548014 * (inend - instart) + 787044 + 6 * E)) := by
  obtain ⟨lmc, out, stats, bs, bc, lc, rs, lrs, cur, wo⟩ := s
  dsimp only at hI
  unfold optimalStep Zopfli.optimalStep
  dsimp only
  refine Cost.bind (run_cost ..) fun r t1 _ p1 => ?_
  obtain ⟨cs, lmc'⟩ := r
  dsimp only at p1 ⊢
  have hcs : cs.size ≤ inend - instart := by
    have : Lz77Store.new.size = 0 := rfl
    omega
  have hcost : Cost (calculateBlockSize E F cs 0 cs.size .dynamic) (Zopfli.calculateBlockSize F cs 0 cs.size .dynamic) fun _ t => t = E :=
    Cost.tick (Cost.lift fun _ _ => rfl)
  refine Cost.bind hcost fun cost t2 _ p2 => Cost.tick ?_
  generalize hC : 548014 * (inend - instart) + 787044 + 6 * E = C
  obtain ⟨imp, himp⟩ : ∃ b, b = F.lt cost bc := ⟨_, rfl⟩
  rw [← himp]
  have htick : (if imp = true then 6 * cs.size + 320 + E else 0) ≤ 6 * cs.size + 320 + E := by split <;> omega
  have hout : (if imp = true then cs else out).size ≤ inend - instart := by
    split
    · exact hcs
    · exact hI.1
  have hone : C ≤ (max maxI 1 - cur) * C := Nat.le_mul_of_pos_left _ (by omega)
  refine Cost.ite (fun _ => ?_) fun _ => ?_
  · refine Cost.pure ⟨nofun, ?_⟩
    rintro _ ⟨⟩
    exact ⟨hout, by omega⟩
  · refine Cost.ite (fun _ => ?_) fun hcur => ?_
    · refine Cost.pure ⟨nofun, ?_⟩
      rintro _ ⟨⟩
      exact ⟨hout, by omega⟩
    · have hn : Cost (nextStats E F cs cost lc (cur + 1) lrs stats (if imp = true then stats else bs) rs)
          (Zopfli.nextStats F cs cost lc (cur + 1) lrs stats (if imp = true then stats else bs) rs) fun _ t => t = cs.size + 4 * E :=
        Cost.tick (Cost.lift fun _ _ => rfl)
      refine Cost.bind hn fun r t3 _ p3 => Cost.pure ⟨?_, nofun⟩
      rintro _ ⟨⟩
      dsimp only
      refine ⟨⟨hout, by omega⟩, ?_⟩
      have e : (max maxI 1 - cur) * C = (max maxI 1 - (cur + 1)) * C + C := by
        rw [show max maxI 1 - cur = (max maxI 1 - (cur + 1)) + 1 by omega, Nat.add_mul, Nat.one_mul]
      rw [e]
      omega

theorem lz77Optimal_cost [Checks] (E : Nat) (F : FloatOps) (lmc : Cache) (inData : Array UInt8) (instart inend maxI maxW : Nat) (hie : instart ≤ inend) :
    Cost (lz77Optimal E F lmc inData instart inend maxI maxW) (Zopfli.lz77Optimal F lmc inData instart inend maxI maxW) fun r t =>
      r.size ≤ inend - instart ∧
        t ≤ max maxI 1 * (548014 * (inend - instart) + 787044 + 6 * E) + (274003 * (inend - instart) + 688129 + E) := by
  unfold lz77Optimal Zopfli.lz77Optimal
  refine Cost.bind (greedy_cost _ _ _ _ _ hie) fun r t1 _ p1 => ?_
  obtain ⟨cs, lmc'⟩ := r
  dsimp only at p1 ⊢
  refine Cost.bind (getStatistics_cost ..) fun stats t2 _ p2 => Cost.tick ?_
  have h0 : Lz77Store.new.size = 0 := rfl
  have hI : (⟨lmc', Lz77Store.new, stats, .default F, F.inf, F.ofUsize 0, .new, none, 0, 0⟩ : OptimalState F).outputstore.size ≤ inend - instart ∧
      (⟨lmc', Lz77Store.new, stats, .default F, F.inf, F.ofUsize 0, .new, none, 0, 0⟩ : OptimalState F).currentIteration < max maxI 1 := by
    dsimp only
    omega
  refine (Cost.loop (fun s => s.outputstore.size ≤ inend - instart ∧ s.currentIteration < max maxI 1)
    (fun s => (max maxI 1 - s.currentIteration) * (548014 * (inend - instart) + 787044 + 6 * E)) (fun r => r.size ≤ inend - instart)
    (fun s hs => optimalStep_cost E F inData instart inend maxI maxW s hs) _ hI).mono fun r t' _ q => ?_
  dsimp only at q
  rw [Nat.sub_zero] at q
  exact ⟨q.1, by omega⟩

end Work
end Zopfli
