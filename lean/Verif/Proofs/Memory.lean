import Verif.Model.Memory
import Verif.Proofs.Basic
/-!
# Memory that is written before it is read
-/

namespace Zopfli

theorem initPrev_spec (n : Nat) : ∀ t : RawThing,
    let t' := (List.range n).foldl (fun t i => { t with prev := rawWrite t.prev i i, hashval := rawWrite t.hashval i none }) t
    (∀ i, i < n → t'.prev i = some i ∧ t'.hashval i = some none) ∧ t'.head = t.head ∧ t'.val = t.val := by
  induction n with
  | zero => intro t; exact ⟨fun i h => absurd h (Nat.not_lt_zero _), rfl, rfl⟩
  | succ n ih =>
    intro t
    obtain ⟨h1, h2, h3⟩ := ih t
    rw [List.range_succ, List.foldl_append]
    refine ⟨fun i hi => ?_, h2, h3⟩
    dsimp only [List.foldl_cons, List.foldl_nil, rawWrite]
    by_cases e : i = n
    · subst e
      simp
    · rw [if_neg e, if_neg e]
      exact h1 i (by omega)

theorem mapM_some_eq {α β : Type} {f : α → Option β} {g : α → β} : ∀ {l : List α}, (∀ x ∈ l, f x = some (g x)) → l.mapM f = some (l.map g)
  | [], _ => rfl
  | x :: l, h => by
    rw [List.mapM_cons, h x (by simp), mapM_some_eq fun y hy => h y (List.mem_cons_of_mem _ hy)]
    rfl

theorem u16At_fill {le : Bool} {f : Nat → Option UInt8} {n i : Nat} {v : UInt8} (h : i < n) :
    u16At le (rawFill f (2 * n) v) i = some (257 * v.toNat) := by
  unfold u16At rawFill
  rw [if_pos (by omega), if_pos (by omega)]
  cases le
  · show some (256 * v.toNat + v.toNat) = _
    congr 1
    omega
  · show some (v.toNat + 256 * v.toNat) = _
    congr 1
    omega

theorem range_map_const {α : Type} (n : Nat) (v : α) : (List.range n).map (fun _ => v) = List.replicate n v := by
  rw [List.map_const', List.length_range]

theorem headList (le : Bool) (f : Nat → Option UInt8) (n : Nat) :
    (List.range n).mapM (i16At le (rawFill f (2 * n) 0xFF)) = some (List.replicate n none) := by
  rw [mapM_some_eq (g := fun _ => none) (fun i hi => by
    rw [List.mem_range] at hi
    unfold i16At
    rw [u16At_fill hi]
    rfl), range_map_const]

theorem sameList (le : Bool) (f : Nat → Option UInt8) (n : Nat) :
    (List.range n).mapM (u16At le (rawFill f (2 * n) 0)) = some (List.replicate n 0) := by
  rw [mapM_some_eq (g := fun _ => 0) (fun i hi => by
    rw [List.mem_range] at hi
    rw [u16At_fill hi]
    rfl), range_map_const]

theorem pahList {t : RawThing} (n : Nat) (h : ∀ i, i < n → t.prev i = some i ∧ t.hashval i = some none) :
    ((List.range n).mapM fun i => do return (⟨← t.prev i, ← t.hashval i⟩ : SmallerHashThing)) = some ((List.range n).map fun i => ⟨i, none⟩) := by
  refine mapM_some_eq fun i hi => ?_
  rw [List.mem_range] at hi
  obtain ⟨q1, q2⟩ := h i hi
  rw [q1, q2]
  rfl

theorem ofFn_range {α : Type} (n : Nat) (f : Nat → α) : ((List.range n).map f).toArray = Array.ofFn fun i : Fin n => f i.val := by
  apply Array.ext
  · simp
  · intro i hi hi'
    simp

/-- Initialisation determines everything that can be read. -/
theorem init_read (le : Bool) (m : RawHash) : m.init.read le = some ZopfliHash.new := by
  have ht : ∀ t : RawThing, (∀ i, i < WINDOW_SIZE → t.prev i = some i ∧ t.hashval i = some none) → ∀ f, t.head = rawFill f (2 * 65536) 0xFF →
      t.val = some 0 → t.read le = some HashThing.init := by
    intro t h1 f h2 h3
    unfold RawThing.read HashThing.init
    rw [h2, headList, some_bind, pahList _ h1, some_bind, h3, some_bind, ofFn_range, List.toArray_replicate]
    rfl
  unfold RawHash.read RawHash.init
  dsimp only
  have h1 : ∀ i, i < WINDOW_SIZE → m.hash1.initPrev.prev i = some i ∧ m.hash1.initPrev.hashval i = some none := by
    unfold RawThing.initPrev
    exact (initPrev_spec WINDOW_SIZE m.hash1).1
  generalize m.hash1.initPrev = t at h1
  have h2 := ht ⟨rawFill t.head (2 * 65536) 0xFF, t.prev, t.hashval, some 0⟩ h1 t.head (by simp only) (by simp only)
  rw [h2, some_bind, some_bind, sameList, some_bind, List.toArray_replicate]
  rfl

theorem vecResize_size {α : Type} (a : Array α) (n : Nat) (v : α) : (vecResize a n v).size = n := by
  unfold vecResize
  split
  · rw [Array.size_extract]; omega
  · rw [Array.size_append, Array.size_replicate]; omega

/-- The buffer of costs does not depend on what it held. -/
theorem prepareCosts_eq (F : FloatOps) (costs : Array F.F32) (n : Nat) :
    prepareCosts F costs n = aset (Array.replicate (n + 1) F.inf32) 0 F.zero32 := by
  unfold prepareCosts
  dsimp only
  obtain ⟨c, e, h1, h2⟩ := forRange_spec (f := fun i costs => aset costs i F.inf32) (s := vecResize costs (n + 1) F.zero32)
    (fun i c => c.size = n + 1 ∧ ∀ j, 1 ≤ j → j < i → c[j]? = some F.inf32) (a := 1) (b := n + 1) (by omega)
    ⟨vecResize_size _ _ _, fun j h1 h2 => by omega⟩ (by
      rintro i c hi hi' ⟨g1, g2⟩
      unfold aset
      rw [dif_pos (by omega)]
      refine ⟨_, rfl, by simpa using g1, fun j h1 h2 => ?_⟩
      rw [Array.getElem?_set]
      split
      · rfl
      · exact g2 j h1 (by omega))
  rw [e]
  show aset c 0 F.zero32 = _
  unfold aset
  rw [dif_pos (by omega), dif_pos (by simp)]
  refine congrArg some (Array.ext (by simp [h1]) fun i hi hi' => ?_)
  rw [Array.getElem_set, Array.getElem_set]
  split
  · rfl
  · have := h2 i (by omega) (by simpa [h1] using hi)
    rw [Array.getElem?_eq_getElem (by simpa using hi)] at this
    rw [Option.some.inj this]
    simp

/-- Two loops of which one carries more along. -/
theorem loopM_carry {σ σ' ρ ρ' : Type} {body : σ → Option (σ ⊕ ρ)} {body' : σ' → Option (σ' ⊕ ρ')} (f : σ' → σ) (g : ρ' → ρ)
    (h : ∀ s, (body' s).map (Sum.map f g) = body (f s)) (s : σ') : (loopM body' s).map g = loopM body (f s) := by
  have h1 : ∀ s r, loopM body' s = some r → loopM body (f s) = some (g r) := by
    refine loopM.partial_correctness (body := body') (motive := fun s r => loopM body (f s) = some (g r)) ?_
    intro loop ih s r hr
    rw [loopM.eq_1, ← h s]
    cases e : body' s with
    | none => rw [e] at hr; cases hr
    | some x =>
      rw [e] at hr
      cases x with
      | inl s' => exact ih _ _ hr
      | inr r' => cases hr; rfl
  have h2 : ∀ t r, loopM body t = some r → ∀ s, f s = t → ∃ r', loopM body' s = some r' ∧ g r' = r := by
    refine loopM.partial_correctness (body := body) (motive := fun t r => ∀ s, f s = t → ∃ r', loopM body' s = some r' ∧ g r' = r) ?_
    intro loop ih t r hr s hs
    subst hs
    rw [← h s] at hr
    cases e : body' s with
    | none => rw [e] at hr; cases hr
    | some x =>
      rw [e] at hr
      rw [loopM.eq_1, e]
      cases x with
      | inl s' => exact ih _ _ hr s' rfl
      | inr r' => cases hr; exact ⟨r', rfl, rfl⟩
  cases e : loopM body' s with
  | some r => exact (h1 s r e).symm
  | none =>
    cases e2 : loopM body (f s) with
    | none => rfl
    | some r =>
      obtain ⟨r', e3, -⟩ := h2 _ r e2 s rfl
      rw [e] at e3
      cases e3

theorem getBestLengthsIn_eq (F : FloatOps) (le : Bool) (lmc : Cache) (inData : Array UInt8) (instart inend : Nat)
    (costmodel : Nat → Nat → Option F.F64) (scratch : Scratch F) :
    (getBestLengthsIn F le lmc inData instart inend costmodel scratch).map (·.1) = getBestLengths F lmc inData instart inend costmodel := by
  unfold getBestLengthsIn getBestLengths warmHash
  cases usub inend instart with
  | none => rfl
  | some bs =>
    rw [some_bind, some_bind]
    by_cases h : instart = inend
    · rw [if_pos h, if_pos h]; rfl
    · rw [if_neg h, if_neg h]
      dsimp only
      unfold ZopfliHash.reset
      rw [init_read, some_bind, prepareCosts_eq]
      cases slice inData 0 inend with
      | none => rfl
      | some arr =>
        rw [some_bind, some_bind]
        cases ZopfliHash.new.warmup arr (instart - WINDOW_SIZE) inend with
        | none => rfl
        | some h =>
          rw [some_bind, some_bind]
          cases forRange (instart - WINDOW_SIZE) instart h (fun i h => h.update arr i) with
          | none => rfl
          | some h =>
            rw [some_bind, some_bind]
            cases aset (Array.replicate (bs + 1) F.inf32) 0 F.zero32 with
            | none => rfl
            | some c =>
              rw [some_bind, some_bind]
              cases getCostModelMinCost F costmodel with
              | none => rfl
              | some mc =>
                rw [some_bind, some_bind]
                refine loopM_carry (body := bestStep F costmodel mc arr instart inend) (body' := bestStepIn F costmodel mc arr instart inend) id (·.1) (fun st => ?_) _
                unfold bestStepIn
                rw [id]
                cases bestStep F costmodel mc arr instart inend st with
                | none => rfl
                | some r => cases r <;> rfl

theorem lz77OptimalRunIn_eq (F : FloatOps) (le : Bool) (lmc : Cache) (inData : Array UInt8) (instart inend : Nat)
    (costmodel : Nat → Nat → Option F.F64) (store : Lz77Store) (scratch : Scratch F) :
    (lz77OptimalRunIn F le lmc inData instart inend costmodel store scratch).map (·.1) =
      lz77OptimalRun F lmc inData instart inend costmodel store := by
  unfold lz77OptimalRunIn lz77OptimalRun
  rw [← getBestLengthsIn_eq F le lmc inData instart inend costmodel scratch]
  cases getBestLengthsIn F le lmc inData instart inend costmodel scratch with
  | none => rfl
  | some r =>
    obtain ⟨⟨la, lmc⟩, sc⟩ := r
    rw [some_bind, Option.map_some, some_bind]
    dsimp only
    cases trace (inend - instart) la with
    | none => rfl
    | some p =>
      rw [some_bind, some_bind]
      cases followPath store inData instart inend p lmc <;> rfl

theorem lz77OptimalFixedIn_eq (F : FloatOps) (le : Bool) (mem : RawHash) (lmc : Cache) (inData : Array UInt8) (instart inend : Nat) (store : Lz77Store) :
    lz77OptimalFixedIn F le mem lmc inData instart inend store = lz77OptimalFixed F lmc inData instart inend store := by
  unfold lz77OptimalFixedIn lz77OptimalFixed hashNew
  rw [init_read, some_bind, ← lz77OptimalRunIn_eq F le lmc inData instart inend (getCostFixed F) store ⟨ZopfliHash.new, #[]⟩]
  cases lz77OptimalRunIn F le lmc inData instart inend (getCostFixed F) store ⟨ZopfliHash.new, #[]⟩ <;> rfl

theorem lz77OptimalIn_eq [Checks] (F : FloatOps) (le : Bool) (mem : RawHash) (lmc : Cache) (inData : Array UInt8)
    (instart inend maxIterations maxWithoutImprovement : Nat) :
    lz77OptimalIn F le mem lmc inData instart inend maxIterations maxWithoutImprovement =
      lz77Optimal F lmc inData instart inend maxIterations maxWithoutImprovement := by
  unfold lz77OptimalIn lz77Optimal hashNew
  rw [init_read]
  generalize ZopfliHash.new = nh
  cases greedy Lz77Store.new lmc inData instart inend with
  | none => rfl
  | some r =>
    obtain ⟨cs, lmc⟩ := r
    rw [some_bind, some_bind]
    dsimp only
    cases (SymbolStats.default F).getStatistics cs with
    | none => rfl
    | some stats =>
      rw [some_bind, some_bind, some_bind]
      have := loopM_carry (body := optimalStep F inData instart inend maxIterations maxWithoutImprovement)
        (body' := optimalStepIn F le inData instart inend maxIterations maxWithoutImprovement) Prod.fst id (by
          rintro ⟨⟨lmc, outputstore, stats, beststats, bestcost, lastcost, ranState, lastrandomstep, cur, without⟩, currentstore, scratch⟩
          unfold optimalStepIn optimalStep
          dsimp only
          rw [show currentstore.clear = Lz77Store.new from rfl, ← lz77OptimalRunIn_eq F le lmc inData instart inend (getCostStat F stats) Lz77Store.new scratch]
          cases lz77OptimalRunIn F le lmc inData instart inend (getCostStat F stats) Lz77Store.new scratch with
          | none => rfl
          | some r =>
            obtain ⟨⟨cs, lmc⟩, sc⟩ := r
            rw [some_bind, Option.map_some, some_bind]
            dsimp only
            cases calculateBlockSize F cs 0 cs.size .dynamic with
            | none => rfl
            | some cost =>
              rw [some_bind, some_bind]
              generalize F.lt cost bestcost = imp
              generalize (if imp = true then cs else outputstore) = os
              generalize (if imp = true then stats else beststats) = bs
              generalize (if imp = true then cost else bestcost) = bc
              generalize (if imp = true then 0 else without + 1) = wo
              by_cases c1 : ¬ imp = true ∧ wo ≥ maxWithoutImprovement
              · rw [if_pos c1, if_pos c1]; rfl
              · rw [if_neg c1, if_neg c1]
                by_cases c2 : cur + 1 ≥ maxIterations
                · rw [if_pos c2, if_pos c2]; rfl
                · rw [if_neg c2, if_neg c2]
                  cases nextStats F cs cost lastcost (cur + 1) lastrandomstep stats bs ranState <;> rfl)
        (⟨lmc, Lz77Store.new, stats, .default F, F.inf, F.ofUsize 0, .new, none, 0, 0⟩, cs, ⟨nh, #[]⟩)
      rw [← this, Option.map_id]
      rfl

end Zopfli
