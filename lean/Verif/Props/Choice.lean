import Verif.Proofs.Choice
import Verif.Props.RoundTrip
/-!
# C41, C42: where blocks are cut, and which of the two divisions is written
-/

namespace Zopfli
open Rfc

variable {log2 : Fp → Fp}

/-- The predicted size of a block is the estimate that the encoder computes. -/
theorem C41_predicted (data : Array UInt8) (xs : List LitLen) (start stop : Nat) (h : Parses data start xs stop) (hsz : stop - start < 2 ^ 28)
    (a b : Nat) (hab : a < b) (hb : b ≤ xs.length) :
    ∃ s, storeOf (placed start xs) = some s ∧
      calculateBlockSizeAutoType (ieee log2) s a b = some (Fp.fin (predictedBits (decide (xs.length ≤ 1000)) (itemsBetween xs a b))) := by
  obtain ⟨s, e, hs, hx⟩ := storeOf_placed h
  have hsize : s.size = xs.length := by rw [Lz77Store.size_eq, hx]
  obtain ⟨h1, h2, h3⟩ := hs.costs (ieee_exact log2) hsz hab (by omega)
  rw [hx, hsize] at h1 h2
  refine ⟨s, e, h1.trans (congrArg some (ieee_ofUsize_small _ ?_))⟩
  omega

/-- **C42** For any sequence of items that describes fewer than 2^28 bytes: the encoder cuts it into blocks one cut at a time;
each cut is the best cut of its block and does not cost more than the block; and unless the permitted number of blocks is
reached, it goes on until no block is worth cutting.  The cost of a block is its predicted size (see `C41_predicted`). -/
theorem C42_cuts (data : Array UInt8) (xs : List LitLen) (start stop : Nat) (h : Parses data start xs stop) (hsz : stop - start < 2 ^ 28) (maxblocks : Nat) :
    ∃ s sp, storeOf (placed start xs) = some s ∧ blocksplitLz77 (ieee log2) s maxblocks = some sp ∧
      CutOneByOne (fun a b => predictedBits (decide (xs.length ≤ 1000)) (itemsBetween xs a b)) xs.length sp ∧ sp.length + 1 ≤ max 1 maxblocks ∧
      (sp.length + 1 < maxblocks → 10 ≤ xs.length →
        NothingLeftToCut (fun a b => predictedBits (decide (xs.length ≤ 1000)) (itemsBetween xs a b)) xs.length sp) := by
  obtain ⟨s, e, hs, hx⟩ := storeOf_placed h
  have hsize : s.size = xs.length := by rw [Lz77Store.size_eq, hx]
  have hc := hs.costsOk (ieee_exact log2) hsz
  obtain ⟨sp, e1, g1, g2⟩ := blocksplitLz77_cuts (ieee_exact log2) hs.inv hc maxblocks
  obtain ⟨sp', e2, -, g3⟩ := blocksplitLz77_spec (F := ieee log2) hs.inv maxblocks
  rw [e1] at e2
  cases e2
  rw [hx, hsize] at g1 g2
  exact ⟨s, sp, e, e1, g1, g3, g2⟩

/-- **C42** The first division of a chunk into parts: the same, for the items that the greedy parser finds, the cuts being turned into
positions in the data. -/
theorem C42_first_cuts (data : Array UInt8) (start stop : Nat) (h1 : start ≤ stop) (h2 : stop ≤ data.size) (hsz : stop - start < 2 ^ 28) (maxblocks : Nat) :
    ∃ s lmc sp, greedy Lz77Store.new .noCache data start stop = some (s, lmc) ∧ Parses data start s.litlens.toList stop ∧
      blocksplit (ieee log2) data start stop maxblocks = some (sp.map (posAfter start s.litlens.toList)) ∧
      CutOneByOne (fun a b => predictedBits (decide (s.litlens.toList.length ≤ 1000)) (itemsBetween s.litlens.toList a b)) s.litlens.toList.length sp ∧
      sp.length + 1 ≤ max 1 maxblocks ∧
      (sp.length + 1 < maxblocks → 10 ≤ s.litlens.toList.length →
        NothingLeftToCut (fun a b => predictedBits (decide (s.litlens.toList.length ≤ 1000)) (itemsBetween s.litlens.toList a b)) s.litlens.toList.length sp) := by
  obtain ⟨O, hO⟩ := oracle_exists (data.extract 0 stop) (start - 32768)
  obtain ⟨s, hs, g⟩ := greedy_spec hO h1 h2
  obtain ⟨lmc', -, e⟩ := g .noCache trivial
  have e : greedy Lz77Store.new .noCache data start stop = some (s, lmc') := e
  have hc := hs.costsOk (ieee_exact log2) hsz
  obtain ⟨sp, e1, g1, g2⟩ := blocksplitLz77_cuts (ieee_exact log2) hs.inv hc maxblocks
  obtain ⟨sp', e2, g4, g3⟩ := blocksplitLz77_spec (F := ieee log2) hs.inv maxblocks
  rw [e1] at e2
  cases e2
  rw [Lz77Store.size_eq] at g1 g2
  refine ⟨s, lmc', sp, e, hs.parses, ?_, g1, g3, g2⟩
  unfold blocksplit
  rw [e, some_bind]
  dsimp only
  rw [e1, some_bind]
  split
  · rename_i hpos
    obtain ⟨r, e, hlen, hr⟩ := convertSplits_ok g4 hpos start
    rw [e, some_bind, guardR_eq (by simp only [decide_eq_true_eq]; exact hlen), some_bind, hr]
    rfl
  · rename_i hpos
    rw [show sp = [] from List.eq_nil_of_length_eq_zero (by omega)]
    rfl

/-- **C41** For any chunk (from position `start` to `stop` of the data, at most 2^28 bytes), in dynamic mode: the encoder cuts
the chunk into parts (see `C42_first_cuts`) and finds the best items for each.  When these are three parts or more, it also
divides the sequence of all the items anew (see `C42_cuts`), and writes the new division if its total predicted size is
smaller, and otherwise the parts.  Written after any bits `sofar`, each block of the division takes at most two bits more than the smaller
of its stored and dynamic representations. -/
theorem C41_cheaper_division (hlog : Log2Ok log2) (o : Options) (final : Bool) (data : Array UInt8) (start stop : Nat) (h1 : start < stop) (h2 : stop ≤ data.size)
    (hsz : data.size < 2 ^ 48) (hlen : stop - start < 2 ^ 28) (sofar : List Bool) :
    ∃ cuts parts s ops bits boundaries blocks, blocksplit (ieee log2) data start stop o.maximumBlockSplits = some cuts ∧
      OptimalParts (ieee log2) o data stop start cuts parts ∧ parts.length = cuts.length + 1 ∧
      s.litlens.toList = parts.flatten ∧ Parses data start parts.flatten stop ∧
      blocks = blocksOf parts.flatten 0 boundaries ∧ addAllBlocks (ieee log2) boundaries s final data = some ops ∧
      deflatePart (ieee log2) o .dynamic final data start stop = some ops ∧ bitSequence sofar ops = some (sofar ++ bits) ∧
      bits.length ≤ (blocks.map fun p => predictedBits false p + 2).sum ∧
      (cuts.length ≤ 1 → blocks = parts) ∧
      (1 < cuts.length → ∃ sp2, blocksplitLz77 (ieee log2) s o.maximumBlockSplits = some sp2 ∧ blocks =
        if totalPredicted (fun _ => decide (parts.flatten.length ≤ 1000)) (blocksOf parts.flatten 0 sp2) < totalPredicted (fun p => decide (p.length ≤ 1000)) parts
        then blocksOf parts.flatten 0 sp2 else parts) := by
  obtain ⟨⟨s, sp⟩, e, cuts, parts, k1, k2, k3, k4, k5, k6⟩ := blocksplitPlan_choice (ieeeLaws hlog) (ieee_exact log2) o h1 h2 (ieee_size hlog hsz) hlen
  obtain ⟨r, e', g1, g2, -⟩ := blocksplitPlan_spec (ieeeLaws hlog) o (Nat.le_of_lt h1) h2 (ieee_size hlog hsz)
  rw [e] at e'
  cases e'
  dsimp only at k4 k5 k6 g1 g2
  obtain ⟨ops, eo, ho⟩ := addAllBlocks_bits (ieeeLaws hlog) (ieee_exact log2) g1 h1 h2 hlen g2 final
  obtain ⟨bits, eb, hb⟩ := ho sofar.length
  refine ⟨cuts, parts, s, ops, bits, sp, _, k1, k2, k3, k4, ?_, rfl, eo, ?_, ?_, ?_, ?_, ?_⟩
  · rw [← k4]
    exact g1.parses
  · unfold deflatePart blocksplitAttempt
    dsimp only
    rw [e, some_bind]
    exact eo
  · rw [bitSequence_render, eb]
    rfl
  · rw [← k4]
    exact hb
  · rw [← k4]
    exact k5
  · intro hh
    obtain ⟨sp2, e2, e3⟩ := k6 hh
    refine ⟨sp2, e2, ?_⟩
    rw [← e3, k4]

/-! ## Concrete cases -/

example := C41_predicted (log2 := floorLog2) exampleParseData exampleParse 0 9 exampleParse_parses (by decide) 1 4 (by decide) (by decide)
example := C42_cuts (log2 := floorLog2) exampleParseData exampleParse 0 9 exampleParse_parses (by decide) 15
example := C42_first_cuts (log2 := floorLog2) exampleParseData 2 9 (by decide) (by decide) (by decide) 15
example := C41_cheaper_division floorLog2_ok Options.default true exampleParseData 2 9 (by decide) (by decide) (by decide) (by decide) [true]

/-- A cost for which blocks across the middle of 20 items are expensive. -/
def exampleCost (a b : Nat) : Nat := if a < 10 ∧ 10 < b then 100 else b - a

theorem exampleCost_best : BestCut exampleCost 0 20 10 where
  left := by decide
  right := by decide
  least _ y h1 h2 := by
    unfold cutCost exampleCost
    split_ifs <;> omega
  first _ y h1 h2 := by
    unfold cutCost exampleCost
    split_ifs <;> omega
  sampled h := by omega

/-- With this cost, 20 items may be cut in the middle, -/
example : CutOneByOne exampleCost 20 [10] :=
  .cut (a := 0) (e := 20) (x := 10) .nil ⟨20, ⟨by decide, .inl rfl, .inl rfl, by simp⟩, rfl⟩ (by decide) exampleCost_best (by decide) (by decide) (.refl _)
    (by simp)

/-- nowhere else, -/
example (x : Nat) (h : CutOneByOne exampleCost 20 [x]) : x = 10 := by
  generalize hl : [x] = l at h
  cases h with
  | nil => cases hl
  | cut before examined long best inside worth perm sorted =>
    rename_i sp a e y
    subst hl
    have h1 := perm.length_eq
    have hsp : sp = [] := by simpa using h1
    subst hsp
    have hx : x = y := by have := perm.mem_iff (a := x); simpa using this
    subst hx
    obtain ⟨b, hb, rfl⟩ := examined
    have ha := hb.left
    have hb' := hb.right
    simp only [List.not_mem_nil, or_false] at ha hb'
    subst ha hb'
    rw [if_neg (by simp)] at best
    have := best.least (by decide) 10 (by decide) (by decide)
    have h2 := best.left
    have h3 := best.right
    unfold cutCost exampleCost at this
    split_ifs at this <;> omega

/-- and must be cut (if more than one block is permitted): -/
example : ¬ NothingLeftToCut exampleCost 20 [] := by
  intro h
  rcases h 0 20 ⟨20, ⟨by decide, .inl rfl, .inl rfl, by simp⟩, rfl⟩ with h | ⟨x, hb, hx⟩
  · omega
  · have h1 := hb.least (by decide) 10 (by decide) (by decide)
    have h2 := hb.right
    unfold cutCost exampleCost at h1 hx
    split_ifs at h1 hx <;> omega

end Zopfli
