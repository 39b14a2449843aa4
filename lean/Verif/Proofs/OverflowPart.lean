import Verif.Proofs.Part
/-! # Overflow checks make no difference for a part below 256 MiB -/

namespace Zopfli
open Rfc

variable {F : FloatOps}

theorem lz77Optimal_eq (c : Checks) (L : FloatLaws F) {data : Array UInt8} {instart inend : Nat} (h1 : instart ≤ inend) (h2 : inend ≤ data.size)
    (hsz : data.size < 2 * L.lim) (hc : inend - instart < 2 ^ 28 - 1) (maxIt maxWithout : Nat) :
    @lz77Optimal c F (.lmc (.new (inend - instart))) data instart inend maxIt maxWithout =
      @lz77Optimal releaseBuild F (.lmc (.new (inend - instart))) data instart inend maxIt maxWithout := by
  obtain ⟨O, hO⟩ := oracle_exists (data.extract 0 inend) (instart - 32768)
  obtain ⟨s, hs, g⟩ := lz77Optimal_gen L hO h1 h2 hsz maxIt maxWithout
  have hcache := cacheInv_new (data.extract 0 inend) O instart
  rw [show (data.extract 0 inend).size = inend by simp; omega] at hcache
  rw [g c (fun _ => hc) _ hcache, g releaseBuild (fun _ => hc) _ hcache]

theorem blocksplit_eq (c : Checks) {data : Array UInt8} {instart inend : Nat} (h1 : instart ≤ inend) (h2 : inend ≤ data.size)
    (hc : inend - instart < 2 ^ 28 - 1) (maxblocks : Nat) :
    @blocksplit c F data instart inend maxblocks = @blocksplit releaseBuild F data instart inend maxblocks := by
  obtain ⟨O, hO⟩ := oracle_exists (data.extract 0 inend) (instart - 32768)
  obtain ⟨s, hs, g⟩ := greedy_spec hO h1 h2
  obtain ⟨lmc', -, e⟩ := g .noCache trivial
  have e : greedy Lz77Store.new .noCache data instart inend = some (s, lmc') := e
  unfold blocksplit
  rw [e, some_bind, some_bind]
  dsimp only
  rw [blocksplitLz77_eq c (hs.small hc)]

theorem optimizeParts_eq (c : Checks) (L : FloatLaws F) (options : Options) {data : Array UInt8} {instart inend : Nat} (h2 : inend ≤ data.size)
    (hsz : data.size < 2 * L.lim) (hc : inend - instart < 2 ^ 28 - 1) : ∀ (items : List Nat) (lz77 : Lz77Store) (sp : List Nat) (tc : F.F64) (last : Nat),
    instart ≤ last → items.Pairwise (· < ·) → (∀ x ∈ items, last < x ∧ x < inend) →
    @optimizeParts c F options data items (lz77, sp, tc, last) = @optimizeParts releaseBuild F options data items (lz77, sp, tc, last)
  | [], lz77, sp, tc, last, _, _, _ => by simp only [optimizeParts]
  | item :: rest, lz77, sp, tc, last, h0, h3, h4 => by
    have hi := h4 item (by simp)
    rw [List.pairwise_cons] at h3
    unfold optimizeParts
    rw [usub_eq (by omega), some_bind, some_bind, lz77Optimal_eq c L (by omega) (by omega) hsz (by omega)]
    obtain ⟨store, e, hst⟩ := lz77Optimal_new L (show last ≤ item by omega) (by omega) hsz options.iterationCount options.iterationsWithoutImprovement
    rw [e, some_bind, some_bind, autoType_eq c (hst.small (by omega))]
    simp only [fun lz77 sp tc => optimizeParts_eq c L options h2 hsz hc rest lz77 sp tc item (by omega) h3.2
      (fun x hx => ⟨h3.1 x hx, (h4 x (by simp [hx])).2⟩)]

theorem blocksplitPlan_eq (c : Checks) (L : FloatLaws F) (options : Options) {data : Array UInt8} {instart inend : Nat} (h1 : instart ≤ inend)
    (h2 : inend ≤ data.size) (hsz : data.size < 2 * L.lim) (hc : inend - instart < 2 ^ 28 - 1) :
    @blocksplitPlan c F options data instart inend = @blocksplitPlan releaseBuild F options data instart inend := by
  unfold blocksplitPlan
  rw [blocksplit_eq c h1 h2 hc]
  obtain ⟨spu, e, a1, a2, a3⟩ := blocksplit_spec (F := F) h1 h2 options.maximumBlockSplits
  rw [e, some_bind, some_bind, optimizeParts_eq c L options h2 hsz hc spu _ _ _ instart (Nat.le_refl _) a1 a2]
  obtain ⟨⟨lz77, sp, tc, last⟩, e, b1, b2, b3, b4⟩ := optimizeParts_spec L options h2 hsz spu Lz77Store.new [] (F.ofUsize 0) instart a1 a2
    (StoreOk.new _ _) ⟨by simp, by simp⟩
  dsimp only at b1 b2 b3 b4
  rw [e, some_bind, some_bind]
  dsimp only
  have hlast : last ≤ inend := by
    split at b4
    · omega
    · omega
  have hlast0 := b1.parses.le
  rw [usub_eq hlast, some_bind, some_bind, lz77Optimal_eq c L hlast h2 hsz (by omega)]
  obtain ⟨store, e, hst⟩ := lz77Optimal_new L hlast h2 hsz options.iterationCount options.iterationsWithoutImprovement
  rw [e, some_bind, some_bind, autoType_eq c (hst.small (by omega))]
  obtain ⟨s', e, g1, -⟩ := appendStore_spec b1 hst
  rw [e]
  simp only [some_bind, blocksplitLz77_eq c (g1.small hc), totalCostOf_checks c (g1.small hc)]

theorem addLz77BlockAutoType_eq (c : Checks) (L : FloatLaws F) {data : Array UInt8} {start stop : Nat} {s : Lz77Store} (h : StoreOk data start stop s)
    (hstop : stop ≤ data.size) (hc : stop - start < 2 ^ 28 - 1) {k l : Nat} (hkl : k ≤ l) (hl : l ≤ s.size) (final : Bool) :
    @addLz77BlockAutoType c F final data s k l = @addLz77BlockAutoType releaseBuild F final data s k l := by
  have hs := h.small hc
  have hr := h.rangeOk hkl hl
  unfold addLz77BlockAutoType
  simp only [calculateBlockSize_eq c hs, addLz77Block_eq c hs]
  by_cases hkl' : k = l
  · simp only [if_pos hkl']
  · simp only [if_neg hkl']
    have hb : bytePos start s l ≤ data.size := by
      have := h.bytePos_size
      have hp := h.rangeOk hl (Nat.le_refl _)
      have := hp.parses.le
      omega
    have hab := hr.parses.le
    have hle1 : start ≤ bytePos start s k := Nat.le_add_right _ _
    have hle2 : bytePos start s l ≤ stop := by
      have h1 := h.bytePos_size
      have h2 := (h.rangeOk hl (Nat.le_refl s.size)).parses.le
      omega
    rw [hr.pos (by omega), hr.range]
    simp only [some_bind]
    rw [show bytePos start s k + (bytePos start s l - bytePos start s k) = bytePos start s l by omega]
    obtain ⟨⟨fs, lmc⟩, ef, hf⟩ := lz77OptimalFixed_new L hab hb
    dsimp only at hf
    have hfs := hf.small (by omega)
    rw [ef]
    simp only [some_bind, calculateBlockSize_eq c hfs]
    have hfix : ∀ fs a b, @addLz77Block c .fixed final data fs a b = @addLz77Block releaseBuild .fixed final data fs a b := fun _ _ _ => rfl
    simp only [hfix]

theorem addSplitBlocks_eq (c : Checks) (L : FloatLaws F) {data : Array UInt8} {start stop : Nat} {s : Lz77Store} (h : StoreOk data start stop s)
    (hstop : stop ≤ data.size) (hc : stop - start < 2 ^ 28 - 1) : ∀ (sp : List Nat) (last : Nat), sp.Pairwise (· < ·) →
    (∀ x ∈ sp, last < x ∧ x < s.size) → last ≤ s.size →
    @addSplitBlocks c F s data sp last = @addSplitBlocks releaseBuild F s data sp last
  | [], last, _, _, hl => by simp only [addSplitBlocks]
  | item :: rest, last, h1, h2, hl => by
    have hi := h2 item (by simp)
    rw [List.pairwise_cons] at h1
    unfold addSplitBlocks
    rw [addLz77BlockAutoType_eq c L h hstop hc (Nat.le_of_lt hi.1) (Nat.le_of_lt hi.2),
      addSplitBlocks_eq c L h hstop hc rest item h1.2 (fun x hx => ⟨h1.1 x hx, (h2 x (by simp [hx])).2⟩) (Nat.le_of_lt hi.2)]

theorem addAllBlocks_eq (c : Checks) (L : FloatLaws F) {data : Array UInt8} {start stop : Nat} {s : Lz77Store} (h : StoreOk data start stop s)
    (hstop : stop ≤ data.size) (hc : stop - start < 2 ^ 28 - 1) {sp : List Nat} (hsp : SplitOk s.size sp) (final : Bool) :
    @addAllBlocks c F sp s final data = @addAllBlocks releaseBuild F sp s final data := by
  unfold addAllBlocks
  rw [addSplitBlocks_eq c L h hstop hc sp 0 hsp.1 hsp.2 (Nat.zero_le _)]
  obtain ⟨⟨ops, last⟩, e, -, -, g3⟩ := addSplitBlocks_spec L h hstop sp 0 hsp.1 hsp.2 (Nat.zero_le _)
  rw [e, some_bind, some_bind]
  dsimp only at g3 ⊢
  rw [addLz77BlockAutoType_eq c L h hstop hc g3 (Nat.le_refl _)]

/-- Overflow checks make no difference for a part of less than `2^28 - 1` bytes. -/
theorem deflatePart_eq (c : Checks) (L : FloatLaws F) (options : Options) (btype : BlockType) (final : Bool) {data : Array UInt8} {instart inend : Nat}
    (h1 : instart ≤ inend) (h2 : inend ≤ data.size) (hsz : data.size < 2 * L.lim) (hc : inend - instart < 2 ^ 28 - 1) :
    @deflatePart c F options btype final data instart inend = @deflatePart releaseBuild F options btype final data instart inend := by
  cases btype with
  | uncompressed => rfl
  | fixed => rfl
  | dynamic =>
    unfold deflatePart blocksplitAttempt
    dsimp only
    rw [blocksplitPlan_eq c L options h1 h2 hsz hc]
    obtain ⟨⟨s, sp⟩, e, g1, g2, -⟩ := blocksplitPlan_spec L options h1 h2 hsz
    rw [e, some_bind, some_bind]
    exact addAllBlocks_eq c L g1 h2 hc g2 final

end Zopfli
