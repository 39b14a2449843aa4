import Verif.Proofs.WordsStats
/-! # Compressing a chunk is the same for every word size that is large enough -/

namespace Zopfli.Words
open Rfc Katajainen

variable {F : FloatOps}

/-! ## Splitting -/

theorem findMinimum_congr {f g : Nat → Option F.F64} {start end_ : Nat} (h : start < end_) (hf : ∀ i, start ≤ i → i < end_ → f i = g i)
    (hg : ∀ i, start ≤ i → i < end_ → ∃ v, g i = some v) : findMinimum F f start end_ = findMinimum F g start end_ := by
  unfold findMinimum
  rw [usub_eq (by omega), some_bind, some_bind]
  split
  · unfold findMinimumLinear
    exact forRange_congr fun i s h1 h2 => by dsimp only; rw [hf i h1 h2]
  · refine loopM_congr_inv (fun st => start ≤ st.1 ∧ st.1 ≤ st.2.1 ∧ st.2.1 ≤ end_ ∧ start ≤ st.2.2.1 ∧ st.2.2.1 < end_) ?_ _ ⟨by simp, by simp; omega, by simp, by simp, by simp; omega⟩
    rintro ⟨a, b, p, d⟩ ⟨i1, i2, i3, i4, i5⟩
    dsimp only at i1 i2 i3 i4 i5
    refine ⟨?_, fun s' hs' => ?_⟩
    · rw [findMinimumStep, findMinimumStep, usub_eq i2, some_bind, some_bind]
      dsimp only [NUM]
      split
      · rename_i hgt
        have hm2 : (9 + 1) * ((b - a) / (9 + 1)) ≤ b - a := Nat.mul_div_le _ _
        have hm : 1 ≤ (b - a) / (9 + 1) := by omega
        generalize (b - a) / (9 + 1) = m at *
        rw [forRange_congr (f := fun i (x : Nat × F.F64) => do
            let v ← f (a + (i + 1) * m)
            if F.lt v x.2 = true then pure (i, v) else pure (x.1, x.2)) (g := fun i (x : Nat × F.F64) => do
            let v ← g (a + (i + 1) * m)
            if F.lt v x.2 = true then pure (i, v) else pure (x.1, x.2))]
        intro i s _ hi
        have : (i + 1) * m ≤ 9 * m := Nat.mul_le_mul_right m (by omega)
        rw [hf (a + (i + 1) * m) (by omega) (by omega)]
      · rfl
    · obtain ⟨r, e, hr⟩ := findMinimumStep_spec hg (lastbest := d) i1 i2 i3 i4 i5
      rw [e] at hs'
      cases hs'
      exact hr.1

theorem blocksplitLz77_words (c : Checks) {W : Nat} {data : Array UInt8} {start stop : Nat} {s : Lz77Store} (hs : StoreOk data start stop s)
    (hb : stop < 2 ^ W) (hW : Small W (stop - start)) (maxblocks : Nat) :
    @blocksplitLz77 c W F s maxblocks = @Zopfli.blocksplitLz77 releaseBuild F s maxblocks := by
  have h := hs.inv
  unfold blocksplitLz77 Zopfli.blocksplitLz77
  split
  · rfl
  · rw [loopM_congr_inv (f := @splitStep c W F s maxblocks) (g := @Zopfli.splitStep releaseBuild F s maxblocks) (SplInv s.size maxblocks)]
    · intro st hi
      refine ⟨?_, fun s' hs' => ?_⟩
      · obtain ⟨numblocks, done, lstart, lend, sp⟩ := st
        obtain ⟨h1, h2, h3, h4, h5, h6⟩ := hi
        dsimp only at h1 h2 h3 h4 h5 h6
        have hle := h5.le
        dsimp only at hle
        unfold splitStep Zopfli.splitStep
        dsimp only
        split
        · rw [findMinimum_congr (f := fun i => do return F.add (← @estimateCost c W F s lstart i) (← @estimateCost c W F s i lend))
            (g := fun i => do return F.add (← @Zopfli.estimateCost releaseBuild F s lstart i) (← @Zopfli.estimateCost releaseBuild F s i lend)) (by omega)]
          · unfold estimateCost Zopfli.estimateCost
            simp only [autoType_store c hs hb hW (show lstart ≤ lend by omega) hle]
            rfl
          · intro i hi1 hi2
            unfold estimateCost Zopfli.estimateCost
            rw [autoType_store c hs hb hW (show lstart ≤ i by omega) (by omega), autoType_store c hs hb hW (show i ≤ lend by omega) (by omega)]
          · intro i hi1 hi2
            obtain ⟨c1, e1⟩ := autoType_ret (F := F) h (lstart := lstart) (lend := i) (by omega) (by omega)
            obtain ⟨c2, e2⟩ := autoType_ret (F := F) h (lstart := i) (lend := lend) (by omega) (by omega)
            unfold Zopfli.estimateCost
            rw [e1, some_bind, e2, some_bind]
            exact ⟨_, rfl⟩
        · rfl
      · obtain ⟨r, e, hr⟩ := splitStep_spec (F := F) h hi
        rw [e] at hs'
        cases hs'
        exact hr.1
    · refine ⟨rfl, by simp, by simp, ⟨by simp, by simp⟩, ⟨by simp only; omega, Nat.le_refl _, ?_, by simp⟩, by simp only; omega⟩
      dsimp only
      rw [Array.getElem?_replicate, if_pos (by omega)]

theorem blocksplit_words (c : Checks) {W : Nat} {data : Array UInt8} {instart inend : Nat} (h1 : instart ≤ inend) (h2 : inend ≤ data.size)
    (hb : inend < 2 ^ W) (hW : Small W (inend - instart)) (maxblocks : Nat) :
    @blocksplit c W F data instart inend maxblocks = @Zopfli.blocksplit releaseBuild F data instart inend maxblocks := by
  obtain ⟨O, hO⟩ := oracle_exists (data.extract 0 inend) (instart - 32768)
  obtain ⟨s, hs, g⟩ := greedy_spec hO h1 h2
  obtain ⟨lmc', -, e⟩ := g .noCache trivial
  have e : greedy Lz77Store.new .noCache data instart inend = some (s, lmc') := e
  unfold blocksplit Zopfli.blocksplit
  rw [e, some_bind, some_bind]
  dsimp only
  rw [blocksplitLz77_words c hs hb hW]

theorem totalCostOf_words (c : Checks) {W : Nat} {data : Array UInt8} {start stop : Nat} {s : Lz77Store} (hs : StoreOk data start stop s)
    (hb : stop < 2 ^ W) (hW : Small W (stop - start)) : ∀ (sp : List Nat) (last : Nat) (acc : F.F64), sp.Pairwise (· < ·) →
    (∀ x ∈ sp, last ≤ x ∧ x ≤ s.size) → last ≤ s.size → @totalCostOf c W F s sp last acc = @Zopfli.totalCostOf releaseBuild F s sp last acc
  | [], last, acc, _, _, hl => by unfold totalCostOf Zopfli.totalCostOf; rw [autoType_store c hs hb hW hl (Nat.le_refl _)]
  | item :: rest, last, acc, h1, h2, hl => by
    have hi := h2 item (by simp)
    rw [List.pairwise_cons] at h1
    unfold totalCostOf Zopfli.totalCostOf
    rw [autoType_store c hs hb hW hi.1 hi.2]
    simp only [fun acc => totalCostOf_words c hs hb hW rest item acc h1.2 (fun x hx => ⟨Nat.le_of_lt (h1.1 x hx), (h2 x (by simp [hx])).2⟩) hi.2]

theorem optimizeParts_words (c : Checks) (L : FloatLaws F) (options : Options) {W : Nat} {data : Array UInt8} {instart inend : Nat} (h2 : inend ≤ data.size)
    (hsz : data.size < 2 * L.lim) (hb : inend < 2 ^ W) (hW : Small W (inend - instart)) : ∀ (items : List Nat) (lz77 : Lz77Store) (sp : List Nat) (tc : F.F64) (last : Nat),
    instart ≤ last → items.Pairwise (· < ·) → (∀ x ∈ items, last < x ∧ x < inend) →
    @optimizeParts c W F options data items (lz77, sp, tc, last) = @Zopfli.optimizeParts releaseBuild F options data items (lz77, sp, tc, last)
  | [], lz77, sp, tc, last, _, _, _ => by simp only [optimizeParts, Zopfli.optimizeParts]
  | item :: rest, lz77, sp, tc, last, h0, h3, h4 => by
    have hi := h4 item (by simp)
    rw [List.pairwise_cons] at h3
    have hsm : Small W (item - last) := hW.mono (by omega)
    unfold optimizeParts Zopfli.optimizeParts
    rw [usub_eq (by omega), some_bind, some_bind, lz77Optimal_words c L (by omega) (by omega) hsz (Nat.lt_of_lt_of_le hi.2 (Nat.le_of_lt hb)) hsm]
    obtain ⟨store, e, hst⟩ := lz77Optimal_new L (show last ≤ item by omega) (by omega) hsz options.iterationCount options.iterationsWithoutImprovement
    rw [e, some_bind, some_bind, autoType_store c hst (Nat.lt_of_lt_of_le hi.2 (Nat.le_of_lt hb)) hsm (Nat.zero_le _) (Nat.le_refl _)]
    simp only [fun lz77 sp tc => optimizeParts_words c L options h2 hsz hb hW rest lz77 sp tc item (by omega) h3.2
      (fun x hx => ⟨h3.1 x hx, (h4 x (by simp [hx])).2⟩)]

theorem blocksplitPlan_words (c : Checks) (L : FloatLaws F) (options : Options) {W : Nat} {data : Array UInt8} {instart inend : Nat} (h1 : instart ≤ inend)
    (h2 : inend ≤ data.size) (hsz : data.size < 2 * L.lim) (hb : inend < 2 ^ W) (hW : Small W (inend - instart)) :
    @blocksplitPlan c W F options data instart inend = @Zopfli.blocksplitPlan releaseBuild F options data instart inend := by
  unfold blocksplitPlan Zopfli.blocksplitPlan
  rw [blocksplit_words c h1 h2 hb hW]
  obtain ⟨spu, e, a1, a2, a3⟩ := blocksplit_spec (F := F) h1 h2 options.maximumBlockSplits
  rw [e, some_bind, some_bind, optimizeParts_words c L options h2 hsz hb hW spu _ _ _ instart (Nat.le_refl _) a1 a2]
  obtain ⟨⟨lz77, sp, tc, last⟩, e, b1, b2, b3, b4⟩ := optimizeParts_spec L options h2 hsz spu Lz77Store.new [] (F.ofUsize 0) instart a1 a2
    (StoreOk.new _ _) ⟨by simp, by simp⟩
  dsimp only at b1 b2 b3 b4
  rw [e, some_bind, some_bind]
  dsimp only
  have hlast : last ≤ inend := by
    split at b4
    · omega
    · omega
  have hlast0 := b1.parses.le
  have hsm : Small W (inend - last) := hW.mono (by omega)
  rw [usub_eq hlast, some_bind, some_bind, lz77Optimal_words c L hlast h2 hsz hb hsm]
  obtain ⟨store, e, hst⟩ := lz77Optimal_new L hlast h2 hsz options.iterationCount options.iterationsWithoutImprovement
  rw [e, some_bind, some_bind, autoType_store c hst hb hsm (Nat.zero_le _) (Nat.le_refl _)]
  obtain ⟨s', e, g1, -⟩ := appendStore_spec b1 hst
  rw [e]
  simp only [some_bind, blocksplitLz77_words c g1 hb hW]
  obtain ⟨sp2, e, q1, -⟩ := blocksplitLz77_spec (F := F) g1.inv options.maximumBlockSplits
  rw [e]
  simp only [some_bind]
  rw [totalCostOf_words c g1 hb hW sp2 0 _ q1.1 (fun x hx => ⟨Nat.zero_le _, Nat.le_of_lt (q1.2 x hx).2⟩) (Nat.zero_le _)]

/-! ## Blocks -/

theorem encodeTree_words [Checks] {W : Nat} (hW : 20000 < 2 ^ W) {ll d : Array Nat} (h : LensOk ll d) (u16 u17 u18 : Bool) :
    encodeTree W ll d u16 u17 u18 = Zopfli.encodeTree ll d u16 u17 u18 := by
  obtain ⟨hlit, hdist, o, items, clcl, hclen, p⟩ := tree_pre h u16 u17 u18
  obtain ⟨n, hn, hle⟩ := treeSize_le h u16 u17 u18
  have hlen := rleApply_fold_length p.enc.dec
  have h1 := p.hl
  have h2 := p.hd
  have h3 := p.hc
  rw [List.length_append, List.length_take, List.length_take, List.length_nil] at hlen
  have hni : items.length ≤ 316 := by omega
  have hsum : o.clcounts.toList.sum ≤ items.length := by
    have : Hist o.clcounts 19 (items.map fun x => some x.1) := by
      refine ⟨p.enc.size, fun s hs => ?_⟩
      rw [p.enc.counts s hs]
      rw [List.count_eq_countP, List.countP_map, List.countP_eq_length_filter]
      congr 2
    have := Hist.sum_le this
    simpa using this
  have hcl : lengthLimitedCodeLengths W o.clcounts 7 = Katajainen.lengthLimitedCodeLengths o.clcounts 7 := by
    apply lengthLimited_words
    rw [p.enc.size]
    omega
  unfold Zopfli.encodeTreeNoOutput at hn
  dsimp only at hn
  rw [p.e1, some_bind, p.e2, some_bind, p.e4, some_bind, p.e5, some_bind, p.e6, some_bind] at hn
  have ht := treeBits_words (W := W) p.cls p.enc.size hclen hn (by omega)
  rw [hn] at ht
  unfold encodeTree Zopfli.encodeTree
  simp only [p.e1, p.e2, p.e3, hcl, p.e5, p.e6, some_bind, ht]

theorem addDynamicTree_words [Checks] {W : Nat} (hW : 20000 < 2 ^ W) {ll d : Array Nat} (h : LensOk ll d) :
    addDynamicTree W ll d = Zopfli.addDynamicTree ll d := by
  unfold addDynamicTree Zopfli.addDynamicTree
  simp only [encodeTreeNoOutput_words hW h, encodeTree_words hW h]

theorem complement_byte {W n : Nat} (hW : 16 ≤ W) (hn : n ≤ 65535) : (2 ^ W - 1 - n) % 65536 = 65535 - n := by
  obtain ⟨k, rfl⟩ := Nat.exists_eq_add_of_le hW
  rw [Nat.pow_add]
  have hk : 1 ≤ 2 ^ k := Nat.one_le_two_pow
  generalize 2 ^ k = m at hk
  obtain ⟨j, rfl⟩ := Nat.exists_eq_add_of_le hk
  rw [show 2 ^ 16 * (1 + j) - 1 - n = 65536 * j + (65535 - n) by omega]
  omega

theorem storedBlock_words {W : Nat} (hW : 16 ≤ W) (final : Bool) {chunk : List UInt8} (h : chunk.length ≤ 65535) :
    storedBlock W final chunk = Zopfli.storedBlock final chunk := by
  have h1 := complement_byte hW h
  have h2 := complement_byte (W := 64) (by norm_num) h
  unfold storedBlock Zopfli.storedBlock
  dsimp only
  generalize 2 ^ W - 1 - chunk.length = a at h1
  generalize 2 ^ 64 - 1 - chunk.length = b at h2
  have e1 : a % 256 = b % 256 := by omega
  have e2 : a / 256 % 256 = b / 256 % 256 := by omega
  rw [e1, e2]

theorem addNonCompressedBlock_words {W : Nat} (hW : 16 ≤ W) (final : Bool) (data : Array UInt8) (a b : Nat) :
    addNonCompressedBlock W final data a b = Zopfli.addNonCompressedBlock final data a b := by
  unfold addNonCompressedBlock Zopfli.addNonCompressedBlock
  cases slice data a b with
  | none => rfl
  | some d =>
    rw [some_bind, some_bind]
    dsimp only
    congr 2
    refine List.map_congr_left fun x hx => ?_
    obtain ⟨chunk, isFinal⟩ := x
    refine storedBlock_words hW _ ?_
    have hx := List.mem_of_mem_take hx
    rw [List.mem_append] at hx
    rcases hx with hx | hx
    · have : ∀ (l : List (List UInt8)), (∀ c ∈ l, c.length ≤ 65535) → ∀ y ∈ flagLast l, y.1.length ≤ 65535 := by
        intro l
        induction l with
        | nil => intro _ y hy; cases hy
        | cons z l ih =>
          intro hl y hy
          cases l with
          | nil =>
            rw [flagLast, List.mem_singleton] at hy
            subst hy
            exact hl z (by simp)
          | cons z' l =>
            rw [flagLast, List.mem_cons] at hy
            rcases hy with rfl | hy
            · exact hl z (by simp)
            · exact ih (fun c hc => hl c (List.mem_cons_of_mem _ hc)) y hy
      exact this _ (fun c hc => ((chunksOf_spec (by norm_num) d.toList).2.1 c hc).1) _ hx
    · rw [List.mem_singleton] at hx
      cases hx
      exact Nat.zero_le _

theorem addLz77Block_words (c : Checks) {W : Nat} {data0 data : Array UInt8} {start stop : Nat} {s : Lz77Store} (hs : StoreOk data0 start stop s)
    (hb : stop < 2 ^ W) (hW : Small W (stop - start)) (h16 : 16 ≤ W) {k l : Nat} (hkl : k ≤ l) (hl : l ≤ s.size) (bt : BlockType) (final : Bool) :
    @addLz77Block c W bt final data s k l = @Zopfli.addLz77Block releaseBuild bt final data s k l := by
  have hr := hs.rangeOk hkl hl
  have h1 : bytePos start s l ≤ stop := by
    have h1 := hs.bytePos_size
    have h2 := (hs.rangeOk hl (Nat.le_refl s.size)).parses.le
    omega
  have h2 : start ≤ bytePos start s k := Nat.le_add_right _ _
  have h3 := hr.parses.le
  unfold addLz77Block Zopfli.addLz77Block
  cases bt with
  | uncompressed =>
    dsimp only
    rw [getByteRange_words hr (Nat.lt_of_le_of_lt h1 hb), hr.range, some_bind, some_bind]
    by_cases he : k = l
    · subst he
      rw [if_pos rfl, some_bind, some_bind, usize_eq (by omega), some_bind, addNonCompressedBlock_words h16]
    · rw [if_neg he, hr.pos (by omega), some_bind, some_bind, usize_eq (by omega), some_bind, addNonCompressedBlock_words h16]
  | fixed => rfl
  | dynamic =>
    dsimp only
    rw [getDynamicLengths_words hr (hW.mono (by omega)).fits, getDynamicLengths_eq c (hs.small hW.u32)]
    obtain ⟨⟨r, a, b⟩, e, hok, -⟩ := getDynamicLengths_spec hs.inv hkl hl
    rw [e, some_bind, some_bind]
    dsimp only at hok ⊢
    rw [addDynamicTree_words (Nat.lt_of_le_of_lt (Nat.le_trans (by norm_num) (Nat.mul_le_mul_left 604 (Nat.le_add_left 290 _))) hW.word) hok]

theorem addLz77BlockAutoType_words (c : Checks) (L : FloatLaws F) {W : Nat} {data : Array UInt8} {start stop : Nat} {s : Lz77Store} (h : StoreOk data start stop s)
    (hstop : stop ≤ data.size) (hb : stop < 2 ^ W) (hW : Small W (stop - start)) (h16 : 16 ≤ W) {k l : Nat} (hkl : k ≤ l) (hl : l ≤ s.size) (final : Bool) :
    @addLz77BlockAutoType c W F final data s k l = @Zopfli.addLz77BlockAutoType releaseBuild F final data s k l := by
  have hr := h.rangeOk hkl hl
  unfold addLz77BlockAutoType Zopfli.addLz77BlockAutoType
  simp only [blockSize_store c h hb hW hkl hl, addLz77Block_words c h hb hW h16 hkl hl]
  by_cases hkl' : k = l
  · simp only [if_pos hkl']
  · simp only [if_neg hkl']
    have hab := hr.parses.le
    have hle1 : start ≤ bytePos start s k := Nat.le_add_right _ _
    have hle2 : bytePos start s l ≤ stop := by
      have h1 := h.bytePos_size
      have h2 := (h.rangeOk hl (Nat.le_refl s.size)).parses.le
      omega
    rw [hr.pos (by omega), hr.range, getByteRange_words hr (Nat.lt_of_le_of_lt hle2 hb)]
    simp only [some_bind]
    rw [show bytePos start s k + (bytePos start s l - bytePos start s k) = bytePos start s l by omega,
      usize_eq (Nat.lt_of_le_of_lt hle2 hb)]
    simp only [some_bind]
    obtain ⟨⟨fs, lmc⟩, ef, hf⟩ := lz77OptimalFixed_new L hab (Nat.le_trans hle2 hstop)
    dsimp only at hf
    have hsm : Small W (bytePos start s l - bytePos start s k) := hW.mono (by omega)
    rw [ef]
    simp only [some_bind, blockSize_store c hf (Nat.lt_of_le_of_lt hle2 hb) hsm (Nat.zero_le _) (Nat.le_refl _)]
    have hfix : ∀ fs a b, @addLz77Block c W .fixed final data fs a b = @Zopfli.addLz77Block releaseBuild .fixed final data fs a b := fun _ _ _ => rfl
    simp only [hfix]

theorem addSplitBlocks_words (c : Checks) (L : FloatLaws F) {W : Nat} {data : Array UInt8} {start stop : Nat} {s : Lz77Store} (h : StoreOk data start stop s)
    (hstop : stop ≤ data.size) (hb : stop < 2 ^ W) (hW : Small W (stop - start)) (h16 : 16 ≤ W) : ∀ (sp : List Nat) (last : Nat), sp.Pairwise (· < ·) →
    (∀ x ∈ sp, last < x ∧ x < s.size) → last ≤ s.size →
    @addSplitBlocks c W F s data sp last = @Zopfli.addSplitBlocks releaseBuild F s data sp last
  | [], last, _, _, hl => by simp only [addSplitBlocks, Zopfli.addSplitBlocks]
  | item :: rest, last, h1, h2, hl => by
    have hi := h2 item (by simp)
    rw [List.pairwise_cons] at h1
    unfold addSplitBlocks Zopfli.addSplitBlocks
    rw [addLz77BlockAutoType_words c L h hstop hb hW h16 (Nat.le_of_lt hi.1) (Nat.le_of_lt hi.2),
      addSplitBlocks_words c L h hstop hb hW h16 rest item h1.2 (fun x hx => ⟨h1.1 x hx, (h2 x (by simp [hx])).2⟩) (Nat.le_of_lt hi.2)]

theorem addAllBlocks_words (c : Checks) (L : FloatLaws F) {W : Nat} {data : Array UInt8} {start stop : Nat} {s : Lz77Store} (h : StoreOk data start stop s)
    (hstop : stop ≤ data.size) (hb : stop < 2 ^ W) (hW : Small W (stop - start)) (h16 : 16 ≤ W) {sp : List Nat} (hsp : SplitOk s.size sp) (final : Bool) :
    @addAllBlocks c W F sp s final data = @Zopfli.addAllBlocks releaseBuild F sp s final data := by
  unfold addAllBlocks Zopfli.addAllBlocks
  rw [addSplitBlocks_words c L h hstop hb hW h16 sp 0 hsp.1 hsp.2 (Nat.zero_le _)]
  obtain ⟨⟨ops, last⟩, e, -, -, g3⟩ := addSplitBlocks_spec L h hstop sp 0 hsp.1 hsp.2 (Nat.zero_le _)
  rw [e, some_bind, some_bind]
  dsimp only at g3 ⊢
  rw [addLz77BlockAutoType_words c L h hstop hb hW h16 g3 (Nat.le_refl _)]

/-- Compressing a chunk is the same with words of `W` bits, in every build. -/
theorem deflatePart_words (c : Checks) (L : FloatLaws F) (options : Options) (btype : BlockType) (final : Bool) {W : Nat} {data : Array UInt8}
    {instart inend : Nat} (h1 : instart ≤ inend) (h2 : inend ≤ data.size) (hsz : data.size < 2 * L.lim) (hb : inend < 2 ^ W)
    (hW : Small W (inend - instart)) :
    @deflatePart c W F options btype final data instart inend = @Zopfli.deflatePart c F options btype final data instart inend := by
  have h16 : 16 ≤ W := by
    by_contra h
    have : 2 ^ W ≤ 2 ^ 15 := Nat.pow_le_pow_right (by norm_num) (by omega)
    have := hW.word
    have : 604 * 290 ≤ 604 * (inend - instart + 290) := Nat.mul_le_mul_left _ (Nat.le_add_left _ _)
    norm_num at *
    omega
  rw [deflatePart_eq c L options btype final h1 h2 hsz hW.u32]
  cases btype with
  | uncompressed => exact addNonCompressedBlock_words h16 final data instart inend
  | fixed => rfl
  | dynamic =>
    unfold deflatePart Zopfli.deflatePart blocksplitAttempt Zopfli.blocksplitAttempt
    dsimp only
    rw [blocksplitPlan_words c L options h1 h2 hsz hb hW]
    obtain ⟨⟨s, sp⟩, e, g1, g2, -⟩ := blocksplitPlan_spec L options h1 h2 hsz
    rw [e, some_bind, some_bind]
    exact addAllBlocks_words c L g1 h2 hb hW h16 g2 final

end Zopfli.Words
