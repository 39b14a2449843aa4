import Verif.Proofs.Blocks
/-! # A whole part (chunk) is emitted as blocks describing it -/

namespace Zopfli
open Rfc

variable {F : FloatOps}

/-- The position in the data of item `k` of a store that starts at `start`. -/
def bytePos (start : Nat) (s : Lz77Store) (k : Nat) : Nat := start + ((s.litlens.toList.take k).map LitLen.size).sum

theorem bytePos_zero (start : Nat) (s : Lz77Store) : bytePos start s 0 = start := by simp [bytePos]

theorem StoreOk.bytePos_size {data : Array UInt8} {start stop : Nat} {s : Lz77Store} (h : StoreOk data start stop s) :
    bytePos start s s.size = stop := by
  rw [bytePos, Lz77Store.size_eq, List.take_length, ← h.parses.stop]

theorem posList_get : ∀ (xs : List LitLen) (a k : Nat), k < xs.length → (posList a xs)[k]? = some (a + ((xs.take k).map LitLen.size).sum)
  | [], _, _, h => by simp at h
  | x :: xs, a, 0, _ => by simp [posList]
  | x :: xs, a, k + 1, h => by
    rw [posList, List.getElem?_cons_succ, posList_get xs _ k (by simp at h; omega), List.take_succ_cons, List.map_cons, List.sum_cons, Nat.add_assoc]

theorem parses_range {data : Array UInt8} {xs : List LitLen} {start stop : Nat} (h : Parses data start xs stop) {k l : Nat} (hkl : k ≤ l)
    (hl : l ≤ xs.length) : Parses data (start + ((xs.take k).map LitLen.size).sum) ((xs.take l).drop k) (start + ((xs.take l).map LitLen.size).sum) := by
  have h1 : Parses data start (xs.take l ++ xs.drop l) stop := by rw [List.take_append_drop]; exact h
  obtain ⟨m, h2, -⟩ := h1.split
  have e2 := h2.stop
  have h3 : Parses data start ((xs.take l).take k ++ (xs.take l).drop k) m := by rw [List.take_append_drop]; exact h2
  obtain ⟨m', h4, h5⟩ := h3.split
  have e4 := h4.stop
  rw [List.take_take, Nat.min_eq_left hkl] at e4
  rw [← e4, ← e2]
  exact h5

theorem StoreOk.rangeOk {data : Array UInt8} {start stop : Nat} {s : Lz77Store} (h : StoreOk data start stop s) {k l : Nat} (hkl : k ≤ l)
    (hl : l ≤ s.size) : RangeOk data (bytePos start s k) (bytePos start s l) s k l := by
  have hs := s.size_eq
  have hpos : ∀ i, i < s.size → s.pos[i]? = some (bytePos start s i) := by
    intro i hi
    rw [← Array.getElem?_toList, h.poss]
    exact posList_get _ _ _ (by omega)
  refine ⟨h.inv, hkl, hl, parses_range h.parses hkl (by omega), fun hlt => hpos k (by omega), ?_⟩
  unfold Lz77Store.getByteRange
  by_cases hkl' : k = l
  · rw [if_pos hkl', hkl', Nat.sub_self]
  · rw [if_neg hkl', if_neg (by omega)]
    dsimp only [Option.pure_def]
    have hlt : l - 1 < s.litlens.size := by rw [show s.litlens.size = s.size from rfl]; omega
    show (do let p ← s.pos[l - 1]?; let x ← s.litlens[l - 1]?; let q ← s.pos[k]?; some (p + x.size - q)) = _
    rw [hpos (l - 1) (by omega), some_bind, Array.getElem?_eq_getElem hlt, some_bind, hpos k (by omega), some_bind]
    congr 2
    unfold bytePos
    have e : s.litlens.toList.take l = s.litlens.toList.take (l - 1) ++ [s.litlens[l - 1]] := by
      have := List.take_succ_eq_append_getElem (l := s.litlens.toList) (i := l - 1) (by simpa using hlt)
      rw [show l - 1 + 1 = l by omega] at this
      rw [this, Array.getElem_toList]
    rw [e, List.map_append, List.sum_append]
    simp
    omega

theorem fixed_code256 : ((lengthsToSymbols fixedTree.1 15).bind fun s => s[256]?) = some 0 := by decide +kernel

/-- The empty block. -/
theorem emptyBlock_spec (data : Array UInt8) (a : Nat) (final : Bool) :
    Emits data a a final (addBits final.toNat 1 ++ addBits 1 2 ++ addBits 0 7) [⟨final, .fixed []⟩] := by
  have hops : addBits final.toNat 1 ++ addBits 1 2 ++ addBits 0 7 = bitOps ([final, true, false] ++ List.replicate 7 false) := by
    cases final <;> rfl
  rw [hops]
  refine ⟨fun pos => ⟨_, render_bitOps _ _, fun rest => .one ?_⟩, fun H => rfl, FinalOk.one _ _, ?_⟩
  · obtain ⟨lls, e1, g1⟩ := dec_of fixed_codeOk.1 (read := fixedLL) ⟨0, by rw [fixedLL_eq]; simp⟩
    obtain ⟨ds, e2, g2⟩ := dec_of fixed_codeOk.2 (read := fixedD) ⟨0, by rw [fixedD_eq]; simp⟩
    have h256 : 256 < fixedTree.1.size := by have := fixed_sizes; omega
    obtain ⟨c, ec, hc⟩ := g1.2 256 h256 (fixed_ll_ne 256 h256).1
    have h0 := fixed_code256
    rw [e1] at h0
    have h0 : lls[256]? = some 0 := h0
    rw [h0] at ec
    cases ec
    have hlen : fixedTree.1[256]? = some 7 := by decide +kernel
    rw [Array.getElem?_eq_getElem h256] at hlen
    rw [Option.some.inj hlen] at hc
    rw [List.append_assoc]
    unfold readBlock
    rw [List.cons_append, next_cons, some_bind]
    dsimp only
    have h2 := readNat_lt (n := 2) (v := 1) (by omega) (List.replicate 7 false ++ rest) (pos + 1)
    have e : bitsLsb 1 2 = [true, false] := rfl
    rw [e] at h2
    rw [h2, some_bind]
    dsimp only
    rw [if_neg (by omega), if_pos rfl]
    have h3 := hc rest (pos + 1 + 2)
    have e : bitsMsb 0 7 = List.replicate 7 false := rfl
    rw [e] at h3
    rw [readSyms.eq_1]
    unfold readSym
    rw [h3, some_bind]
    dsimp only
    rw [if_neg (by omega), if_pos rfl]
    show some (_, _) = _
    rw [show pos + 1 + 2 + 7 = pos + ([final, true, false] ++ List.replicate 7 false).length by simp]
  · intro blk hb
    rw [List.mem_singleton] at hb
    rw [hb]
    intro len dist hm
    cases hm

/-- `add_lz77_block_auto_type`: a valid block for the range, whatever type is chosen. -/
theorem addLz77BlockAutoType_spec (L : FloatLaws F) {data : Array UInt8} {start stop : Nat} {s : Lz77Store} (h : StoreOk data start stop s)
    (hstop : stop ≤ data.size) {k l : Nat} (hkl : k ≤ l) (hl : l ≤ s.size) (final : Bool) :
    Ret (addLz77BlockAutoType F final data s k l) fun ops => ∃ blocks, Emits data (bytePos start s k) (bytePos start s l) final ops blocks := by
  have hr := h.rangeOk hkl hl
  obtain ⟨c1, e1⟩ := calculateBlockSize_ret (F := F) h.inv hkl hl .uncompressed
  obtain ⟨c2, e2⟩ := calculateBlockSize_ret (F := F) h.inv hkl hl .fixed
  obtain ⟨c3, e3⟩ := calculateBlockSize_ret (F := F) h.inv hkl hl .dynamic
  unfold addLz77BlockAutoType
  rw [e1, some_bind, e2, some_bind, e3, some_bind]
  dsimp only
  by_cases hkl' : k = l
  · rw [if_pos hkl']
    subst hkl'
    exact ⟨_, rfl, _, emptyBlock_spec _ _ _⟩
  · rw [if_neg hkl']
    have hb : bytePos start s l ≤ data.size := by
      have := h.bytePos_size
      have hp := h.rangeOk hl (Nat.le_refl _)
      have := hp.parses.le
      omega
    have hab := hr.parses.le
    have hst := addLz77Block_stored hr (by omega) hb final
    have hfx : Ret (addLz77Block .fixed final data s k l) fun ops => ∃ blocks, Emits data (bytePos start s k) (bytePos start s l) final ops blocks := by
      obtain ⟨bits, e, -, he⟩ := addLz77Block_fixed hr final
      exact ⟨_, e, _, he⟩
    have hdy : Ret (addLz77Block .dynamic final data s k l) fun ops => ∃ blocks, Emits data (bytePos start s k) (bytePos start s l) final ops blocks := by
      obtain ⟨bits, _, _, _, e, -, he⟩ := addLz77Block_dynamic hr (by omega) final
      exact ⟨_, e, _, he⟩
    by_cases hx : s.size < 1000 ∨ F.le c2 (F.mul c3 F.c11) = true
    · rw [if_pos hx, hr.pos (by omega), some_bind, hr.range, some_bind]
      rw [show bytePos start s k + (bytePos start s l - bytePos start s k) = bytePos start s l by omega]
      obtain ⟨⟨fs, lmc⟩, ef, hf⟩ := lz77OptimalFixed_new L hab hb
      rw [ef, some_bind]
      dsimp only at hf ⊢
      obtain ⟨c4, e4⟩ := calculateBlockSize_ret (F := F) hf.inv (Nat.zero_le _) (Nat.le_refl fs.size) .fixed
      rw [e4, some_bind, some_bind]
      dsimp only
      have hfr := hf.rangeOk (Nat.zero_le _) (Nat.le_refl fs.size)
      rw [bytePos_zero, hf.bytePos_size] at hfr
      split
      · exact Ret.mono hst fun ops ho => ⟨_, ho⟩
      · split
        · obtain ⟨bits, e, -, he⟩ := addLz77Block_fixed hfr final
          exact ⟨_, e, _, he⟩
        · exact hdy
    · rw [if_neg hx, some_bind]
      dsimp only
      split
      · exact Ret.mono hst fun ops ho => ⟨_, ho⟩
      · split
        · exact hfx
        · exact hdy

theorem addSplitBlocks_spec (L : FloatLaws F) {data : Array UInt8} {start stop : Nat} {s : Lz77Store} (h : StoreOk data start stop s)
    (hstop : stop ≤ data.size) : ∀ (sp : List Nat) (last : Nat), sp.Pairwise (· < ·) → (∀ x ∈ sp, last < x ∧ x < s.size) → last ≤ s.size →
    Ret (addSplitBlocks F s data sp last) fun r => (∃ blocks, Emits data (bytePos start s last) (bytePos start s r.2) false r.1 blocks) ∧
      last ≤ r.2 ∧ r.2 ≤ s.size
  | [], last, _, _, hl => by
    refine ⟨_, rfl, ⟨[], ?_⟩, Nat.le_refl _, hl⟩
    exact ⟨fun pos => ⟨[], rfl, fun rest => .nil _⟩, fun H => rfl, by simp [FinalOk], by simp⟩
  | item :: rest, last, h1, h2, hl => by
    have hi := h2 item (by simp)
    rw [List.pairwise_cons] at h1
    rw [addSplitBlocks]
    refine Ret.bind' (addLz77BlockAutoType_spec L h hstop (Nat.le_of_lt hi.1) (Nat.le_of_lt hi.2) false) ?_
    rintro ops ⟨b1, g1⟩
    refine Ret.bind' (addSplitBlocks_spec L h hstop rest item h1.2 (fun x hx => ⟨h1.1 x hx, (h2 x (by simp [hx])).2⟩) (Nat.le_of_lt hi.2)) ?_
    rintro ⟨ops', last'⟩ ⟨⟨b2, g2⟩, g3, g4⟩
    dsimp only at g2 g3 g4
    exact ⟨_, rfl, ⟨_, g1.append g2⟩, by simp only; omega, g4⟩

theorem addAllBlocks_spec (L : FloatLaws F) {data : Array UInt8} {start stop : Nat} {s : Lz77Store} (h : StoreOk data start stop s)
    (hstop : stop ≤ data.size) {sp : List Nat} (hsp : SplitOk s.size sp) (final : Bool) :
    Ret (addAllBlocks F sp s final data) fun ops => ∃ blocks, Emits data start stop final ops blocks := by
  unfold addAllBlocks
  refine Ret.bind' (addSplitBlocks_spec L h hstop sp 0 hsp.1 hsp.2 (Nat.zero_le _)) ?_
  rintro ⟨ops, last⟩ ⟨⟨b1, g1⟩, -, g3⟩
  dsimp only at g1 g3 ⊢
  refine Ret.bind' (addLz77BlockAutoType_spec L h hstop g3 (Nat.le_refl _) final) ?_
  rintro ops2 ⟨b2, g2⟩
  rw [bytePos_zero] at g1
  rw [h.bytePos_size] at g2
  exact ⟨_, rfl, _, g1.append g2⟩

/-- `deflate_part`: the part is emitted as valid blocks that describe it. -/
theorem deflatePart_spec (L : FloatLaws F) (options : Options) (btype : BlockType) (final : Bool) {data : Array UInt8} {instart inend : Nat}
    (h1 : instart ≤ inend) (h2 : inend ≤ data.size) (hsz : data.size < 2 * L.lim) :
    Ret (deflatePart F options btype final data instart inend) fun ops => ∃ blocks, Emits data instart inend final ops blocks := by
  cases btype with
  | uncompressed => exact Ret.mono (addNonCompressedBlock_spec h1 h2 final) fun ops h => ⟨_, h⟩
  | fixed =>
    unfold deflatePart
    dsimp only
    rw [usub_eq h1, some_bind]
    refine Ret.bind' (lz77OptimalFixed_new L h1 h2) ?_
    rintro ⟨s, lmc⟩ hs
    dsimp only at hs ⊢
    have hr := hs.rangeOk (Nat.zero_le _) (Nat.le_refl s.size)
    rw [bytePos_zero, hs.bytePos_size] at hr
    obtain ⟨bits, e, -, he⟩ := addLz77Block_fixed hr final
    exact ⟨_, e, _, he⟩
  | dynamic =>
    unfold deflatePart blocksplitAttempt
    dsimp only
    refine Ret.bind' (blocksplitPlan_spec L options h1 h2 hsz) ?_
    rintro ⟨s, sp⟩ ⟨g1, g2, -⟩
    exact addAllBlocks_spec L g1 h2 g2 final

end Zopfli
