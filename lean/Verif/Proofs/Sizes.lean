import Verif.Proofs.Part
import Verif.Proofs.Ieee
/-! # Block size estimates are the sizes of the blocks, and the cheapest representation is chosen -/

namespace Zopfli
open Rfc

variable {F : FloatOps}

/-- Arithmetic on integers below `2^53` is exact. -/
structure FloatExact (F : FloatOps) : Prop where
  add : ∀ a b, a + b < 2 ^ 53 → F.add (F.ofUsize a) (F.ofUsize b) = F.ofUsize (a + b)
  le : ∀ a b, a < 2 ^ 53 → b < 2 ^ 53 → F.le (F.ofUsize a) (F.ofUsize b) = decide (a ≤ b)
  lt : ∀ a b, a < 2 ^ 53 → b < 2 ^ 53 → F.lt (F.ofUsize a) (F.ofUsize b) = decide (a < b)
  min : ∀ a b, a < 2 ^ 53 → b < 2 ^ 53 → F.min (F.ofUsize a) (F.ofUsize b) = F.ofUsize (Nat.min a b)
  lt_inf : ∀ a, a < 2 ^ 53 → F.lt (F.ofUsize a) F.inf = true
  inf_lt : ∀ a, a < 2 ^ 53 → F.lt F.inf (F.ofUsize a) = false

theorem ieee_exact (log2 : Fp → Fp) : FloatExact (ieee log2) where
  add a b h := by
    rw [ieee_ofUsize_small _ (by omega), ieee_ofUsize_small _ (by omega), ieee_ofUsize_small _ h]
    show Fp.round64 ((a : ℚ) + (b : ℚ)) = _
    rw [← Nat.cast_add, Fp.round64_nat h]
  le a b h1 h2 := by
    rw [ieee_ofUsize_small _ h1, ieee_ofUsize_small _ h2]
    show decide ((a : ℚ) ≤ (b : ℚ)) = _
    simp
  lt a b h1 h2 := by
    rw [ieee_ofUsize_small _ h1, ieee_ofUsize_small _ h2]
    show decide ((a : ℚ) < (b : ℚ)) = _
    simp
  min a b h1 h2 := by
    have h3 : Nat.min a b < 2 ^ 53 := Nat.lt_of_le_of_lt (Nat.min_le_left _ _) h1
    rw [ieee_ofUsize_small _ h1, ieee_ofUsize_small _ h2, ieee_ofUsize_small _ h3]
    show (if decide ((b : ℚ) < (a : ℚ)) = true then Fp.fin b else Fp.fin a) = _
    by_cases h : b < a
    · rw [if_pos (by simpa using h), show Nat.min a b = b from Nat.min_eq_right (by omega)]
    · rw [if_neg (by simpa using h), show Nat.min a b = a from Nat.min_eq_left (by omega)]
  lt_inf a h := by
    rw [ieee_ofUsize_small _ h]
    rfl
  inf_lt a h := by
    rw [ieee_ofUsize_small _ h]
    rfl

/-! ## The estimates fit -/

theorem itemCost_le {ll d : Array Nat} (h : LensOk ll d) {x : LitLen} (hx : x.InRange) : itemCost ll d x ≤ 16 * x.size := by
  have h1 : ∀ i, ll.getD i 0 ≤ 15 := by
    intro i
    rw [Array.getD_eq_getD_getElem?]
    by_cases hi : i < ll.size
    · rw [Array.getElem?_eq_getElem hi]; exact h.lle i hi
    · rw [Array.getElem?_eq_none (by omega)]; simp
  have h2 : ∀ i, d.getD i 0 ≤ 15 := by
    intro i
    rw [Array.getD_eq_getD_getElem?]
    by_cases hi : i < d.size
    · rw [Array.getElem?_eq_getElem hi]; exact h.de i hi
    · rw [Array.getElem?_eq_none (by omega)]; simp
  cases x with
  | literal b =>
    have hb : b < 256 := hx
    have := h1 b
    have e : llCost ll (llSym (.literal b)) = ll.getD b 0 := by
      show ll.getD b 0 + (if b < 257 then 0 else (getLengthSymbolExtraBits b).getD 0) = _
      rw [if_pos (by omega)]; rfl
    simp only [itemCost, e, dSym, LitLen.size, Option.map_none, Option.getD_none]
    omega
  | lengthDist len dist =>
    obtain ⟨g1, g2, g3, g4⟩ := hx
    obtain ⟨sy, eb, v, e, -, -, hs1, hs2, he, -, -, -, heb, -⟩ := length_spec g1 g2
    obtain ⟨hd1, hd2, -, -, -, hd3, -⟩ := dist_spec g3 g4
    have := h1 sy
    have := h2 (getDistSymbol dist)
    simp only [itemCost, llCost, dCost, llSym, dSym, LitLen.size, e, Option.getD_some, Option.map_some, he, hd2]
    rw [if_neg (by omega)]
    omega

theorem dataCost_le {ll d : Array Nat} (h : LensOk ll d) (items : List LitLen) (hr : ∀ x ∈ items, x.InRange) :
    dataCost ll d items ≤ 16 * (items.map LitLen.size).sum + 15 := by
  have h1 : ll.getD 256 0 ≤ 15 := by
    rw [Array.getD_eq_getD_getElem?, Array.getElem?_eq_getElem (by rw [h.lls]; omega)]; exact h.lle _ _
  have h2 : (items.map (itemCost ll d)).sum ≤ 16 * (items.map LitLen.size).sum := by
    induction items with
    | nil => simp
    | cons x l ih =>
      have := itemCost_le h (hr x (by simp))
      have := ih fun y hy => hr y (by simp [hy])
      simp only [List.map_cons, List.sum_cons]
      omega
  unfold dataCost
  omega

theorem treeSize_le {ll d : Array Nat} (h : LensOk ll d) (u16 u17 u18 : Bool) :
    ∃ n, encodeTreeNoOutput ll d u16 u17 u18 = some n ∧ n ≤ 5000 := by
  obtain ⟨hlit, hdist, o, items, clcl, hclen, p⟩ := tree_pre h u16 u17 u18
  refine ⟨_, p.size, ?_⟩
  have hlen := rleApply_fold_length p.enc.dec
  have h1 := p.hl
  have h2 := p.hd
  have h3 := p.hc
  rw [List.length_append, List.length_take, List.length_take, List.length_nil] at hlen
  have hn : items.length ≤ 316 := by omega
  have hs : (items.map fun x => clcl.getD x.1 0 + rleExtra x.1).sum ≤ 14 * items.length := by
    have hok : ∀ x ∈ items, clcl.getD x.1 0 + rleExtra x.1 ≤ 14 := by
      intro x hx
      have := p.cle x.1 (p.enc.ok x hx).1
      have : rleExtra x.1 ≤ 7 := by unfold rleExtra; split <;> [omega; (split <;> [omega; (split <;> omega)])]
      omega
    clear hlen hn p
    induction items with
    | nil => simp
    | cons x l ih =>
      have := hok x (by simp)
      have := ih fun y hy => hok y (by simp [hy])
      simp only [List.map_cons, List.sum_cons, List.length_cons]
      omega
  unfold treeSizeOf
  omega

theorem calculateTreeSize_le {ll d : Array Nat} (h : LensOk ll d) {t : Nat} (e : calculateTreeSize ll d = some t) : t ≤ 5000 := by
  have := treeSize_le h
  unfold calculateTreeSize at e
  obtain ⟨n, e0, h0⟩ := treeSize_le h false false false
  simp only [e0, Option.bind_eq_bind, Option.bind_eq_some_iff, Option.pure_def, Option.some.injEq] at e
  obtain ⟨a0, rfl, a1, -, a2, -, a3, -, a4, -, a5, -, a6, -, a7, -, rfl⟩ := e
  omega

theorem fixedLens_ok : LensOk fixedTree.1 fixedTree.2 :=
  ⟨fixed_sizes.1, fixed_sizes.2, fun i h => (fixed_ll_ne i h).2, fun i h => (fixed_d_ne i h).2⟩

theorem RangeOk.cost_lt {data : Array UInt8} {a b : Nat} {s : Lz77Store} {lstart lend : Nat} (h : RangeOk data a b s lstart lend)
    (hsz : b - a < 2 ^ 28) {ll d : Array Nat} (hl : LensOk ll d) : dataCost ll d ((s.litlens.toList.take lend).drop lstart) < 2 ^ 32 := by
  have h1 := dataCost_le hl ((s.litlens.toList.take lend).drop lstart) fun x hx =>
    h.inv.range x (List.mem_of_mem_take (List.mem_of_mem_drop hx))
  have h2 := h.parses.stop
  omega

/-! ## The estimates are exact -/

/-- The stored estimate. -/
theorem estimate_stored {data : Array UInt8} {a b : Nat} {s : Lz77Store} {lstart lend : Nat} (h : RangeOk data a b s lstart lend) :
    calculateBlockSize F s lstart lend .uncompressed = some (F.ofUsize (storedBits (b - a))) := by
  unfold calculateBlockSize uncompressedSize
  dsimp only
  rw [h.range, some_bind]
  show some _ = some _
  congr 2
  unfold storedBits
  have hb : (b - a) / 65535 + (if (b - a) % 65535 > 0 then 1 else 0) = (b - a + 65534) / 65535 := by split <;> omega
  rw [hb]
  omega

/-- The estimate of a fixed block is its size. -/
theorem estimate_fixed (X : FloatExact F) {data : Array UInt8} {a b : Nat} {s : Lz77Store} {lstart lend : Nat}
    (h : RangeOk data a b s lstart lend) (hc : dataCost fixedTree.1 fixedTree.2 ((s.litlens.toList.take lend).drop lstart) < 2 ^ 32) (final : Bool) :
    ∃ bits, addLz77Block .fixed final data s lstart lend = some (bitOps bits) ∧
      calculateBlockSize F s lstart lend .fixed = some (F.ofUsize bits.length) ∧ bits.length < 2 ^ 33 ∧
      Emits data a b final (bitOps bits) [⟨final, .fixed (((s.litlens.toList.take lend).drop lstart).map symOf)⟩] := by
  obtain ⟨bits, e, el, he⟩ := addLz77Block_fixed h final
  refine ⟨bits, e, ?_, by omega, he⟩
  unfold calculateBlockSize
  show (do some (F.add (F.ofUsize 3) (F.ofUsize (← blockSymbolSize fixedTree.1 fixedTree.2 s lstart lend)))) = _
  rw [blockSymbolSize_spec fixed_sizes.1 fixed_sizes.2 h.inv h.le h.le', some_bind, Nat.mod_eq_of_lt hc, X.add _ _ (by omega), el]

/-- The estimate of a dynamic block is its size. -/
theorem estimate_dynamic (X : FloatExact F) {data : Array UInt8} {a b : Nat} {s : Lz77Store} {lstart lend : Nat}
    (h : RangeOk data a b s lstart lend) (hlt : lstart < lend) (hsz : b - a < 2 ^ 28) (final : Bool) :
    ∃ bits hdr, addLz77Block .dynamic final data s lstart lend = some (bitOps bits) ∧
      calculateBlockSize F s lstart lend .dynamic = some (F.ofUsize bits.length) ∧ bits.length < 2 ^ 33 ∧
      Emits data a b final (bitOps bits) [⟨final, .dynamic hdr (((s.litlens.toList.take lend).drop lstart).map symOf)⟩] := by
  obtain ⟨bits, hdr, ll, d, e, ⟨t, et, el, ed⟩, he⟩ := addLz77Block_dynamic h hlt final
  have hl : LensOk ll d := by
    obtain ⟨⟨n, ll', d'⟩, e1, g1, -⟩ := getDynamicLengths_spec h.inv h.le h.le'
    rw [ed] at e1
    cases e1
    exact g1
  have ht := calculateTreeSize_le hl et
  have hc := h.cost_lt hsz hl
  refine ⟨bits, hdr, e, ?_, by omega, he⟩
  unfold calculateBlockSize
  dsimp only
  rw [ed, some_bind]
  show some (F.add (F.ofUsize _) (F.ofUsize 3)) = _
  rw [Nat.mod_eq_of_lt hc, X.add _ _ (by omega), el]
  congr 2
  omega

/-! ## Stored blocks -/

theorem render_bitOps_eq {bits : List Bool} {pos : Nat} {x : List Bool} (h : render pos (bitOps bits) = some x) : x = bits := by
  rw [render_bitOps] at h
  exact (Option.some.inj h).symm

/-- The bits taken by stored blocks: only the padding of the first one depends on the position. -/
theorem stored_length (final : Bool) : ∀ (items : List (List UInt8 × Bool)), items ≠ [] → (∀ x ∈ items, x.1.length ≤ 65535) → ∀ pos bits,
    render pos (items.map fun (chunk, isFinal) => storedBlock (final && isFinal) chunk).flatten = some bits →
    bits.length + 5 = 8 * (items.map Prod.fst).flatten.length + 40 * items.length + padLen (pos + 3)
  | [], h, _, _, _, _ => absurd rfl h
  | (c, f) :: items, _, hle, pos, bits, h => by
    have e1 := render_storedBlock (final && f) c pos
    have hl1 : ([final && f, false, false] ++ List.replicate (padLen (pos + 3)) false ++
      bitsLsb c.length 16 ++ bitsLsb (2 ^ 64 - 1 - c.length) 16 ++ bytesBits c).length = 3 + padLen (pos + 3) + 32 + 8 * c.length := by
      simp only [List.length_append, List.length_replicate, bytesBits_length, bitsLsb_length, List.length_cons, List.length_nil]
    generalize [final && f, false, false] ++ List.replicate (padLen (pos + 3)) false ++
      bitsLsb c.length 16 ++ bitsLsb (2 ^ 64 - 1 - c.length) 16 ++ bytesBits c = x at *
    cases items with
    | nil =>
      simp only [List.map_cons, List.map_nil, List.flatten_cons, List.flatten_nil, List.append_nil] at h
      rw [e1] at h
      cases h
      simp only [List.map_cons, List.map_nil, List.flatten_cons, List.flatten_nil, List.append_nil, List.length_cons, List.length_nil]
      omega
    | cons y items =>
      have hm := padLen_mod (pos + 3)
      have hp : padLen (pos + x.length + 3) = 5 := by
        unfold padLen
        omega
      have ⟨z, e2⟩ : ∃ z, render (pos + x.length) ((y :: items).map fun (chunk, isFinal) => storedBlock (final && isFinal) chunk).flatten = some z := by
        obtain ⟨z, e, -⟩ := stored_read final (y :: items) (fun z hz => hle z (List.mem_cons_of_mem _ hz)) (pos + x.length)
        exact ⟨z, e⟩
      have h3 := render_append e1 e2
      rw [List.map_cons, List.flatten_cons] at h
      have h4 := h.symm.trans h3
      cases h4
      have ih := stored_length final (y :: items) (by simp) (fun z hz => hle z (List.mem_cons_of_mem _ hz)) _ _ e2
      rw [hp] at ih
      rw [List.map_cons, List.flatten_cons]
      simp only [List.length_append, List.length_cons] at ih ⊢
      omega

theorem storedItems_length {final : Bool} {bytes : List UInt8} (h : bytes ≠ []) :
    (storedItems final bytes).length = (bytes.length + 65534) / 65535 := by
  unfold storedItems
  rw [if_neg (fun hh => h hh.2), flagLast_length, (chunksOf_spec (by omega) bytes).2.2]
  congr 1

theorem storedItems_ne {final : Bool} {bytes : List UInt8} (h : bytes ≠ []) : storedItems final bytes ≠ [] := by
  have h1 := storedItems_length (final := final) h
  have h2 := List.length_pos_iff.mpr h
  intro h3
  rw [h3, List.length_nil] at h1
  omega

/-- The stored blocks of a range take between 5 bits less and 2 bits more than estimated. -/
theorem stored_bits {data : Array UInt8} {a b : Nat} (h1 : a < b) (h2 : b ≤ data.size) (final : Bool) {ops : List WOp}
    (h : addNonCompressedBlock final data a b = some ops) {pos : Nat} {bits : List Bool} (hb : render pos ops = some bits) :
    bits.length + 5 = storedBits (b - a) + padLen (pos + 3) := by
  rw [addNonCompressedBlock_eq (Nat.le_of_lt h1) h2] at h
  cases h
  have hlen : (data.extract a b).toList.length = b - a := by simp; omega
  have hne : (data.extract a b).toList ≠ [] := by
    rw [← List.length_pos_iff]
    omega
  rw [stored_length final _ (storedItems_ne hne) (storedItems_le _ _) pos bits hb, storedItems_fst, storedItems_length hne, hlen]
  rfl

theorem chunksOf_dropLast {α : Type} {n : Nat} (hn : 0 < n) (l : List α) : ∀ c ∈ (chunksOf n l).dropLast, c.length = n := by
  generalize hk : l.length = k
  induction k using Nat.strongRecOn generalizing l with
  | ind k ih =>
    by_cases hl : l = []
    · subst hl
      rw [chunksOf_nil]
      simp
    · have hpos : 0 < l.length := List.length_pos_iff.mpr hl
      rw [chunksOf_cons hn hl]
      by_cases h2 : l.drop n = []
      · rw [h2, chunksOf_nil]; simp
      · intro c hc
        have h3 : 0 < (l.drop n).length := List.length_pos_iff.mpr h2
        rw [List.length_drop] at h3
        rw [List.dropLast_cons_of_ne_nil (by rw [chunksOf_cons hn h2]; simp), List.mem_cons] at hc
        rcases hc with rfl | hc
        · rw [List.length_take]; omega
        · exact ih (l.length - n) (by omega) (l.drop n) (by simp) c hc

theorem storedItems_cut {final : Bool} {bytes : List UInt8} (h : bytes ≠ []) : IsCut 65535 bytes ((storedItems final bytes).map Prod.fst) := by
  have e : (storedItems final bytes).map Prod.fst = chunksOf 65535 bytes := by
    unfold storedItems
    rw [if_neg (fun hh => h hh.2), flagLast_fst]
  rw [e]
  obtain ⟨g1, g2, -⟩ := chunksOf_spec (n := 65535) (by omega) bytes
  exact ⟨g1, fun x hx => (g2 x hx).2, chunksOf_dropLast (by omega) bytes, fun x hx => (g2 x hx).1⟩

theorem stored_uniform {final : Bool} {bytes : List UInt8} (h : bytes ≠ []) (n : Nat) :
    Piece.Uniform ⟨bytes, storedBlocks final (storedItems final bytes), n⟩ := by
  refine .inr ⟨h, _, storedItems_cut (final := final) h, ?_⟩
  simp [storedBlocks, List.map_map, Function.comp_def]

/-! ## The automatic choice -/

/-- What is known of the operations chosen for a range of items. -/
structure AutoOk (F : FloatOps) (data : Array UInt8) (a b : Nat) (s : Lz77Store) (k l : Nat) (final : Bool) (ops : List WOp) (blocks : List Block) :
    Prop where
  emits : Emits data a b final ops blocks
  uniform : ∀ n, Piece.Uniform ⟨(data.extract a b).toList, blocks, n⟩
  empty : k = l → ops = bitOps ([final, true, false] ++ List.replicate 7 false)
  emptyBlock : k = l → blocks = [⟨final, .fixed []⟩]
  stored : b - a < 2 ^ 28 → k < l → ∀ pos bits, render pos ops = some bits → bits.length ≤ storedBits (b - a) + 2
  stored' : b - a < 2 ^ 28 → k < l → ∀ sops, addLz77Block .uncompressed final data s k l = some sops → ∀ pos bits sbits,
    render pos ops = some bits → render pos sops = some sbits → bits.length ≤ sbits.length + 5
  dynamic : b - a < 2 ^ 28 → k < l → ∀ dops, addLz77Block .dynamic final data s k l = some dops → ∀ pos bits dbits,
    render pos ops = some bits → render pos dops = some dbits → bits.length ≤ dbits.length + 2
  fixed : b - a < 2 ^ 28 → k < l → s.size < 1000 → ∀ fs lmc, lz77OptimalFixed F (.lmc (.new (b - a))) data a b Lz77Store.new = some (fs, lmc) →
    ∀ fops, addLz77Block .fixed final data fs 0 fs.size = some fops → ∀ pos bits fbits,
    render pos ops = some bits → render pos fops = some fbits → bits.length ≤ fbits.length + 2
  pays : b - a < 2 ^ 28 → k < l → ∀ fs lmc, lz77OptimalFixed F (.lmc (.new (b - a))) data a b Lz77Store.new = some (fs, lmc) →
    ∀ fbits, addLz77Block .fixed final data fs 0 fs.size = some (bitOps fbits) → ∀ gbits, addLz77Block .fixed final data s k l = some (bitOps gbits) →
    ∀ pos bits, render pos ops = some bits → bits.length ≤ max fbits.length gbits.length + 2 ∧
      ∀ f h syms, blocks = [⟨f, .dynamic h syms⟩] → bits.length < max fbits.length gbits.length ∧ syms = ((s.litlens.toList.take l).drop k).map symOf

theorem bitOps_inj {x y : List Bool} (h : bitOps x = bitOps y) : x = y := by
  have h1 := render_bitOps x 0
  rw [h, render_bitOps] at h1
  exact (Option.some.inj h1).symm

theorem compressed_uniform {final : Bool} {body : Body} (h : IsCompressed ⟨final, body⟩) (bytes : List UInt8) (n : Nat) :
    Piece.Uniform ⟨bytes, [⟨final, body⟩], n⟩ := .inl ⟨_, rfl, h⟩

/-- `add_lz77_block_auto_type` chooses (within two bits) the smallest representation. -/
theorem autoType_ok (L : FloatLaws F) (X : FloatExact F) {data : Array UInt8} {start stop : Nat} {s : Lz77Store} (h : StoreOk data start stop s)
    (hstop : stop ≤ data.size) {k l : Nat} (hkl : k ≤ l) (hl : l ≤ s.size) (final : Bool) :
    Ret (addLz77BlockAutoType F final data s k l) fun ops => ∃ blocks, AutoOk F data (bytePos start s k) (bytePos start s l) s k l final ops blocks := by
  have hr := h.rangeOk hkl hl
  obtain ⟨c1, e1⟩ := calculateBlockSize_ret (F := F) h.inv hkl hl .uncompressed
  obtain ⟨c2, e2⟩ := calculateBlockSize_ret (F := F) h.inv hkl hl .fixed
  obtain ⟨c3, e3⟩ := calculateBlockSize_ret (F := F) h.inv hkl hl .dynamic
  unfold addLz77BlockAutoType
  rw [e1, some_bind, e2, some_bind, e3, some_bind]
  dsimp only
  by_cases hkl' : k = l
  · rw [if_pos hkl']
    subst hkl'
    refine ⟨_, rfl, _, emptyBlock_spec _ _ _, fun n => .inl ⟨_, rfl, trivial⟩, fun _ => ?_, fun _ => rfl, ?_, ?_, ?_, ?_, ?_⟩
    · cases final <;> rfl
    all_goals intro _ hh; exact absurd hh (Nat.lt_irrefl _)
  · rw [if_neg hkl']
    have hlt : k < l := by omega
    generalize ha : bytePos start s k = a at *
    generalize hbb : bytePos start s l = b at *
    have hb : b ≤ data.size := by
      have := h.bytePos_size
      have hp := h.rangeOk hl (Nat.le_refl _)
      have := hp.parses.le
      omega
    have hab : a < b := by
      have h1 := hr.parses.stop
      have hlen : 0 < ((s.litlens.toList.take l).drop k).length := by
        have : s.size = s.litlens.size := rfl
        simp; omega
      obtain ⟨x, xs, e⟩ := List.exists_cons_of_length_pos hlen
      have hx : x.InRange := h.inv.range x (List.mem_of_mem_take (List.mem_of_mem_drop (by rw [e]; simp)))
      rw [e, List.map_cons, List.sum_cons] at h1
      have : 1 ≤ x.size := by
        cases x with
        | literal _ => exact Nat.le_refl _
        | lengthDist len dist => have := hx.1; simp only [LitLen.size]; omega
      omega
    have hblen : (data.extract a b).toList ≠ [] := by
      rw [← List.length_pos_iff]
      simp; omega
    have hc1 := (estimate_stored (F := F) hr).symm.trans e1
    cases hc1
    obtain ⟨sops, es, hse⟩ := addLz77Block_stored hr hlt hb final
    have hsb : ∀ pos bits, render pos sops = some bits → bits.length + 5 = storedBits (b - a) + padLen (pos + 3) := by
      intro pos bits hbits
      refine stored_bits hab hb final ?_ hbits
      rw [← es]
      unfold addLz77Block
      dsimp only
      rw [hr.range, some_bind, if_neg (by omega), hr.pos hlt, some_bind, show a + (b - a) = b by omega]
    obtain ⟨dbits, hdr, ll, d, ed, -, hde⟩ := addLz77Block_dynamic hr hlt final
    have hd : b - a < 2 ^ 28 → c3 = F.ofUsize dbits.length ∧ dbits.length < 2 ^ 33 := by
      intro hsz
      obtain ⟨bits, hdr', e4, e5, e6, -⟩ := estimate_dynamic X hr hlt hsz final
      rw [ed] at e4
      have := bitOps_inj (Option.some.inj e4)
      subst this
      rw [e3] at e5
      exact ⟨Option.some.inj e5, e6⟩
    have hst33 : b - a < 2 ^ 28 → storedBits (b - a) < 2 ^ 33 := by
      intro hsz
      unfold storedBits
      omega
    have hpad : ∀ pos, padLen (pos + 3) ≤ 7 := fun pos => Nat.le_of_lt_succ (padLen_lt _)
    -- the three outcomes
    have out_stored : (b - a < 2 ^ 28 → storedBits (b - a) ≤ dbits.length) →
        (b - a < 2 ^ 28 → s.size < 1000 → ∀ fs lmc, lz77OptimalFixed F (.lmc (.new (b - a))) data a b Lz77Store.new = some (fs, lmc) →
          ∀ fbits, addLz77Block .fixed final data fs 0 fs.size = some (bitOps fbits) → storedBits (b - a) ≤ fbits.length) →
        (b - a < 2 ^ 28 → ∀ fs lmc, lz77OptimalFixed F (.lmc (.new (b - a))) data a b Lz77Store.new = some (fs, lmc) →
          ∀ fbits, addLz77Block .fixed final data fs 0 fs.size = some (bitOps fbits) → ∀ gbits, addLz77Block .fixed final data s k l = some (bitOps gbits) →
          storedBits (b - a) ≤ max fbits.length gbits.length) →
        Ret (addLz77Block .uncompressed final data s k l) fun ops => ∃ blocks, AutoOk F data a b s k l final ops blocks := by
      intro h1 h2 h3
      refine ⟨_, es, _, hse, stored_uniform hblen, fun hh => absurd hh hkl', fun hh => absurd hh hkl', ?_, ?_, ?_, ?_, ?_⟩
      · intro _ _ pos bits hbits
        have := hsb pos bits hbits
        have := hpad pos
        omega
      · intro _ _ sops' hs' pos bits sbits hbits hsbits
        rw [es] at hs'
        cases hs'
        rw [hbits] at hsbits
        cases hsbits
        omega
      · intro hsz _ dops hdops pos bits dbits' hbits hdbits
        rw [ed] at hdops
        cases hdops
        cases render_bitOps_eq hdbits
        have := hsb pos bits hbits
        have := h1 hsz
        have := hpad pos
        omega
      · intro hsz _ hs1000 fs lmc hfs fops hfops pos bits fbits hbits hfbits
        have hf := lz77OptimalFixed_new L (Nat.le_of_lt hab) hb
        obtain ⟨r, hfr, hfo⟩ := hf
        rw [hfs] at hfr
        cases hfr
        have hfr := hfo.rangeOk (Nat.zero_le _) (Nat.le_refl fs.size)
        rw [bytePos_zero, hfo.bytePos_size] at hfr
        obtain ⟨fb, ef, -, hfe⟩ := addLz77Block_fixed hfr final
        rw [ef] at hfops
        cases hfops
        cases render_bitOps_eq hfbits
        have := h2 hsz hs1000 fs lmc hfs fbits ef
        have := hsb pos bits hbits
        have := hpad pos
        omega
      · intro hsz _ fs lmc hfs fbits hfb gbits hgb pos bits hbits
        have := h3 hsz fs lmc hfs fbits hfb gbits hgb
        have := hsb pos bits hbits
        have := hpad pos
        refine ⟨by omega, fun f hh syms e => ?_⟩
        have := congrArg (List.map Block.body) e
        unfold storedBlocks at this
        cases hcs : storedItems final (data.extract a b).toList with
        | nil => rw [hcs] at this; cases this
        | cons x xs => rw [hcs] at this; cases this
    have out_bits : ∀ (bits : List Bool) (body : Body), Emits data a b final (bitOps bits) [⟨final, body⟩] → IsCompressed ⟨final, body⟩ →
        (b - a < 2 ^ 28 → bits.length ≤ storedBits (b - a)) → (b - a < 2 ^ 28 → bits.length ≤ dbits.length) →
        (b - a < 2 ^ 28 → s.size < 1000 → ∀ fs lmc, lz77OptimalFixed F (.lmc (.new (b - a))) data a b Lz77Store.new = some (fs, lmc) →
          ∀ fbits, addLz77Block .fixed final data fs 0 fs.size = some (bitOps fbits) → bits.length ≤ fbits.length) →
        (b - a < 2 ^ 28 → ∀ fs lmc, lz77OptimalFixed F (.lmc (.new (b - a))) data a b Lz77Store.new = some (fs, lmc) →
          ∀ fbits, addLz77Block .fixed final data fs 0 fs.size = some (bitOps fbits) → ∀ gbits, addLz77Block .fixed final data s k l = some (bitOps gbits) →
          bits.length ≤ max fbits.length gbits.length ∧
          ∀ h syms, body = .dynamic h syms → bits.length < max fbits.length gbits.length ∧ syms = ((s.litlens.toList.take l).drop k).map symOf) →
        ∃ blocks, AutoOk F data a b s k l final (bitOps bits) blocks := by
      intro bits body h1 h2 h3 h4 h5 h6
      refine ⟨_, h1, compressed_uniform h2 _, fun hh => absurd hh hkl', fun hh => absurd hh hkl', ?_, ?_, ?_, ?_, ?_⟩
      · intro hsz _ pos bits' hbits
        cases render_bitOps_eq hbits
        have := h3 hsz
        omega
      · intro hsz _ sops' hs' pos bits' sbits hbits hsbits
        rw [es] at hs'
        cases hs'
        cases render_bitOps_eq hbits
        have := hsb pos sbits hsbits
        have := h3 hsz
        omega
      · intro hsz _ dops hdops pos bits' dbits' hbits hdbits
        rw [ed] at hdops
        cases hdops
        cases render_bitOps_eq hdbits
        cases render_bitOps_eq hbits
        have := h4 hsz
        omega
      · intro hsz _ hs1000 fs lmc hfs fops hfops pos bits' fbits hbits hfbits
        cases render_bitOps_eq hbits
        obtain ⟨r, hfr, hfo⟩ := lz77OptimalFixed_new L (Nat.le_of_lt hab) hb
        rw [hfs] at hfr
        cases hfr
        have hfr := hfo.rangeOk (Nat.zero_le _) (Nat.le_refl fs.size)
        rw [bytePos_zero, hfo.bytePos_size] at hfr
        obtain ⟨fb, ef, -, hfe⟩ := addLz77Block_fixed hfr final
        rw [ef] at hfops
        cases hfops
        cases render_bitOps_eq hfbits
        have := h5 hsz hs1000 fs lmc hfs fbits ef
        omega
      · intro hsz _ fs lmc hfs fbits hfb gbits hgb pos bits' hbits
        cases render_bitOps_eq hbits
        obtain ⟨q1, q2⟩ := h6 hsz fs lmc hfs fbits hfb gbits hgb
        refine ⟨by omega, fun f hh syms e => ?_⟩
        simp only [List.cons.injEq, Block.mk.injEq, and_true] at e
        exact q2 hh syms e.2
    -- a fixed candidate and its estimate
    have fixed_est : ∀ {t : Lz77Store} {i j : Nat} {c : F.F64}, RangeOk data a b t i j → calculateBlockSize F t i j .fixed = some c →
        ∃ fbits body, addLz77Block .fixed final data t i j = some (bitOps fbits) ∧ (b - a < 2 ^ 28 → c = F.ofUsize fbits.length ∧ fbits.length < 2 ^ 33) ∧
          Emits data a b final (bitOps fbits) [⟨final, body⟩] ∧ ∃ syms, body = .fixed syms := by
      intro t i j c ht hc
      obtain ⟨fbits, ef, -, hfe⟩ := addLz77Block_fixed ht final
      refine ⟨fbits, _, ef, ?_, hfe, _, rfl⟩
      intro hsz
      obtain ⟨bits, e4, e5, e6, -⟩ := estimate_fixed X ht (ht.cost_lt hsz fixedLens_ok) final
      rw [ef] at e4
      have := bitOps_inj (Option.some.inj e4)
      subst this
      rw [hc] at e5
      exact ⟨Option.some.inj e5, e6⟩
    by_cases hx : s.size < 1000 ∨ F.le c2 (F.mul c3 F.c11) = true
    · rw [if_pos hx, hr.pos (by omega), some_bind, hr.range, some_bind]
      rw [show a + (b - a) = b by omega]
      obtain ⟨⟨fs, lmc⟩, ef, hf⟩ := lz77OptimalFixed_new L (Nat.le_of_lt hab) hb
      rw [ef, some_bind]
      dsimp only at hf ⊢
      obtain ⟨c4, e4⟩ := calculateBlockSize_ret (F := F) hf.inv (Nat.zero_le _) (Nat.le_refl fs.size) .fixed
      rw [e4, some_bind, some_bind]
      dsimp only
      have hfr := hf.rangeOk (Nat.zero_le _) (Nat.le_refl fs.size)
      rw [bytePos_zero, hf.bytePos_size] at hfr
      obtain ⟨fbits, body, g1, g2, g3, fsyms, rfl⟩ := fixed_est hfr e4
      have hfix : ∀ fs' lmc', lz77OptimalFixed F (.lmc (.new (b - a))) data a b Lz77Store.new = some (fs', lmc') →
          ∀ fbits', addLz77Block .fixed final data fs' 0 fs'.size = some (bitOps fbits') → fbits' = fbits := by
        intro fs' lmc' h1 fb h2
        rw [ef] at h1
        cases h1
        rw [g1] at h2
        exact (bitOps_inj (Option.some.inj h2)).symm
      split
      · rename_i hc
        refine out_stored (fun hsz => ?_) (fun hsz _ fs' lmc' h1 fb h2 => ?_) (fun hsz fs' lmc' h1 fb h2 gb _ => Nat.le_trans ?_ (Nat.le_max_left _ _))
        · obtain ⟨rfl, h5⟩ := hd hsz
          rw [X.le _ _ (by have := hst33 hsz; omega) (by omega)] at hc
          simpa using hc.2
        all_goals
          obtain ⟨rfl, h5⟩ := g2 hsz
          rw [hfix fs' lmc' h1 fb h2]
          rw [X.le _ _ (by have := hst33 hsz; omega) (by omega)] at hc
          simpa using hc.1
      · rename_i hc
        split
        · rename_i hc2
          refine ⟨_, g1, out_bits fbits _ g3 trivial (fun hsz => ?_) (fun hsz => ?_) (fun hsz _ fs' lmc' h1 fb h2 => ?_)
            (fun hsz fs' lmc' h1 fb h2 gb _ => ⟨Nat.le_trans ?_ (Nat.le_max_left _ _), fun _ _ e => nomatch e⟩)⟩
          · obtain ⟨rfl, h5⟩ := hd hsz
            obtain ⟨rfl, h6⟩ := g2 hsz
            have h7 := hst33 hsz
            rw [X.le _ _ (by omega) (by omega), X.le _ _ (by omega) (by omega)] at hc
            rw [X.le _ _ (by omega) (by omega)] at hc2
            simp only [decide_eq_true_eq] at hc hc2
            omega
          · obtain ⟨rfl, h5⟩ := hd hsz
            obtain ⟨rfl, h6⟩ := g2 hsz
            rw [X.le _ _ (by omega) (by omega)] at hc2
            simpa using hc2
          · rw [hfix fs' lmc' h1 fb h2]
          · rw [hfix fs' lmc' h1 fb h2]
        · rename_i hc2
          have hlt' : b - a < 2 ^ 28 → dbits.length < fbits.length := by
            intro hsz
            obtain ⟨rfl, h5⟩ := hd hsz
            obtain ⟨rfl, h6⟩ := g2 hsz
            rw [X.le _ _ (by omega) (by omega)] at hc2
            simpa using hc2
          refine ⟨_, ed, out_bits dbits _ hde trivial (fun hsz => ?_) (fun hsz => Nat.le_refl _) (fun hsz _ fs' lmc' h1 fb h2 => ?_)
            (fun hsz fs' lmc' h1 fb h2 gb _ => ?_)⟩
          · obtain ⟨rfl, h5⟩ := hd hsz
            obtain ⟨rfl, h6⟩ := g2 hsz
            have h7 := hst33 hsz
            rw [X.le _ _ (by omega) (by omega), X.le _ _ (by omega) (by omega)] at hc
            rw [X.le _ _ (by omega) (by omega)] at hc2
            simp only [decide_eq_true_eq] at hc hc2
            omega
          · obtain ⟨rfl, h5⟩ := hd hsz
            obtain ⟨rfl, h6⟩ := g2 hsz
            rw [hfix fs' lmc' h1 fb h2]
            rw [X.le _ _ (by omega) (by omega)] at hc2
            simp only [decide_eq_true_eq] at hc2
            omega
          · rw [hfix fs' lmc' h1 fb h2]
            have := hlt' hsz
            have := Nat.le_max_left fbits.length gb.length
            refine ⟨by omega, fun hh syms e => ⟨by omega, ?_⟩⟩
            cases e
            rfl
    · rw [if_neg hx, some_bind]
      dsimp only
      have h1000 : ¬ s.size < 1000 := fun hh => hx (.inl hh)
      obtain ⟨fbits, body, g1, g2, g3, fsyms, rfl⟩ := fixed_est hr e2
      have hsame : ∀ gb, addLz77Block .fixed final data s k l = some (bitOps gb) → gb = fbits := by
        intro gb h3
        rw [g1] at h3
        exact (bitOps_inj (Option.some.inj h3)).symm
      split
      · rename_i hc
        refine out_stored (fun hsz => ?_) (fun _ hh => absurd hh h1000) (fun hsz fs' lmc' _ fb _ gb h3 => Nat.le_trans ?_ (Nat.le_max_right _ _))
        · obtain ⟨rfl, h5⟩ := hd hsz
          rw [X.le _ _ (by have := hst33 hsz; omega) (by omega)] at hc
          simpa using hc.2
        · rw [hsame gb h3]
          obtain ⟨rfl, h5⟩ := g2 hsz
          rw [X.le _ _ (by have := hst33 hsz; omega) (by omega)] at hc
          simpa using hc.1
      · rename_i hc
        split
        · rename_i hc2
          refine ⟨_, g1, out_bits fbits _ g3 trivial (fun hsz => ?_) (fun hsz => ?_) (fun _ hh => absurd hh h1000)
            (fun hsz fs' lmc' _ fb _ gb h3 => ⟨by rw [hsame gb h3]; exact Nat.le_max_right _ _, fun _ _ e => nomatch e⟩)⟩
          · obtain ⟨rfl, h5⟩ := hd hsz
            obtain ⟨rfl, h6⟩ := g2 hsz
            have h7 := hst33 hsz
            rw [X.le _ _ (by omega) (by omega), X.le _ _ (by omega) (by omega)] at hc
            rw [X.le _ _ (by omega) (by omega)] at hc2
            simp only [decide_eq_true_eq] at hc hc2
            omega
          · obtain ⟨rfl, h5⟩ := hd hsz
            obtain ⟨rfl, h6⟩ := g2 hsz
            rw [X.le _ _ (by omega) (by omega)] at hc2
            simpa using hc2
        · rename_i hc2
          refine ⟨_, ed, out_bits dbits _ hde trivial (fun hsz => ?_) (fun hsz => Nat.le_refl _) (fun _ hh => absurd hh h1000)
            (fun hsz fs' lmc' _ fb _ gb h3 => ?_)⟩
          · obtain ⟨rfl, h5⟩ := hd hsz
            obtain ⟨rfl, h6⟩ := g2 hsz
            have h7 := hst33 hsz
            rw [X.le _ _ (by omega) (by omega), X.le _ _ (by omega) (by omega)] at hc
            rw [X.le _ _ (by omega) (by omega)] at hc2
            simp only [decide_eq_true_eq] at hc hc2
            omega
          · rw [hsame gb h3]
            obtain ⟨rfl, h5⟩ := hd hsz
            obtain ⟨rfl, h6⟩ := g2 hsz
            rw [X.le _ _ (by omega) (by omega)] at hc2
            simp only [decide_eq_true_eq] at hc2
            have := Nat.le_max_right fb.length fbits.length
            refine ⟨by omega, fun hh syms e => ⟨by omega, ?_⟩⟩
            cases e
            rfl

end Zopfli
