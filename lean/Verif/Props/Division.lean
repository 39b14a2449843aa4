import Verif.Proofs.Pieces
import Verif.Props.BitPacking
import Verif.Props.Trees
/-!
# C14, C18, C19, C28: block sizes, block splitting and the choice of block types
-/

namespace Zopfli
open Rfc

variable {log2 : Fp → Fp} {σ : Type} {S : Sink σ} {I : σ → Prop} {log : σ → List UInt8} {patience : σ → Nat}

/-! ## C14: estimates -/

/-- **C14** (fixed blocks) For any sequence of items and any range of it, the estimated size of the range as a fixed block
is exactly the number of bits that are written for it (as long as that is below 2^32). -/
theorem C14_fixed_estimate (items : List (LitLen × Nat)) (hr : ∀ x ∈ items, x.1.InRange) (k l : Nat) (hkl : k ≤ l) (hl : l ≤ items.length)
    (final : Bool) (data : Array UInt8) :
    ∃ s ops bits, storeOf items = some s ∧ addLz77Block .fixed final data s k l = some ops ∧ WritesBits ops bits ∧
      (bits.length < 2 ^ 32 → calculateBlockSize (ieee log2) s k l .fixed = some (Fp.fin bits.length)) := by
  obtain ⟨s, e, h1, h2, -⟩ := storeOf_spec hr
  have hsz : s.size = items.length := by rw [Lz77Store.size_eq, h2, List.length_map]
  have h256 : 256 < fixedTree.1.size := by have := fixed_sizes; omega
  obtain ⟨bits, eb, el, -⟩ := addBlockData_spec h1.range hkl (by omega) fixed_codeOk.1 fixed_codeOk.2 (rll := fixedLL) (rd := fixedD)
    ⟨0, by rw [fixedLL_eq]; simp⟩ ⟨0, by rw [fixedD_eq]; simp⟩ ⟨h256, (fixed_ll_ne 256 h256).1⟩
    (fun x hx => fixed_coded (h1.range x (List.mem_of_mem_take (List.mem_of_mem_drop hx))))
  refine ⟨s, bitOps ([final, true, false] ++ bits), [final, true, false] ++ bits, e, ?_, rfl, ?_⟩
  · unfold addLz77Block
    dsimp only
    rw [eb, some_bind, bitOps_append]
    rfl
  · intro hlt
    rw [List.length_append, el] at hlt ⊢
    simp only [List.length_cons, List.length_nil] at hlt ⊢
    unfold calculateBlockSize
    show (do some ((ieee log2).add ((ieee log2).ofUsize 3) ((ieee log2).ofUsize (← blockSymbolSize fixedTree.1 fixedTree.2 s k l)))) = _
    rw [blockSymbolSize_spec fixed_sizes.1 fixed_sizes.2 h1 hkl (by omega), some_bind, Nat.mod_eq_of_lt (by omega),
      (ieee_exact log2).add _ _ (by omega), ieee_ofUsize_small _ (by omega)]
    congr 3

/-- **C14** (dynamic blocks) For any sequence of items and any non-empty range of it, the estimated size of the range as a
dynamic block is exactly the number of bits that are written for it (as long as that is below 2^32). -/
theorem C14_dynamic_estimate (items : List (LitLen × Nat)) (hr : ∀ x ∈ items, x.1.InRange) (k l : Nat) (hkl : k < l) (hl : l ≤ items.length)
    (final : Bool) (data : Array UInt8) :
    ∃ s ops bits, storeOf items = some s ∧ addLz77Block .dynamic final data s k l = some ops ∧ WritesBits ops bits ∧
      (bits.length < 2 ^ 32 → calculateBlockSize (ieee log2) s k l .dynamic = some (Fp.fin bits.length)) := by
  obtain ⟨s, e, h1, h2, -⟩ := storeOf_spec hr
  have hsz : s.size = items.length := by rw [Lz77Store.size_eq, h2, List.length_map]
  obtain ⟨⟨n, ll, d⟩, e1, g1, ⟨t, g2, g3⟩, g4, g5, g6, g7⟩ := getDynamicLengths_spec h1 (Nat.le_of_lt hkl) (by omega)
  dsimp only at g1 g2 g3 g4 g5 g6 g7
  have ht := g4 hkl
  obtain ⟨ops, e2, tb, rfl, -, k2, hdr, k3, k4, k5⟩ := addDynamicTree_spec ht
  rw [g2] at k2
  obtain ⟨bits, eb, el, -⟩ := addBlockData_spec h1.range (Nat.le_of_lt hkl) (by omega) (.of ht.lle ht.llk) (.of ht.de ht.dk) (rll := hdr.ll) (rd := hdr.d)
    k3 k4 g7 (fun x hx => ⟨g5 x hx, g6 x hx⟩)
  refine ⟨s, bitOps ([final, false, true] ++ (tb ++ bits)), [final, false, true] ++ (tb ++ bits), e, ?_, rfl, ?_⟩
  · unfold addLz77Block
    dsimp only
    rw [e1, some_bind]
    dsimp only
    rw [e2, some_bind, eb, some_bind, bitOps_append, bitOps_append]
    rfl
  · intro hlt
    rw [List.length_append, List.length_append, el, ← Option.some.inj k2] at hlt ⊢
    simp only [List.length_cons, List.length_nil] at hlt ⊢
    unfold calculateBlockSize
    dsimp only
    rw [e1, some_bind, g3]
    show some ((ieee log2).add ((ieee log2).ofUsize _) ((ieee log2).ofUsize 3)) = _
    rw [Nat.mod_eq_of_lt (by omega), (ieee_exact log2).add _ _ (by omega), ieee_ofUsize_small _ (by omega)]
    congr 3
    omega

theorem placed_spec : ∀ (start : Nat) (xs : List LitLen), (placed start xs).map Prod.fst = xs ∧ (placed start xs).map Prod.snd = posList start xs
  | _, [] => ⟨rfl, rfl⟩
  | start, x :: xs => by
    obtain ⟨h1, h2⟩ := placed_spec (start + x.size) xs
    simp [placed, posList, h1, h2]

theorem parses_inRange {data : Array UInt8} : ∀ {xs : List LitLen} {a b : Nat}, Parses data a xs b → ∀ x ∈ xs, x.InRange
  | [], _, _, _, _, h => by cases h
  | y :: xs, a, b, h, x, hx => by
    rw [List.mem_cons] at hx
    rcases hx with rfl | hx
    · exact h.1.inRange
    · exact parses_inRange h.2 x hx

/-- A sequence of items that describes data makes a good store. -/
theorem storeOf_placed {data : Array UInt8} {xs : List LitLen} {start stop : Nat} (h : Parses data start xs stop) :
    ∃ s, storeOf (placed start xs) = some s ∧ StoreOk data start stop s ∧ s.litlens.toList = xs := by
  obtain ⟨h1, h2⟩ := placed_spec start xs
  obtain ⟨s, e, g1, g2, g3⟩ := storeOf_spec (items := placed start xs) (by
    intro x hx
    refine parses_inRange h x.1 ?_
    rw [← h1]
    exact List.mem_map_of_mem hx)
  rw [h1] at g2
  rw [h2] at g3
  exact ⟨s, e, ⟨g1, by rw [g2]; exact h, by rw [g3, g2]⟩, g2⟩

/-- **C14** (stored blocks) For any sequence of items that describes data and any non-empty range of it, the estimated size of
the range as stored blocks is `storedBits` of the number of bytes.  The bits written, after any bits `sofar`, are between
5 fewer and 2 more, and exactly as many at a byte boundary. -/
theorem C14_stored_estimate (data : Array UInt8) (xs : List LitLen) (start stop : Nat) (h : Parses data start xs stop) (hstop : stop ≤ data.size)
    (k l : Nat) (hkl : k < l) (hl : l ≤ xs.length) (hsz : stop < 2 ^ 48) (final : Bool) (sofar : List Bool) :
    ∃ s ops bits n, storeOf (placed start xs) = some s ∧ calculateBlockSize (ieee log2) s k l .uncompressed = some (Fp.fin (n : Nat)) ∧
      n = storedBits (posAfter start xs l - posAfter start xs k) ∧
      addLz77Block .uncompressed final data s k l = some ops ∧ bitSequence sofar ops = some (sofar ++ bits) ∧
      n ≤ bits.length + 5 ∧ bits.length ≤ n + 2 ∧ (sofar.length % 8 = 0 → bits.length = n) := by
  obtain ⟨s, e, hs, hx⟩ := storeOf_placed h
  have hsize : s.size = xs.length := by rw [Lz77Store.size_eq, hx]
  have hr := hs.rangeOk (Nat.le_of_lt hkl) (by omega : l ≤ s.size)
  have hab := bytePos_lt hs hkl (by omega)
  have hle := bytePos_le hs (k := l) (by omega)
  have ea : ∀ j, bytePos start s j = posAfter start xs j := by intro j; unfold bytePos posAfter; rw [hx]
  rw [ea, ea] at hr hab
  rw [ea] at hle
  obtain ⟨ops, eo, ho⟩ := addLz77Block_stored hr hkl (by omega) final
  obtain ⟨bits, eb, -⟩ := ho.read sofar.length
  have hlen := stored_bits (data := data) hab (by omega) final (ops := ops) (by
    rw [← eo]
    unfold addLz77Block
    dsimp only
    rw [hr.range, some_bind, if_neg (Nat.ne_of_lt hkl), hr.pos hkl, some_bind,
      show posAfter start xs k + (posAfter start xs l - posAfter start xs k) = posAfter start xs l by omega]) eb
  have hpad := padLen_lt (sofar.length + 3)
  refine ⟨s, ops, bits, _, e, ?_, rfl, eo, ?_, by omega, by omega, ?_⟩
  · rw [estimate_stored (F := ieee log2) hr]
    exact congrArg some (ieee_ofUsize_small _ (by unfold storedBits; omega))
  · rw [bitSequence_render, eb]
    rfl
  · intro hm
    have : padLen (sofar.length + 3) = 5 := by unfold padLen; omega
    omega

/-! ## C28, for a single block -/

/-- **C28** (one block) For any sequence of items that describes data and any non-empty range of it covering fewer than 2^28
bytes, the representation chosen automatically, written after any bits `sofar`, takes at most 2 bits more than the dynamic
block for these items, at most 5 bits more than the stored blocks and at most 2 bits more than the longer of the two fixed
candidates: the fixed block for these items and the best fixed block the encoder finds for these bytes; when the sequence is
shorter than 1000 items, at most 2 bits more than the latter. -/
theorem C28_block_choice (hlog : Log2Ok log2) (data : Array UInt8) (xs : List LitLen) (start stop : Nat) (h : Parses data start xs stop)
    (hstop : stop ≤ data.size) (k l : Nat) (hkl : k < l) (hl : l ≤ xs.length) (final : Bool)
    (hsz : posAfter start xs l - posAfter start xs k < 2 ^ 28) (sofar : List Bool) :
    ∃ s ops bits dops dbits sops sbits gops gbits fs lmc fops fbits, storeOf (placed start xs) = some s ∧
      addLz77BlockAutoType (ieee log2) final data s k l = some ops ∧ bitSequence sofar ops = some (sofar ++ bits) ∧
      addLz77Block .dynamic final data s k l = some dops ∧ bitSequence sofar dops = some (sofar ++ dbits) ∧
      addLz77Block .uncompressed final data s k l = some sops ∧ bitSequence sofar sops = some (sofar ++ sbits) ∧
      addLz77Block .fixed final data s k l = some gops ∧ bitSequence sofar gops = some (sofar ++ gbits) ∧
      lz77OptimalFixed (ieee log2) (.lmc (.new (posAfter start xs l - posAfter start xs k))) data (posAfter start xs k) (posAfter start xs l)
        Lz77Store.new = some (fs, lmc) ∧ addLz77Block .fixed final data fs 0 fs.size = some fops ∧ bitSequence sofar fops = some (sofar ++ fbits) ∧
      bits.length ≤ dbits.length + 2 ∧ bits.length ≤ sbits.length + 5 ∧ bits.length ≤ max gbits.length fbits.length + 2 ∧ (xs.length < 1000 → bits.length ≤ fbits.length + 2) := by
  obtain ⟨s, e, hs, hx⟩ := storeOf_placed h
  have hsize : s.size = xs.length := by rw [Lz77Store.size_eq, hx]
  have hr := hs.rangeOk (Nat.le_of_lt hkl) (by omega : l ≤ s.size)
  have hle := bytePos_le hs (k := l) (by omega)
  obtain ⟨ops, eo, blocks, ho⟩ := autoType_ok (ieeeLaws hlog) (ieee_exact log2) hs hstop (Nat.le_of_lt hkl) (by omega : l ≤ s.size) final
  have ea : ∀ j, bytePos start s j = posAfter start xs j := by intro j; unfold bytePos posAfter; rw [hx]
  rw [ea, ea] at hr ho
  rw [ea] at hle
  have hab := hr.parses.le
  obtain ⟨bits, eb, -⟩ := ho.emits.read sofar.length
  obtain ⟨sops, es, hso⟩ := addLz77Block_stored hr hkl (by omega) final
  obtain ⟨sbits, esb, -⟩ := hso.read sofar.length
  obtain ⟨dbits, hdr, ll, d, ed, -, hde⟩ := addLz77Block_dynamic hr hkl final
  obtain ⟨⟨fs, lmc⟩, ef, hf⟩ := lz77OptimalFixed_new (data := data) (ieeeLaws hlog) hab (by omega)
  dsimp only at hf
  have hfr := hf.rangeOk (Nat.zero_le _) (Nat.le_refl fs.size)
  rw [bytePos_zero, hf.bytePos_size] at hfr
  obtain ⟨fbits, efb, -, -⟩ := addLz77Block_fixed hfr final
  obtain ⟨gbits, egb, -, -⟩ := addLz77Block_fixed hr final
  refine ⟨s, ops, bits, bitOps dbits, dbits, sops, sbits, bitOps gbits, gbits, fs, lmc, bitOps fbits, fbits, e, eo, ?_, ed, ?_, es, ?_, egb, ?_, ef, efb, ?_,
    ho.dynamic hsz hkl _ ed _ _ _ eb (render_bitOps _ _), ho.stored' hsz hkl _ es _ _ _ eb esb,
    by rw [Nat.max_comm]; exact (ho.pays hsz hkl fs lmc ef fbits efb gbits egb _ _ eb).1,
    fun hlt => ho.fixed hsz hkl (by omega) fs lmc ef _ efb _ _ _ eb (render_bitOps _ _)⟩
  · rw [bitSequence_render, eb]; rfl
  · rw [bitSequence_render, render_bitOps]; rfl
  · rw [bitSequence_render, esb]; rfl
  · rw [bitSequence_render, render_bitOps]; rfl
  · rw [bitSequence_render, render_bitOps]; rfl

/-! ## Whole sessions -/

/-- Every session, chunk by chunk. -/
theorem session_pieces {P : List UInt8 → List UInt8 → List Piece → Prop} (o : Options) (bt : BlockType) (G : Guarantees (ieee log2) (2 ^ 47) o bt P)
    (hS : Reliable S I log patience) (fmt : Format) (calls : List Call) (ending : Ending) (hfit : Fits (writesOf calls)) (s : σ) (hs : I s) :
    ∃ s' stream body groups pad, session ⟨ieee log2, S, o, bt⟩ fmt calls ending s = some (.ok (), s') ∧ log s' = log s ++ stream ∧
      IsBody fmt stream body ∧ Rfc.parse body = some (groups.flatten.flatMap (·.blocks), []) ∧
      pad < 8 ∧ Layout ⟨bytesBits body, 0⟩ groups.flatten ⟨List.replicate pad false, 8 * body.length - pad⟩ ∧
      EachChunk P [] (chunksOfWrites (writesOf calls)) groups := by
  obtain ⟨stream, body, groups, bits, pad, h1, h2, h3, h4, h5, h6, h7⟩ := streamOf_pieces (by norm_num) G fmt (writesOf calls) hfit
  obtain ⟨s', g1, g2, -⟩ := session_reliable ⟨ieee log2, S, o, bt⟩ hS fmt calls ending hs h1
  have hlen := congrArg List.length h3
  rw [bytesBits_length, List.length_append, List.length_replicate] at hlen
  refine ⟨s', stream, body, groups, pad, g1, g2, ⟨_, _, h2, header_size fmt, trailer_size fmt _⟩, h6, h4, ?_, h7⟩
  rw [show 8 * body.length - pad = bits.length by omega]
  exact h5

theorem EachChunk.mono {P Q : List UInt8 → List UInt8 → List Piece → Prop} (h : ∀ a b c, P a b c → Q a b c) :
    ∀ {chunks : List (List UInt8)} {groups : List (List Piece)} {before : List UInt8}, EachChunk P before chunks groups → EachChunk Q before chunks groups
  | [], [], _, _ => trivial
  | [], _ :: _, _, h => h.elim
  | _ :: _, [], _, h => h.elim
  | _ :: _, _ :: _, _, hh => ⟨h _ _ _ hh.1, EachChunk.mono h hh.2⟩

/-- **C18** In dynamic mode, whatever the options and the writes, each chunk (each write) is partitioned into pieces: at least
one and at most `maximum_block_splits` (or one, if that is zero), none empty unless the chunk is, which decode one after the
other to the chunk; a piece is a single compressed block, or stored.  The pieces of all the chunks, in order, make up the whole
stream up to its final padding of less than a byte. -/
theorem C18_block_splitting (hlog : Log2Ok log2) (hS : Reliable S I log patience) (o : Options) (fmt : Format) (calls : List Call)
    (ending : Ending) (hfit : Fits (writesOf calls)) (s : σ) (hs : I s) :
    ∃ s' stream body groups pad, session ⟨ieee log2, S, o, .dynamic⟩ fmt calls ending s = some (.ok (), s') ∧ log s' = log s ++ stream ∧
      IsBody fmt stream body ∧ Rfc.parse body = some (groups.flatten.flatMap (·.blocks), []) ∧
      pad < 8 ∧ Layout ⟨bytesBits body, 0⟩ groups.flatten ⟨List.replicate pad false, 8 * body.length - pad⟩ ∧
      EachChunk (Partition o.maximumBlockSplits) [] (chunksOfWrites (writesOf calls)) groups := by
  obtain ⟨s', stream, body, groups, pad, h1, h2, h3, h4, h5, h6, h7⟩ :=
    session_pieces o .dynamic (dynamic_guarantees (ieeeLaws hlog) (ieee_exact log2) o) hS fmt calls ending hfit s hs
  exact ⟨s', stream, body, groups, pad, h1, h2, h3, h4, h5, h6, h7.mono fun _ _ _ h => h.1⟩

/-- **C18** In fixed mode each chunk is one block with the fixed codes. -/
theorem C18_fixed_mode (hlog : Log2Ok log2) (hS : Reliable S I log patience) (o : Options) (fmt : Format) (calls : List Call)
    (ending : Ending) (hfit : Fits (writesOf calls)) (s : σ) (hs : I s) :
    ∃ s' stream body groups pad, session ⟨ieee log2, S, o, .fixed⟩ fmt calls ending s = some (.ok (), s') ∧ log s' = log s ++ stream ∧
      IsBody fmt stream body ∧ Rfc.parse body = some (groups.flatten.flatMap (·.blocks), []) ∧
      pad < 8 ∧ Layout ⟨bytesBits body, 0⟩ groups.flatten ⟨List.replicate pad false, 8 * body.length - pad⟩ ∧
      EachChunk (fun before chunk pieces => ∃ p syms f, pieces = [p] ∧ p.data = chunk ∧ p.blocks = [⟨f, .fixed syms⟩] ∧ Decodes before pieces)
        [] (chunksOfWrites (writesOf calls)) groups :=
  session_pieces o .fixed (fixed_guarantees (ieeeLaws hlog) o) hS fmt calls ending hfit s hs

/-- **C19** The documentation says that `maximum_block_splits = 0` means an unlimited number of blocks.  In fact it disables
splitting: each chunk, however long and varied, is one piece, that is, one compressed block or stored. -/
theorem C19_zero_means_one (hlog : Log2Ok log2) (hS : Reliable S I log patience) (o : Options) (h0 : o.maximumBlockSplits = 0) (fmt : Format)
    (calls : List Call) (ending : Ending) (hfit : Fits (writesOf calls)) (s : σ) (hs : I s) :
    ∃ s' stream body groups pad, session ⟨ieee log2, S, o, .dynamic⟩ fmt calls ending s = some (.ok (), s') ∧ log s' = log s ++ stream ∧
      IsBody fmt stream body ∧ Rfc.parse body = some (groups.flatten.flatMap (·.blocks), []) ∧
      pad < 8 ∧ Layout ⟨bytesBits body, 0⟩ groups.flatten ⟨List.replicate pad false, 8 * body.length - pad⟩ ∧
      EachChunk (fun before chunk pieces => ∃ p, pieces = [p] ∧ p.data = chunk ∧ p.Uniform ∧ Decodes before pieces)
        [] (chunksOfWrites (writesOf calls)) groups := by
  obtain ⟨s', stream, body, groups, pad, h1, h2, h3, h4, h5, h6, h7⟩ := C18_block_splitting hlog hS o fmt calls ending hfit s hs
  refine ⟨s', stream, body, groups, pad, h1, h2, h3, h4, h5, h6, h7.mono ?_⟩
  intro before chunk pieces hp
  have h8 := hp.some
  have h9 := hp.limit
  rw [h0] at h9
  obtain ⟨p, rfl⟩ := List.length_eq_one_iff.mp (show pieces.length = 1 by omega)
  exact ⟨p, rfl, by simpa using hp.data, hp.uniform p (by simp), hp.decodes⟩

theorem Layout.total {s s' : Bits} {l : List Piece} (h : Layout s l s') : s'.pos = s.pos + (l.map (·.bits)).sum := by
  induction h with
  | nil s => simp
  | cons _ e _ ih => rw [ih, e, List.map_cons, List.sum_cons]; omega

theorem pieces_total : ∀ (l : List Piece), (∀ p ∈ l, p.bits ≤ 8 * p.data.length + 40 * (p.data.length / 65535) + 42) →
    (l.map (·.bits)).sum ≤ 8 * (l.map (·.data)).flatten.length + 40 * ((l.map (·.data)).flatten.length / 65535) + 42 * l.length
  | [], _ => by simp
  | p :: l, h => by
    have h1 := h p (by simp)
    have h2 := pieces_total l fun q hq => h q (by simp [hq])
    simp only [List.map_cons, List.sum_cons, List.flatten_cons, List.length_append, List.length_cons]
    omega

theorem flatten_length_ge {α : Type} {l : List (List α)} {x : List α} (h : x ∈ l) : x.length ≤ l.flatten.length := by
  induction l with
  | nil => cases h
  | cons y l ih =>
    rw [List.flatten_cons, List.length_append]
    rw [List.mem_cons] at h
    rcases h with rfl | h
    · omega
    · have := ih h; omega

theorem groups_total {limit : Nat} : ∀ {chunks : List (List UInt8)} {groups : List (List Piece)} {before : List UInt8},
    EachChunk (fun before chunk pieces => Partition limit before chunk pieces ∧ ∀ p ∈ pieces, p.Small) before chunks groups →
    (∀ w ∈ chunks, w.length < 2 ^ 28) →
    (groups.flatten.map (·.bits)).sum ≤ (chunks.map fun w => 8 * w.length + 40 * (w.length / 65535) + 42 * max 1 limit).sum
  | [], [], _, _, _ => by simp
  | [], _ :: _, _, h, _ => h.elim
  | _ :: _, [], _, h, _ => h.elim
  | w :: ws, g :: gs, before, h, hw => by
    have h1 := groups_total h.2 fun x hx => hw x (by simp [hx])
    have hpart := h.1.1
    have hlen := hw w (by simp)
    have h2 := pieces_total g (by
      intro p hp
      have hd : p.data.length ≤ w.length := by
        rw [← hpart.data]
        exact flatten_length_ge (List.mem_map_of_mem hp)
      have h3 := (h.1.2 p hp).bits (by omega)
      split at h3
      · omega
      · unfold storedBits at h3
        omega)
    rw [hpart.data] at h2
    have h3 := hpart.limit
    have h4 : 42 * g.length ≤ 42 * max 1 limit := Nat.mul_le_mul_left _ h3
    simp only [List.flatten_cons, List.map_append, List.sum_append, List.map_cons, List.sum_cons]
    omega

/-- **C28** In dynamic mode no piece of a chunk takes more than two bits more than its bytes in stored blocks (an empty piece
takes at most 10 bits), as long as it has fewer than 2^28 bytes; so, when each write is shorter than that, the whole stream is
at most as long as the stored data and the block headers. -/
theorem C28_never_worse_than_stored (hlog : Log2Ok log2) (hS : Reliable S I log patience) (o : Options) (fmt : Format) (calls : List Call)
    (ending : Ending) (hfit : Fits (writesOf calls)) (s : σ) (hs : I s) :
    ∃ s' stream body groups pad, session ⟨ieee log2, S, o, .dynamic⟩ fmt calls ending s = some (.ok (), s') ∧ log s' = log s ++ stream ∧
      IsBody fmt stream body ∧ pad < 8 ∧ Layout ⟨bytesBits body, 0⟩ groups.flatten ⟨List.replicate pad false, 8 * body.length - pad⟩ ∧
      EachChunk (fun before chunk pieces => Partition o.maximumBlockSplits before chunk pieces ∧
        ∀ p ∈ pieces, p.data.length < 2 ^ 28 → p.bits ≤ if p.data = [] then 10 else storedBits p.data.length + 2)
        [] (chunksOfWrites (writesOf calls)) groups ∧
      ((∀ w ∈ writesOf calls, w.length < 2 ^ 28) → 8 * body.length ≤ dynamicBound o.maximumBlockSplits (writesOf calls)) := by
  obtain ⟨s', stream, body, groups, pad, h1, h2, h3, h4, h5, h6, h7⟩ :=
    session_pieces o .dynamic (dynamic_guarantees (ieeeLaws hlog) (ieee_exact log2) o) hS fmt calls ending hfit s hs
  refine ⟨s', stream, body, groups, pad, h1, h2, h3, h5, h6, h7.mono fun _ _ _ h => ⟨h.1, fun p hp => (h.2 p hp).bits⟩, ?_⟩
  intro hw
  have h8 := groups_total h7 (by
    intro w hm
    cases hc : writesOf calls with
    | nil => rw [hc] at hm; simp [chunksOfWrites] at hm; rw [hm]; decide
    | cons x l => rw [hc] at hm; exact hw w (by rw [hc]; exact hm))
  have h9 := h6.total
  dsimp only at h9
  unfold dynamicBound
  omega

/-! ## The hypotheses are met -/

example := C18_block_splitting floorLog2_ok stutterSink_reliable Options.default .gzip exampleCalls .finish exampleCalls_fit ([9], 1) trivial
example := C18_fixed_mode floorLog2_ok stutterSink_reliable Options.default .zlib exampleCalls .drop exampleCalls_fit ([9], 1) trivial
example := C19_zero_means_one floorLog2_ok stutterSink_reliable ⟨3, 2, 0⟩ rfl .zlib exampleCalls .drop exampleCalls_fit ([9], 1) trivial
example := C28_never_worse_than_stored floorLog2_ok stutterSink_reliable Options.default .deflate exampleCalls .drop exampleCalls_fit ([9], 1) trivial

/-- Three chunks, the second one empty. -/
example : chunksOfWrites (writesOf exampleCalls) = [[1, 2, 3, 1, 2, 3], [], [2, 3, 1, 2, 3, 1]] := rfl

/-- 12 bytes of data in three chunks, one piece each: at most 229 bits. -/
example : dynamicBound 1 (writesOf exampleCalls) = 229 := by decide

example : storedBits 65535 = 65540 * 8 ∧ storedBits 65536 = (65536 + 10) * 8 := by decide

/-- `abcabcabc` as three literals and a match, from position 0. -/
def exampleParse : List LitLen := [.literal 97, .literal 98, .literal 99, .lengthDist 6 3]
def exampleParseData : Array UInt8 := #[97, 98, 99, 97, 98, 99, 97, 98, 99]

theorem exampleParse_parses : Parses exampleParseData 0 exampleParse 9 := by
  refine ⟨⟨97, rfl, rfl⟩, ⟨98, rfl, rfl⟩, ⟨99, rfl, rfl⟩, ⟨by decide, by decide, by decide, by decide, by decide, by decide, ?_⟩, rfl⟩
  decide

example := C14_fixed_estimate (log2 := floorLog2) exampleItems exampleItems_inRange 1 3 (by decide) (by decide) true #[]
example := C14_dynamic_estimate (log2 := floorLog2) exampleItems exampleItems_inRange 1 3 (by decide) (by decide) true #[]
example := C14_stored_estimate (log2 := floorLog2) exampleParseData exampleParse 0 9 exampleParse_parses (by decide) 1 4 (by decide) (by decide) (by decide)
  true [true, false]
example := C28_block_choice floorLog2_ok exampleParseData exampleParse 0 9 exampleParse_parses (by decide) 1 4 (by decide) (by decide) true
  (by decide) [true, false]

end Zopfli
