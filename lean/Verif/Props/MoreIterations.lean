import Verif.Props.Formats
import Verif.Props.FixedOptimal
import Verif.Props.Reproducible
import Verif.Props.Parsing
import Verif.Proofs.Choice
/-!
# C58: for a short write, higher limits never give a longer stream
-/

namespace Zopfli
open Rfc

variable {F : FloatOps}

/-- With at most one block there is one part, and the plan is its parse. -/
theorem blocksplitPlan_single (L : FloatLaws F) (X : FloatExact F) (o : Options) (ho : o.maximumBlockSplits ≤ 1) {data : Array UInt8} {instart inend : Nat}
    (h1 : instart < inend) (h2 : inend ≤ data.size) (hsz : data.size < 2 * L.lim) (hlen : inend - instart < 2 ^ 28) :
    ∃ r s, blocksplitPlan F o data instart inend = some (r, []) ∧ StoreOk data instart inend r ∧
      lz77Optimal F (.lmc (.new (inend - instart))) data instart inend o.iterationCount o.iterationsWithoutImprovement = some s ∧
      r.litlens.toList = s.litlens.toList := by
  obtain ⟨⟨r, sp⟩, e, g1, -, g3⟩ := blocksplitPlan_spec L o (Nat.le_of_lt h1) h2 hsz
  obtain ⟨⟨r', sp'⟩, e', cuts, parts, k1, k2, k3, k4, -⟩ := blocksplitPlan_choice L X o h1 h2 hsz hlen
  rw [e] at e'
  cases e'
  dsimp only at g1 g3 k4
  have hsp : sp = [] := by
    rw [← List.length_eq_zero_iff]
    omega
  obtain ⟨c', ec, -, -, c3⟩ := blocksplit_spec (F := F) (Nat.le_of_lt h1) h2 o.maximumBlockSplits
  rw [k1] at ec
  cases ec
  have hc : cuts = [] := by
    rw [← List.length_eq_zero_iff]
    omega
  subst hsp hc
  obtain ⟨s, es, rfl⟩ := k2
  refine ⟨r, s, e, g1, es, ?_⟩
  rw [k4]
  simp

/-- The bits of a dynamic block for the whole of a parse. -/
theorem dynamic_bits {data : Array UInt8} {start stop : Nat} {t : Lz77Store} (hr : RangeOk data start stop t 0 t.size) (hpos : 0 < t.size)
    {final : Bool} {dbits : List Bool} (e4 : addLz77Block .dynamic final data t 0 t.size = some (bitOps dbits)) :
    writtenBits .dynamic t.litlens.toList = dbits.length := by
  have hall : (t.litlens.toList.take t.size).drop 0 = t.litlens.toList := by
    rw [Lz77Store.size_eq, List.take_length, List.drop_zero]
  obtain ⟨db', hdr', ll, d, ed, ⟨t1, et, el, ed'⟩, -⟩ := addLz77Block_dynamic hr hpos final
  obtain ⟨t', ll', d', ed'', -, et', ew⟩ := writtenBits_dynamic hr.inv hpos (Nat.le_refl _)
  rw [e4] at ed
  have ed := bitOps_inj (Option.some.inj ed)
  subst ed
  rw [ed', Option.some.injEq, Prod.mk.injEq, Prod.mk.injEq] at ed''
  obtain ⟨-, rfl, rfl⟩ := ed''
  rw [et] at et'
  cases et'
  rw [hall] at ew el
  rw [el]
  exact ew

/-- The estimate of the whole of a parse. -/
theorem dynamic_estimate (X : FloatExact F) {data : Array UInt8} {start stop : Nat} {t : Lz77Store} (ht : StoreOk data start stop t) (hlt : start < stop)
    (hsh : stop - start < 2 ^ 28) :
    calculateBlockSize F t 0 t.size .dynamic = some (F.ofUsize (writtenBits .dynamic t.litlens.toList)) ∧ writtenBits .dynamic t.litlens.toList < 2 ^ 33 := by
  have hpos := ht.size_pos hlt
  have hr := ht.rangeOk (Nat.zero_le _) (Nat.le_refl t.size)
  rw [bytePos_zero, ht.bytePos_size] at hr
  obtain ⟨dbits, hdr, e4, e5, e6, -⟩ := estimate_dynamic X hr hpos hsh true
  rw [dynamic_bits hr hpos e4]
  exact ⟨e5, e6⟩

/-- The size of a block of fewer than 1000 items at the start of a stream is the least of the three sizes. -/
theorem autoType_exact (L : FloatLaws F) (X : FloatExact F) {data : Array UInt8} {start stop : Nat}
    (hstop : stop ≤ data.size) (hlt : start < stop) (hsh : stop - start < 1000) (final : Bool) :
    ∃ n, (∃ fs lmc, lz77OptimalFixed F (.lmc (.new (stop - start))) data start stop Lz77Store.new = some (fs, lmc) ∧ n = 3 + (fs.litlens.toList.map fcost).sum + 7) ∧
      (∀ t : Lz77Store, StoreOk data start stop t → Ret (addLz77BlockAutoType F final data t 0 t.size) fun ops => ∃ bits, render 0 ops = some bits ∧
      bits.length = min (storedBits (stop - start)) (min n (writtenBits .dynamic t.litlens.toList))) := by
  obtain ⟨⟨fs, lmc⟩, ef, hf⟩ := lz77OptimalFixed_new (F := F) L (Nat.le_of_lt hlt) hstop
  dsimp only at hf
  have hfr := hf.rangeOk (Nat.zero_le _) (Nat.le_refl fs.size)
  rw [bytePos_zero, hf.bytePos_size] at hfr
  obtain ⟨fbits, g1, g2, g3, -⟩ := estimate_fixed X hfr (hfr.cost_lt (by omega) fixedLens_ok) final
  refine ⟨fbits.length, ⟨fs, lmc, ef, ?_⟩, fun t ht => ?_⟩
  · obtain ⟨fb, ef', el, -⟩ := addLz77Block_fixed hfr final
    rw [g1] at ef'
    rw [bitOps_inj (Option.some.inj ef'), el, fixedBits hf.inv.range]
  have hpos := ht.size_pos hlt
  have hsize : t.size ≤ stop - start := ht.size_le
  have hr := ht.rangeOk (Nat.zero_le _) (Nat.le_refl t.size)
  rw [bytePos_zero, ht.bytePos_size] at hr
  obtain ⟨dbits, hdr, e4, e5, e6, -⟩ := estimate_dynamic X hr hpos (by omega) final
  obtain ⟨c2, e2⟩ := calculateBlockSize_ret (F := F) ht.inv (Nat.zero_le _) (Nat.le_refl t.size) .fixed
  have hdb : writtenBits .dynamic t.litlens.toList = dbits.length := dynamic_bits hr hpos e4
  rw [hdb]
  have hst33 : storedBits (stop - start) < 2 ^ 33 := by unfold storedBits; omega
  unfold addLz77BlockAutoType
  rw [estimate_stored hr, some_bind, e2, some_bind, e5, some_bind]
  dsimp only
  rw [if_neg (by omega), if_pos (.inl (by omega)), hr.pos hpos, some_bind, hr.range, some_bind, show start + (stop - start) = stop by omega, ef, some_bind]
  dsimp only
  rw [g2, some_bind, some_bind]
  dsimp only
  rw [X.le _ _ (by omega) (by omega), X.le _ _ (by omega) (by omega), X.le _ _ (by omega) (by omega)]
  simp only [decide_eq_true_eq]
  split
  · rename_i hc
    obtain ⟨sops, es, hse⟩ := addLz77Block_stored hr hpos hstop final
    obtain ⟨bits, eb, -⟩ := hse.read 0
    refine ⟨_, es, bits, eb, ?_⟩
    have hb := stored_bits hlt hstop final (by
      rw [← es]
      unfold addLz77Block
      dsimp only
      rw [hr.range, some_bind, if_neg (by omega), hr.pos hpos, some_bind, show start + (stop - start) = stop by omega]) eb
    have : padLen (0 + 3) = 5 := rfl
    omega
  · rename_i hc
    split
    · rename_i hc2
      refine ⟨_, ?_, fbits, render_bitOps _ _, by omega⟩
      rw [if_pos (.inl (by omega))]
      exact g1
    · exact ⟨_, e4, dbits, render_bitOps _ _, by omega⟩

theorem single_ops (L : FloatLaws F) (X : FloatExact F) (o : Options) (ho : o.maximumBlockSplits ≤ 1) {data : Array UInt8} {instart inend : Nat}
    (h1 : instart < inend) (h2 : inend ≤ data.size) (hsz : data.size < 2 * L.lim) (hsh : inend - instart < 1000) (final : Bool) :
    ∃ r s, StoreOk data instart inend r ∧
      lz77Optimal F (.lmc (.new (inend - instart))) data instart inend o.iterationCount o.iterationsWithoutImprovement = some s ∧
      r.litlens.toList = s.litlens.toList ∧
      deflatePart F o .dynamic final data instart inend = addLz77BlockAutoType F final data r 0 r.size := by
  obtain ⟨r, s, e, g1, g2, g3⟩ := blocksplitPlan_single L X o ho h1 h2 hsz (by omega)
  refine ⟨r, s, g1, g2, g3, ?_⟩
  unfold deflatePart blocksplitAttempt
  dsimp only
  rw [e, some_bind]
  unfold addAllBlocks
  rw [addSplitBlocks, some_bind]
  dsimp only
  cases addLz77BlockAutoType F final data r 0 r.size with
  | none => rfl
  | some ops => show some ([] ++ ops) = some ops; rw [List.nil_append]

/-- An empty chunk is an empty block with the fixed codes. -/
theorem empty_ops (L : FloatLaws F) (X : FloatExact F) (o : Options) (final : Bool) :
    Ret (deflatePart F o .dynamic final #[] 0 0) fun ops => ∃ bits, render 0 ops = some bits ∧ bits.length = 10 := by
  have hlim : 0 < 2 * L.lim := by have := L.lim_pos; omega
  unfold deflatePart blocksplitAttempt
  dsimp only
  refine Ret.bind' (blocksplitPlan_spec L o (Nat.le_refl _) (Nat.le_refl _) hlim) ?_
  rintro ⟨s, sp⟩ ⟨g1, g2, -⟩
  dsimp only at g1 g2 ⊢
  have hs : s.size = 0 := by have := g1.size_le; omega
  have hsp : sp = [] := by
    cases sp with
    | nil => rfl
    | cons x xs => have := g2.2 x (by simp); omega
  subst hsp
  unfold addAllBlocks
  rw [addSplitBlocks, some_bind]
  dsimp only
  refine Ret.bind' (autoType_ok L X g1 (Nat.le_refl _) (Nat.zero_le _) (Nat.le_refl _) final) ?_
  rintro ops ⟨blocks, ho⟩
  refine ⟨_, rfl, [final, true, false] ++ List.replicate 7 false, ?_, rfl⟩
  rw [List.nil_append, ho.empty (by omega)]
  exact render_bitOps _ _

/-- The chunk of a single write. -/
theorem DCore.new_write (F : FloatOps) (o : Options) (bt : BlockType) (w : List UInt8) :
    coreWrites F o bt DCore.new [w] = some ([], ⟨true, 0, w.toArray, (0, 0)⟩) := by
  have hwin : (#[] : Array UInt8).extract (0 - WINDOW_SIZE) 0 = #[] := by simp
  have hset : DCore.new.setChunk w = ⟨true, 0, w.toArray, (0, 0)⟩ := by
    unfold DCore.setChunk DCore.new
    simp
  show some ([], DCore.new.setChunk w) = _
  rw [hset]

/-- The length of the body of a stream of one write. -/
theorem single_body {o : Options} {bt : BlockType} {w body : List UInt8} {ops : List WOp} {bits : List Bool}
    (h : StreamOf F o bt .deflate [w] body) (ho : deflatePart F o bt true w.toArray 0 w.length = some ops) (hb : render 0 ops = some bits) :
    body.length = (bits.length + 7) / 8 := by
  obtain ⟨cs, c, cs', e1, e2, rfl⟩ := h.core
  rw [DCore.new_write] at e1
  cases e1
  unfold DCore.finish DCore.emit at e2
  dsimp only at e2
  rw [show w.toArray.size = w.length from List.size_toArray .., ho, some_bind] at e2
  have e2 := Option.some.inj e2
  subst e2
  obtain ⟨pb, hp1, hp2⟩ := pall_bits ops (0, 0) [] 0 bits Pend.zero rfl hb
  obtain ⟨pb', hq1, hq2⟩ := pall_bits [.align] _ pb pb.length (List.replicate (padLen pb.length) false) hp1 (by
    have := hp1.lt; omega) (by simp [render])
  have hpall : (pall (pall (0, 0) ops).2 [.align]).1 = (pstep (pall (0, 0) ops).2 .align).1 := by
    show (pstep _ .align).1 ++ [] = _
    rw [List.append_nil]
  have l1 := congrArg List.length hp2
  have l2 := congrArg List.length hq2
  rw [hpall] at l2
  rw [List.length_append, bytesBits_length, List.nil_append] at l1
  rw [List.length_append, bytesBits_length, List.length_append, List.length_replicate] at l2
  have hmod := padLen_mod pb.length
  have hlt := hp1.lt
  have hlt' := hq1.lt
  have hpad := padLen_lt pb.length
  simp only [header, trailer, List.flatten_nil, List.nil_append, List.append_nil, List.flatten_append, List.length_append]
  omega

variable {log2 : Fp → Fp}

/-- The size of what a single short write gives, for given limits. -/
theorem single_size (hlog : Log2Ok log2) (w : List UInt8) (hne : w ≠ []) (hw : w.length < 1000) :
    ∃ n, (∃ fs lmc, lz77OptimalFixed (ieee log2) (.lmc (.new (w.length - 0))) w.toArray 0 w.length Lz77Store.new = some (fs, lmc) ∧
        n = 3 + (fs.litlens.toList.map fcost).sum + 7) ∧ ∀ o : Options, o.maximumBlockSplits ≤ 1 → ∃ s : Lz77Store, StoreOk w.toArray 0 w.length s ∧
      lz77Optimal (ieee log2) (.lmc (.new (w.length - 0))) w.toArray 0 w.length o.iterationCount o.iterationsWithoutImprovement = some s ∧
      ∀ body, StreamOf (ieee log2) o .dynamic .deflate [w] body →
        body.length = (min (storedBits w.length) (min n (writtenBits .dynamic s.litlens.toList)) + 7) / 8 := by
  have hpos : 0 < w.length := List.length_pos_iff.mpr hne
  have hsz : w.toArray.size < 2 * (ieeeLaws hlog).lim := ieee_size hlog (by simp; omega)
  have hsize : w.length ≤ w.toArray.size := by simp
  obtain ⟨n, hf, hn⟩ := autoType_exact (ieeeLaws hlog) (ieee_exact log2) (data := w.toArray) hsize hpos (by omega) true
  refine ⟨n, hf, fun o ho => ?_⟩
  obtain ⟨r, s, g1, g2, g3, g4⟩ := single_ops (ieeeLaws hlog) (ieee_exact log2) o ho hpos hsize hsz (by omega) true
  obtain ⟨ops, e1, bits, e2, e3⟩ := hn r g1
  obtain ⟨s', es', hs'⟩ := lz77Optimal_new (ieeeLaws hlog) (Nat.zero_le _) hsize hsz o.iterationCount o.iterationsWithoutImprovement
  rw [g2] at es'
  cases es'
  refine ⟨s, hs', g2, fun body hb => ?_⟩
  rw [single_body hb (g4.trans e1) e2, e3, g3, Nat.sub_zero]

theorem single_mono (hlog : Log2Ok log2) (o o' : Options) (ho : o.maximumBlockSplits ≤ 1) (ho' : o'.maximumBlockSplits ≤ 1)
    (hi : 1 ≤ o.iterationCount) (hi' : o.iterationCount ≤ o'.iterationCount) (hw : 1 ≤ o.iterationsWithoutImprovement)
    (hw' : o.iterationsWithoutImprovement ≤ o'.iterationsWithoutImprovement) (w : List UInt8) (hlen : w.length < 1000)
    {body body' : List UInt8} (hb : StreamOf (ieee log2) o .dynamic .deflate [w] body) (hb' : StreamOf (ieee log2) o' .dynamic .deflate [w] body') :
    body'.length ≤ body.length := by
  by_cases hne : w = []
  · subst hne
    have key : ∀ (p : Options) (b : List UInt8), StreamOf (ieee log2) p .dynamic .deflate [[]] b → b.length = 2 := by
      intro p b hb
      obtain ⟨ops, e1, bits, e2, e3⟩ := empty_ops (ieeeLaws hlog) (ieee_exact log2) p true
      rw [single_body hb e1 e2, e3]
    rw [key o body hb, key o' body' hb']
  · have hpos : 0 < w.length := List.length_pos_iff.mpr hne
    obtain ⟨n, -, hn⟩ := single_size hlog w hne hlen
    obtain ⟨s, h1, h2, h3⟩ := hn o ho
    obtain ⟨s', h1', h2', h3'⟩ := hn o' ho'
    obtain ⟨t, t', m, m', k1, k2, k3, k4, k5⟩ := C30_more_is_never_worse hlog w.toArray 0 w.length (Nat.zero_le _) (by simp) (by simp; omega) _ _ _ _ hi hi' hw hw'
    rw [h2] at k1
    rw [h2'] at k2
    cases k1
    cases k2
    obtain ⟨j1, j2⟩ := dynamic_estimate (ieee_exact log2) h1 hpos (by omega)
    obtain ⟨j1', j2'⟩ := dynamic_estimate (ieee_exact log2) h1' hpos (by omega)
    rw [j1, ieee_ofUsize_small _ (by omega)] at k3
    rw [j1', ieee_ofUsize_small _ (by omega)] at k4
    have k3 : writtenBits .dynamic s.litlens.toList = m := by
      have := Fp.fin.inj (Option.some.inj k3)
      exact_mod_cast this
    have k4 : writtenBits .dynamic s'.litlens.toList = m' := by
      have := Fp.fin.inj (Option.some.inj k4)
      exact_mod_cast this
    rw [h3 body hb, h3' body' hb', k3, k4]
    omega

/-- **C58** In dynamic mode, with at most one block per write (`maximum_block_splits` 0 or 1): when fewer than 1000 bytes are written in one
call, raising `iteration_count` or `iterations_without_improvement` never makes the stream longer, in any format, whatever the sink, the
flushes and the way the session ends. -/
theorem C58_more_is_never_longer (hlog : Log2Ok log2) (o o' : Options) (ho : o.maximumBlockSplits ≤ 1) (ho' : o'.maximumBlockSplits ≤ 1)
    (hi : 1 ≤ o.iterationCount) (hi' : o.iterationCount ≤ o'.iterationCount) (hw : 1 ≤ o.iterationsWithoutImprovement)
    (hw' : o.iterationsWithoutImprovement ≤ o'.iterationsWithoutImprovement) (w : List UInt8) (hlen : w.length < 1000) (fmt : Format) :
    ∃ stream stream', decode fmt stream = some w ∧ decode fmt stream' = some w ∧ stream'.length ≤ stream.length ∧
      ∀ (σ : Type) (S : Sink σ) (I : σ → Prop) (log : σ → List UInt8) (patience : σ → Nat), Reliable S I log patience →
      ∀ (calls : List Call) (ending : Ending) (s : σ), writesOf calls = [w] → I s →
        (∃ s', session ⟨ieee log2, S, o, .dynamic⟩ fmt calls ending s = some (.ok (), s') ∧ log s' = log s ++ stream) ∧
        (∃ s', session ⟨ieee log2, S, o', .dynamic⟩ fmt calls ending s = some (.ok (), s') ∧ log s' = log s ++ stream') := by
  have hfit : Fits [w] := by
    intro x hx
    rw [List.mem_singleton] at hx
    subst hx
    omega
  have key : ∀ p : Options, ∃ body, StreamOf (ieee log2) p .dynamic .deflate [w] body ∧ StreamOf (ieee log2) p .dynamic fmt [w] (framed body w fmt) := by
    intro p
    obtain ⟨stream, body, blocks, h1, h2, -⟩ := streamOf_exists (ieeeLaws hlog) p .dynamic .deflate [w] hfit
    refine ⟨stream, h1, ?_⟩
    obtain ⟨cs, c, cs', e1, e2, e3⟩ := h1.core
    refine ⟨cs, c, cs', e1, e2, ?_⟩
    have := framed_eq fmt stream [w].flatten
    rw [show [w].flatten = w by simp] at this
    rw [← this, e3]
    simp [header, trailer]
  obtain ⟨b, h1, h2⟩ := key o
  obtain ⟨b', h1', h2'⟩ := key o'
  have hle := single_mono hlog o o' ho ho' hi hi' hw hw' w hlen h1 h1'
  refine ⟨_, _, by simpa using h2.decode (ieeeLaws hlog) hfit, by simpa using h2'.decode (ieeeLaws hlog) hfit, ?_, ?_⟩
  · cases fmt
    · have := C56_overhead b w
      have := C56_overhead b' w
      omega
    · have := C56_overhead b w
      have := C56_overhead b' w
      omega
    · exact hle
  · intro σ S I log patience hS calls ending s hc hs
    rw [← hc] at h2 h2'
    obtain ⟨s', g1, g2, -⟩ := session_reliable ⟨ieee log2, S, o, .dynamic⟩ hS fmt calls ending hs h2
    obtain ⟨s'', g1', g2', -⟩ := session_reliable ⟨ieee log2, S, o', .dynamic⟩ hS fmt calls ending hs h2'
    exact ⟨⟨s', g1, g2⟩, ⟨s'', g1', g2'⟩⟩

/-- **C58** The same for `compress`, whatever the reader and the sink. -/
theorem C58_compress (hlog : Log2Ok log2) (o o' : Options) (ho : o.maximumBlockSplits ≤ 1) (ho' : o'.maximumBlockSplits ≤ 1)
    (hi : 1 ≤ o.iterationCount) (hi' : o.iterationCount ≤ o'.iterationCount) (hw : 1 ≤ o.iterationsWithoutImprovement)
    (hw' : o.iterationsWithoutImprovement ≤ o'.iterationsWithoutImprovement) (d : List UInt8) (hlen : d.length < 1000) (fmt : Format)
    {ρ : Type} {R : Reader ρ} {J : ρ → Prop} {data : ρ → List UInt8} {res : Except ErrKind Unit} {patienceR : ρ → Nat} (hR : Delivers R J data res patienceR)
    {r r' : ρ} (hr : J r) (hr' : J r') (hd : data r = d) (hd' : data r' = d)
    {σ : Type} {S : Sink σ} {I : σ → Prop} {log : σ → List UInt8} {patience : σ → Nat} (hS : Reliable S I log patience) {s : σ} (hs : I s) :
    ∃ s' s'' stream stream', compress (ieee log2) S R o fmt r s = some (res, s') ∧ log s' = log s ++ stream ∧
      compress (ieee log2) S R o' fmt r' s = some (res, s'') ∧ log s'' = log s ++ stream' ∧ stream'.length ≤ stream.length := by
  obtain ⟨t, t', -, -, h3, h4⟩ := C58_more_is_never_longer hlog o o' ho ho' hi hi' hw hw' d hlen fmt
  obtain ⟨u, -, hu⟩ := C49_small hlog o fmt d (by omega)
  obtain ⟨u', -, hu'⟩ := C49_small hlog o' fmt d (by omega)
  obtain ⟨⟨x, x1, x2⟩, ⟨x', x1', x2'⟩⟩ := h4 _ _ _ _ _ hS [.write d] .finish s rfl hs
  obtain ⟨⟨y, y1, y2⟩, y3, -⟩ := hu _ _ _ _ _ hS s hs
  obtain ⟨⟨y', y1', y2'⟩, y3', -⟩ := hu' _ _ _ _ _ hS s hs
  rw [x1] at y1
  cases y1
  rw [x1'] at y1'
  cases y1'
  rw [x2] at y2
  rw [x2'] at y2'
  have e := List.append_cancel_left y2
  have e' := List.append_cancel_left y2'
  subst e e'
  obtain ⟨z, z1, z2⟩ := y3 _ R J data res patienceR hR r hr hd
  obtain ⟨z', z1', z2'⟩ := y3' _ R J data res patienceR hR r' hr' hd'
  exact ⟨z, z', t, t', z1, z2, z1', z2', h3⟩

/-- A case: a hundred and two bytes, five iterations against fifteen. -/
example := C58_more_is_never_longer floorLog2_ok ⟨5, 3, 1⟩ ⟨15, 4, 0⟩ (by decide) (by decide) (by decide) (by decide) (by decide) (by decide)
  (List.replicate 50 1 ++ [7, 9] ++ List.replicate 50 2) (by simp) .gzip

end Zopfli
