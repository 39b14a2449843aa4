import Verif.Proofs.LogTruth
import Verif.Props.Faults
/-!
# C66: the log is invisible and truthful

`Model/Logging.lean` has all functions of the crate that report something again, with a logger, whose answers and limits are arbitrary and
may change at any time.
-/

namespace Zopfli

variable {log2 : Fp → Fp} {σ lam : Type} {S : Sink σ} {I : σ → Prop} {log : σ → List UInt8} {patience : σ → Nat}

/-- **C66** (invisible) Whatever logger is installed, in whatever state and whatever it answers: what the calls return and what the sink has got
in the end is what they return and what it gets without a logger.  This holds with and without overflow checks, for every arithmetic. -/
theorem C66_invisible [Checks] (env : Env σ) (G : Logger env.F.F64 lam) (fmt : Format) (calls : List Call) (ending : Ending) (s : σ) (l : lam)
    (r : Except ErrKind Unit) (s' : σ) (h : session env fmt calls ending s = some (r, s')) :
    ∃ l', Log.session env G fmt calls ending s l = some ((r, s'), l') :=
  (Log.session_sees env G fmt calls ending s).get l _ h

/-- **C66** (no panic) With a logger no session panics, also if the sink fails: the reports are computed without a panic, and the result is the
one without a logger. -/
theorem C66_no_panic (hlog : Log2Ok log2) (hS : Honest S I patience) (o : Options) (bt : BlockType) (fmt : Format) (calls : List Call)
    (ending : Ending) (hfit : Fits (writesOf calls)) (s : σ) (hs : I s) (G : Logger Fp lam) (l : lam) :
    ∃ r s' l', session ⟨ieee log2, S, o, bt⟩ fmt calls ending s = some (r, s') ∧
      Log.session ⟨ieee log2, S, o, bt⟩ G fmt calls ending s l = some ((r, s'), l') := by
  obtain ⟨r, s', h⟩ := C05_no_panic_failing hlog hS o bt fmt calls ending hfit s hs
  obtain ⟨l', e⟩ := C66_invisible ⟨ieee log2, S, o, bt⟩ G fmt calls ending s l r s' h
  exact ⟨r, s', l', h, e⟩

/-- **C66** (split points) The points the block splitter reports are the points at which it splits, counted from the start of the part: there is
one report with just these, or none, and then there are no splits. -/
theorem C66_split_points [Checks] (F : FloatOps) (data : Array UInt8) (instart inend maxblocks : Nat) (pts : List Nat)
    (h : blocksplit F data instart inend maxblocks = some pts) :
    ∃ messages, Log.blocksplit F (Log.collector F.F64) data instart inend maxblocks [] = some (pts, messages) ∧
      ((messages = [] ∧ pts = []) ∨ ∃ reported, messages = [(.debug, .splitPoints reported)] ∧ pts = reported.map (instart + ·)) := by
  obtain ⟨l', e⟩ := (Log.blocksplit_sees F (Log.collector F.F64) data instart inend maxblocks).get [] _ h
  refine ⟨l', e, ?_⟩
  rcases Log.blocksplit_collector e with ⟨h1, h2⟩ | ⟨rel, h1, h2⟩
  · exact .inl ⟨h2, h1⟩
  · exact .inr ⟨rel, h2, h1⟩

/-- **C66** (iterations) The optimiser reports each of its iterations, in order, numbered from 0; there is at least one, and at most as many as
the option says.  Those reported at level debug are improvements, each over the one before; and the items that are returned have the size
of the last of them (if there is any). -/
theorem C66_iterations [Checks] (F : FloatOps) (lmc : Cache) (data : Array UInt8) (instart inend maxIterations maxWithoutImprovement : Nat)
    (store : Lz77Store) (h : lz77Optimal F lmc data instart inend maxIterations maxWithoutImprovement = some store) :
    ∃ messages, Log.lz77Optimal F (Log.collector F.F64) lmc data instart inend maxIterations maxWithoutImprovement [] = some (store, messages) ∧
      1 ≤ messages.length ∧ messages.length ≤ max maxIterations 1 ∧
      (∀ i, i < messages.length → ∃ level cost, messages[i]? = some (level, .iteration i cost)) ∧
      Log.Falling F (Log.announced messages) ∧
      ∀ cost, (Log.announced messages).getLast? = some cost → calculateBlockSize F store 0 store.size .dynamic = some cost := by
  obtain ⟨l', e⟩ := (Log.lz77Optimal_sees F (Log.collector F.F64) lmc data instart inend maxIterations maxWithoutImprovement).get [] _ h
  obtain ⟨n, best, h1, h2, ht⟩ := Log.lz77Optimal_collector e
  obtain ⟨f, hf⟩ := ht.numbered
  have hlen : l'.length = n := by rw [hf, List.length_map, List.length_range]
  refine ⟨l', e, hlen ▸ h1, hlen ▸ h2, fun i hi => ⟨(f i).1, (f i).2, ?_⟩, ht.falling, fun cost hc => ?_⟩
  · rw [hlen] at hi
    rw [hf, List.getElem?_map, List.getElem?_range hi]
    rfl
  · have hb := ht.last
    rw [hc] at hb
    have : cost = best := hb
    rw [this]
    exact ht.store fun hn => by rw [hn] at hc; cases hc

/-- **C66** (blocks) Of a block with its own codes the encoder reports the size of the description of the codes and the size of the data, both in
whole bytes of output begun, and the number of bytes that the block stands for. -/
theorem C66_block_report_dynamic [Checks] {R : Type} (hS : Reliable S I log patience) (final : Bool) (data : Array UInt8) (lz77 : Lz77Store) (a b : Nat)
    (lops : List Log.LogOp) (h : Log.addLz77Block .dynamic final data lz77 a b = some lops) (w : BitwiseWriter σ) (hw : w.bp < 8) (hi : I w.out)
    (detect : Nat) :
    ∃ size ll d tree body items w' messages, getDynamicLengths lz77 a b = some (size, ll, d) ∧ addDynamicTree ll d = some (bitOps tree) ∧
      addBlockData lz77 a b ll d = some (bitOps body) ∧ slice lz77.litlens a b = some items ∧
      Log.execAll (Log.collector R) S w detect lops [] = some ((.ok (), w'), messages) ∧
      let start := Log.bitPos w + 3
      let middle := start + tree.length
      let stop := middle + body.length
      Log.bitPos w' = stop ∧
      messages = [(.debug, .treeSize (Log.bytesFor middle - Log.bytesFor start)),
        (.debug, .blockSize (Log.bytesFor stop - Log.bytesFor middle) ((Log.bytesFor stop - Log.bytesFor middle) / 1024)
          (items.toList.map LitLen.size).sum)] := by
  obtain ⟨size, ll, d, tree, body, items, w', h1, h2, h3, h4, h5, h6, -⟩ :=
    Log.addLz77Block_collector_dynamic (R := R) hS h w hw hi detect []
  refine ⟨size, ll, d, tree, body, items, w', _, h1, h2, h3, h4, h5, h6, ?_⟩
  rw [h6]
  rfl

/-- **C66** (blocks) The same for a block with the fixed codes, which has no description of the codes. -/
theorem C66_block_report_fixed [Checks] {R : Type} (hS : Reliable S I log patience) (final : Bool) (data : Array UInt8) (lz77 : Lz77Store) (a b : Nat)
    (lops : List Log.LogOp) (h : Log.addLz77Block .fixed final data lz77 a b = some lops) (w : BitwiseWriter σ) (hw : w.bp < 8) (hi : I w.out)
    (detect : Nat) :
    ∃ body items w' messages, addBlockData lz77 a b fixedTree.1 fixedTree.2 = some (bitOps body) ∧ slice lz77.litlens a b = some items ∧
      Log.execAll (Log.collector R) S w detect lops [] = some ((.ok (), w'), messages) ∧
      let start := Log.bitPos w + 3
      let stop := start + body.length
      Log.bitPos w' = stop ∧
      messages = [(.debug, .blockSize (Log.bytesFor stop - Log.bytesFor start) ((Log.bytesFor stop - Log.bytesFor start) / 1024)
          (items.toList.map LitLen.size).sum)] := by
  obtain ⟨body, items, w', h1, h2, h3, h4, -⟩ := Log.addLz77Block_collector_fixed (R := R) hS h w hw hi detect []
  refine ⟨body, items, w', _, h1, h2, h3, h4, ?_⟩
  rw [h4]
  rfl

/-! ## The hypotheses are met -/

/-- A logger that keeps everything, and a sink that fails once. -/
example : ∃ r s' l', session ⟨ieee floorLog2, glitchSink 3, Options.default, .dynamic⟩ .gzip [.write [1, 2, 3], .flush, .write [4]] .drop ([], 0) = some (r, s') ∧
    Log.session ⟨ieee floorLog2, glitchSink 3, Options.default, .dynamic⟩ (Log.collector Fp) .gzip [.write [1, 2, 3], .flush, .write [4]] .drop ([], 0) [] =
      some ((r, s'), l') :=
  C66_no_panic floorLog2_ok (glitch_honest 3) Options.default .dynamic .gzip [.write [1, 2, 3], .flush, .write [4]] .drop (by
    intro w hw; simp [writesOf] at hw; rcases hw with rfl | rfl <;> decide) ([], 0) trivial (Log.collector Fp) []

/-- The splitter, on any data. -/
example (data : Array UInt8) : ∃ pts messages, Log.blocksplit (ieee floorLog2) (Log.collector Fp) data 0 data.size 15 [] = some (pts, messages) := by
  obtain ⟨pts, h, -⟩ := blocksplit_spec (F := ieee floorLog2) (Nat.zero_le data.size) (Nat.le_refl _) 15
  obtain ⟨m, e, -⟩ := C66_split_points (ieee floorLog2) data 0 data.size 15 pts h
  exact ⟨pts, m, e⟩

/-- The optimiser, on six bytes. -/
example : ∃ store messages, Log.lz77Optimal (ieee floorLog2) (Log.collector Fp) (.lmc (.new 6)) #[1, 2, 1, 2, 1, 2] 0 6 15 5 [] = some (store, messages) ∧
    1 ≤ messages.length ∧ messages.length ≤ 15 := by
  obtain ⟨O, hO⟩ := oracle_exists ((#[1, 2, 1, 2, 1, 2] : Array UInt8).extract 0 6) 0
  obtain ⟨s, -, g⟩ := lz77Optimal_spec (ieeeLaws floorLog2_ok) (instart := 0) (inend := 6) hO (by decide) (by decide) (by rw [ieeeLaws_lim]; decide) 15 5
  obtain ⟨m, e, h1, h2, -⟩ := C66_iterations (ieee floorLog2) (.lmc (.new 6)) #[1, 2, 1, 2, 1, 2] 0 6 15 5 s (g _ (cacheInv_new _ O 0))
  exact ⟨s, m, e, h1, h2⟩

/-- A block, of what the greedy parser makes of any data that are not empty. -/
example (data : Array UInt8) (hd : 0 < data.size) : ∃ store lops w' messages, Log.addLz77Block .dynamic true data store 0 store.size = some lops ∧
    Log.execAll (Log.collector Fp) stutterSink (BitwiseWriter.new ([], 0)) 0 lops [] = some ((.ok (), w'), messages) ∧ messages.length = 2 := by
  obtain ⟨O, hO⟩ := oracle_exists (data.extract 0 data.size) 0
  obtain ⟨s, hs, -⟩ := greedy_spec (instart := 0) hO (Nat.zero_le data.size) (Nat.le_refl _)
  have hpos : 0 < s.size := Nat.pos_of_ne_zero fun h0 => by
    have hp := hs.parses
    have : s.litlens.toList = [] := List.eq_nil_of_length_eq_zero (by rw [Array.length_toList]; exact h0)
    rw [this] at hp
    have : 0 = data.size := by simpa [Parses] using hp
    omega
  have hp : RangeOk data 0 data.size s 0 s.size := by
    have h := hs.rangeOk (Nat.zero_le _) (Nat.le_refl _)
    rw [bytePos_zero, hs.bytePos_size] at h
    exact h
  obtain ⟨bits, hdr, ll, d, h, -⟩ := addLz77Block_dynamic hp hpos true
  obtain ⟨lops, hl, -⟩ := Log.addLz77Block_log h
  obtain ⟨_, _, _, _, _, _, w', m, -, -, -, -, e, hm⟩ := C66_block_report_dynamic (R := Fp) stutterSink_reliable true data s 0 s.size lops hl
    (BitwiseWriter.new ([], 0)) (by decide) trivial 0
  exact ⟨s, lops, w', m, hl, e, by rw [hm.2]; rfl⟩

end Zopfli
