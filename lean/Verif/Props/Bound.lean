import Verif.Spec.Bound
import Verif.Props.FixedOptimal
import Verif.Props.Faults
import Verif.Props.Stored
import Verif.Props.Reproducible
/-!
# C54: how large the output can be; a slice of that size is always enough
-/

namespace Zopfli
open Rfc

theorem parses_fcost {data : Array UInt8} : ∀ {xs : List LitLen} {a b : Nat}, Parses data a xs b → (xs.map fcost).sum + 9 * a ≤ 9 * b
  | [], _, _, h => by cases h; simp
  | x :: xs, a, b, h => by
    have h1 : fcost x ≤ 9 * x.size := by
      have hr := h.1.inRange
      cases x with
      | literal c => exact fcost_lit_le c
      | lengthDist len dist => exact (fcost_copy_le hr).2
    have h2 := parses_fcost h.2
    rw [List.map_cons, List.sum_cons]
    omega

variable {F : FloatOps}

/-- Fixed mode: nine bits for each byte suffice. -/
theorem fixed_bounded (L : FloatLaws F) (o : Options) :
    Guarantees F L.lim o .fixed fun _ chunk pieces => (pieces.map (·.bits)).sum ≤ 9 * chunk.length + 10 := by
  intro data instart inend final h1 h2 hsz
  unfold deflatePart
  dsimp only
  rw [usub_eq h1, some_bind]
  obtain ⟨⟨s, lmc⟩, es, hs⟩ := lz77OptimalFixed_new (F := F) L h1 h2
  rw [es, some_bind]
  dsimp only at hs ⊢
  have hr := hs.rangeOk (Nat.zero_le _) (Nat.le_refl s.size)
  rw [bytePos_zero, hs.bytePos_size] at hr
  obtain ⟨bits, e, hlen, he⟩ := addLz77Block_fixed hr final
  refine ⟨_, e, fun pos => ?_⟩
  obtain ⟨bits', pieces, k1, k2, k3, k4, k5, k6, k7⟩ := PiecesOf.one (Q := fun p => p.bits = bits.length) h1 he
    (fun pos bits' hb => by rw [render_bitOps_eq hb]) pos
  obtain ⟨p, rfl⟩ := List.length_eq_one_iff.mp k3
  have q3 := k7 p (by simp)
  refine ⟨bits', [p], k1, k2, k6, fun H hH => ?_⟩
  have hcl : (data.extract instart inend).toList.length = inend - instart := by simp; omega
  have hp := parses_fcost hs.parses
  rw [hcl, List.map_cons, List.map_nil, List.sum_cons, List.sum_nil, q3, hlen, fixedBits hs.inv.range]
  omega

theorem EachChunk.total {bound : Nat → Nat} : ∀ {chunks : List (List UInt8)} {groups : List (List Piece)} {before : List UInt8},
    EachChunk (fun _ chunk pieces => (pieces.map (·.bits)).sum ≤ bound chunk.length) before chunks groups →
    (groups.flatten.map (·.bits)).sum ≤ (chunks.map fun w => bound w.length).sum
  | [], [], _, _ => by simp
  | [], _ :: _, _, h => h.elim
  | _ :: _, [], _, h => h.elim
  | w :: ws, g :: gs, before, h => by
    have h1 := EachChunk.total h.2
    have h2 := h.1
    simp only [List.flatten_cons, List.map_append, List.sum_append, List.map_cons, List.sum_cons]
    omega

theorem storedStream_bound (splits : Nat) : ∀ writes : List (List UInt8),
    8 * (storedStream writes).length ≤ ((chunksOfWrites writes).map fun w => chunkBound .uncompressed splits w.length).sum
  | [] => by
    rw [storedStream, storedChunk_length]
    simp [chunksOfWrites, chunkBound, storedBlockCount]
  | [w] => by
    rw [storedStream, storedChunk_length]
    simp only [chunksOfWrites, List.map_cons, List.map_nil, List.sum_cons, List.sum_nil, chunkBound, if_true, storedBlockCount]
    omega
  | w :: v :: l => by
    have ih := storedStream_bound splits (v :: l)
    rw [storedStream, List.length_append, storedChunk_length]
    simp only [chunksOfWrites, List.map_cons, List.sum_cons, chunkBound, Bool.false_eq_true, if_false, storedBlockCount] at ih ⊢
    omega

variable {σ : Type} {S : Sink σ} {I : σ → Prop} {log : σ → List UInt8} {patience : σ → Nat} {log2 : Fp → Fp}

/-- In the default mode the bound is known for writes of fewer than 2^28 bytes. -/
def Bounded (bt : BlockType) (writes : List (List UInt8)) : Prop := bt = .dynamic → ∀ w ∈ writes, w.length < 2 ^ 28

theorem StreamOf.bound (hlog : Log2Ok log2) {o : Options} {bt : BlockType} {fmt : Format} {writes : List (List UInt8)} {stream : List UInt8}
    (h : StreamOf (ieee log2) o bt fmt writes stream) (hfit : Fits writes) (hb : Bounded bt writes) :
    stream.length ≤ sizeBound bt o.maximumBlockSplits fmt writes := by
  have key : ∀ {P : List UInt8 → List UInt8 → List Piece → Prop}, Guarantees (ieee log2) (2 ^ 47) o bt P →
      (∀ groups : List (List Piece), EachChunk P [] (chunksOfWrites writes) groups →
        (groups.flatten.map (·.bits)).sum ≤ ((chunksOfWrites writes).map fun w => chunkBound bt o.maximumBlockSplits w.length).sum) →
      stream.length ≤ sizeBound bt o.maximumBlockSplits fmt writes := by
    intro P G hP
    obtain ⟨stream', body, groups, bits, pad, h1, h2, h3, h4, h5, -, h7⟩ := streamOf_pieces (by norm_num) G fmt writes hfit
    obtain rfl := h.unique h1
    have hlen := congrArg List.length h3
    rw [bytesBits_length, List.length_append, List.length_replicate] at hlen
    have ht := h5.total
    dsimp only at ht
    have := hP groups h7
    rw [h2, List.length_append, List.length_append, header_size, trailer_size, sizeBound]
    omega
  cases bt with
  | uncompressed =>
    obtain rfl := h.unique (streamOf_stored _ _ _ _)
    have := storedStream_bound o.maximumBlockSplits writes
    rw [List.length_append, List.length_append, header_size, trailer_size, sizeBound]
    omega
  | fixed => exact key (fixed_bounded (ieeeLaws hlog) o) fun groups hg => hg.total (bound := fun n => 9 * n + 10)
  | dynamic =>
    refine key (dynamic_guarantees (ieeeLaws hlog) (ieee_exact log2) o) fun groups hg => ?_
    exact groups_total hg (by
      intro w hm
      cases writes with
      | nil => simp [chunksOfWrites] at hm; rw [hm]; decide
      | cons x l => exact hb rfl w hm)

/-- **C54** The output of a session is never longer than a number of bytes that depends only on the mode, the splitting limit,
the format and the lengths of the writes (in the default mode: if each write is shorter than 2^28 bytes). -/
theorem C54_session_size (hlog : Log2Ok log2) (hS : Reliable S I log patience) (o : Options) (bt : BlockType) (fmt : Format)
    (calls : List Call) (ending : Ending) (hfit : Fits (writesOf calls)) (hb : bt = .dynamic → ∀ w ∈ writesOf calls, w.length < 2 ^ 28)
    (s : σ) (hs : I s) :
    ∃ s' stream, session ⟨ieee log2, S, o, bt⟩ fmt calls ending s = some (.ok (), s') ∧ log s' = log s ++ stream ∧
      stream.length ≤ sizeBound bt o.maximumBlockSplits fmt (writesOf calls) := by
  obtain ⟨stream, -, -, h1, -, -⟩ := streamOf_exists (ieeeLaws hlog) o bt fmt (writesOf calls) hfit
  obtain ⟨s', g1, g2, -⟩ := session_reliable ⟨ieee log2, S, o, bt⟩ hS fmt calls ending hs h1
  exact ⟨s', stream, g1, g2, h1.bound hlog hfit hb⟩

/-- **C54** A session on a byte slice of at least that length always succeeds: the decodable stream is at the start of the
slice and the rest of the slice is left. -/
theorem C54_slice_large_enough (hlog : Log2Ok log2) (o : Options) (bt : BlockType) (fmt : Format)
    (calls : List Call) (hfit : Fits (writesOf calls)) (hb : bt = .dynamic → ∀ w ∈ writesOf calls, w.length < 2 ^ 28)
    (w0 : List UInt8) (cap : Nat) (hcap : sizeBound bt o.maximumBlockSplits fmt (writesOf calls) ≤ cap) :
    ∃ stream, decode fmt stream = some (writesOf calls).flatten ∧
      session ⟨ieee log2, sliceSink, o, bt⟩ fmt calls .finish ⟨w0, cap⟩ = some (.ok (), ⟨w0 ++ stream, cap - stream.length⟩) := by
  obtain ⟨stream, -, -, h1, -, -⟩ := streamOf_exists (ieeeLaws hlog) o bt fmt (writesOf calls) hfit
  refine ⟨stream, h1.decode (ieeeLaws hlog) hfit, ?_⟩
  rw [h1.slice hlog hfit, if_pos (Nat.le_trans (h1.bound hlog hfit hb) hcap)]

/-! ## `compress` -/

theorem chunks_sum (m : Nat) : ∀ W : List (List UInt8), (W.map fun w => 8 * w.length + 40 * (w.length / 65535) + m).sum ≤
    8 * W.flatten.length + 40 * (W.flatten.length / 65535) + m * W.length
  | [] => by simp
  | w :: W => by
    have := chunks_sum m W
    simp only [List.map_cons, List.sum_cons, List.flatten_cons, List.length_append, List.length_cons, Nat.mul_succ]
    omega

theorem long_pieces : ∀ W : List (List UInt8), (∀ w ∈ W.dropLast, 991808 < w.length) → 991809 * (W.length - 1) ≤ W.flatten.length
  | [], _ => by simp
  | [w], _ => by simp
  | w :: v :: l, h => by
    rw [List.dropLast_cons_cons] at h
    have h1 := h w (by simp)
    have h2 := long_pieces (v :: l) fun x hx => h x (by simp [hx])
    simp only [List.length_cons, List.flatten_cons, List.length_append] at h2 ⊢
    omega

theorem compress_bound (splits : Nat) (fmt : Format) (W : List (List UInt8)) (h : ∀ w ∈ W.dropLast, 991808 < w.length) :
    sizeBound .dynamic splits fmt W ≤ compressBound splits fmt W.flatten.length := by
  have h1 := long_pieces W h
  have h2 : (chunksOfWrites W).flatten = W.flatten ∧ (chunksOfWrites W).length ≤ W.flatten.length / 991809 + 1 := by
    cases W with
    | nil => exact ⟨rfl, by simp [chunksOfWrites]⟩
    | cons w l =>
      refine ⟨rfl, ?_⟩
      simp only [chunksOfWrites, List.length_cons] at h1 ⊢
      omega
  obtain ⟨h2, h3⟩ := h2
  have h4 := chunks_sum (42 * max 1 splits) (chunksOfWrites W)
  rw [h2] at h4
  have h5 := Nat.mul_le_mul_left (42 * max 1 splits) h3
  unfold sizeBound compressBound
  simp only [chunkBound]
  omega

/-- **C54** What `compress` writes is never longer than `compressBound`, which depends only on the splitting limit, the format
and the length of the data; however the reader delivers the data. -/
theorem C54_compress_size (hlog : Log2Ok log2) (hS : Reliable S I log patience) (o : Options) (fmt : Format) {ρ : Type} {R : Reader ρ}
    {J : ρ → Prop} {data : ρ → List UInt8} {res : Except ErrKind Unit} {patienceR : ρ → Nat} (hR : Delivers R J data res patienceR)
    (r : ρ) (hr : J r) (s : σ) (hs : I s) :
    ∃ s' stream, compress (ieee log2) S R o fmt r s = some (res, s') ∧ log s' = log s ++ stream ∧
      stream.length ≤ compressBound o.maximumBlockSplits fmt (data r).length := by
  obtain ⟨W, stream, h1, h2, h3, ⟨h4, h5, -⟩, h6⟩ := compress_plan (ieeeLaws hlog) R hR o fmt hr
  obtain ⟨s', g1, g2, -⟩ := (h6 σ S s).1 I log patience hS hs
  refine ⟨s', stream, g1, g2, ?_⟩
  rw [← h3]
  exact Nat.le_trans (h1.bound hlog h2 fun _ w hw => Nat.lt_of_le_of_lt (h4 w hw).2 (by decide)) (compress_bound _ _ _ h5)

/-- **C54** `compress` into a byte slice of at least that length never runs out of room: it returns what the reader ends with,
and the decodable stream is at the start of the slice. -/
theorem C54_compress_slice (hlog : Log2Ok log2) (o : Options) (fmt : Format) {ρ : Type} {R : Reader ρ}
    {J : ρ → Prop} {data : ρ → List UInt8} {res : Except ErrKind Unit} {patienceR : ρ → Nat} (hR : Delivers R J data res patienceR)
    (r : ρ) (hr : J r) (w0 : List UInt8) (cap : Nat) (hcap : compressBound o.maximumBlockSplits fmt (data r).length ≤ cap) :
    ∃ stream, decode fmt stream = some (data r) ∧
      compress (ieee log2) sliceSink R o fmt r ⟨w0, cap⟩ = some (res, ⟨w0 ++ stream, cap - stream.length⟩) := by
  obtain ⟨W, stream, h1, h2, h3, ⟨h4, h5, -⟩, h6⟩ := compress_plan (ieeeLaws hlog) R hR o fmt hr
  have hle : stream.length ≤ cap := by
    refine Nat.le_trans (Nat.le_trans (h1.bound hlog h2 fun _ w hw => Nat.lt_of_le_of_lt (h4 w hw).2 (by decide)) (compress_bound _ _ _ h5)) ?_
    rwa [h3]
  refine ⟨stream, by rw [h1.decode (ieeeLaws hlog) h2, h3], ?_⟩
  obtain ⟨⟨x, t⟩, g1, g2, g3, g4⟩ := compress_total (ieeeLaws hlog) (spy sliceSink) (sliceSpy_honest w0 cap) R hR o fmt hr
    (s := ⟨⟨w0, cap⟩, [], none⟩) ⟨by simp, by simp, .inl rfl⟩
  obtain ⟨k1, k2⟩ := (h6 _ (spy sliceSink) ⟨⟨w0, cap⟩, [], none⟩).2 Spy.log Spy.failed (spy_recorded sliceSink) rfl _ g1
  rw [spy_transparent_compress (ieee log2) sliceSink R o fmt r ⟨⟨w0, cap⟩, [], none⟩, g1]
  obtain ⟨⟨w, room⟩, l, f⟩ := t
  dsimp only at g2 g3 g4 k1 k2
  rcases g4 with rfl | ⟨rfl, rfl⟩
  · obtain ⟨rfl, i2⟩ := k1 rfl
    rw [List.nil_append] at i2
    subst i2 g2
    show some (_, SliceState.mk _ room) = _
    congr 4
    omega
  · obtain ⟨-, n, i1, i2⟩ := k2 _ rfl
    rw [List.nil_append] at i2
    rw [i2, List.length_take] at g3
    omega

/-! ## The hypotheses are met -/

example := C54_session_size floorLog2_ok stutterSink_reliable Options.default .fixed .zlib exampleCalls .drop exampleCalls_fit (by intro h; cases h) ([9], 1) trivial

theorem exampleCalls_short : ∀ w ∈ writesOf exampleCalls, w.length < 2 ^ 28 := by decide

/-- 12 bytes in three writes, into a slice of 1024 bytes, in the default mode. -/
example := C54_slice_large_enough floorLog2_ok Options.default .dynamic .gzip exampleCalls exampleCalls_fit (fun _ => exampleCalls_short) [] 1024 (by decide)

/-- For a megabyte and default options, the output of `compress` is longer by at most 251 bytes. -/
example : compressBound Options.default.maximumBlockSplits .gzip 1000000 = 1000000 + 251 := by decide

example := C54_compress_size floorLog2_ok stutterSink_reliable Options.default .zlib (listReader_delivers 1 (.error (.other 7)) (by simp))
  ([1, 2, 1, 2], true) trivial ([9], 1) trivial

example := C54_compress_slice floorLog2_ok Options.default .zlib memReader_delivers [1, 2, 1, 2] trivial [7] 100 (by decide)

end Zopfli
