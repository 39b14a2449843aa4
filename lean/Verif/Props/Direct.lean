import Verif.Proofs.DirectEncoder
import Verif.Proofs.DirectBuffered
import Verif.Props.Lending
import Verif.Props.Checked
/-!
# C78: computing and writing by turns

The main model computes what is to be written as a list and hands the list to the writer.  `Model/Direct.lean` and `Model/DirectEncoder.lean` have the
functions of src/deflate.rs as they are in the source: each writes to the sink as soon as it has something to write, goes on computing, and stops
at the first call of the writer that fails; the iterators are lazy (src/iter.rs).  The theorems say that nobody can tell the difference: whatever
the sink does, the result and the sequence of calls it gets, and so its final state, are the same.
-/

namespace Zopfli
open Rfc

variable {σ ρ : Type} {log2 : Fp → Fp}

/-- The bound on the length of one write: about 2^28 bytes in a build with overflow checks, 2^47 bytes in others. -/
theorem direct_enough [c : Checks] (hlog : Log2Ok log2) : Direct.Enough (if Checks.on = true then 2 ^ 28 - 2 else 2 ^ 47 - 1) (ieeeLaws hlog) := by
  refine ⟨?_, fun h => ?_⟩
  · show 32768 + _ < 2 * 2 ^ 47
    split <;> norm_num
  · rw [if_pos h]
    norm_num

theorem direct_bound [c : Checks] {n : Nat} (h1 : n < 2 ^ 47) (h2 : Checks.on = true → n < 2 ^ 28 - 1) : n ≤ if Checks.on = true then 2 ^ 28 - 2 else 2 ^ 47 - 1 := by
  split
  · rename_i h; have := h2 h; omega
  · omega

/-- **C78** (one chunk) In every build, the function that compresses a part of the data and writes by turns has, on any sink, in any state of the
bit writer, the result and the effect of performing the list of writes that the main model computes. -/
theorem C78_chunk (c : Checks) (hlog : Log2Ok log2) (S : Sink σ) (o : Options) (bt : BlockType) (final : Bool) (data : Array UInt8) (start stop : Nat)
    (h1 : start ≤ stop) (h2 : stop ≤ data.size) (hsz : data.size < 2 ^ 48) (hc : Checks.on = true → stop - start < 2 ^ 28 - 1) :
    ∃ ops, deflatePart (ieee log2) o bt final data start stop = some ops ∧
      ∀ w : BitwiseWriter σ, Direct.deflatePart S (ieee log2) o bt final data start stop w = w.execAll S ops := by
  obtain ⟨ops, e1, e2⟩ := Direct.deflatePart_direct (S := S) c (ieeeLaws hlog) o bt final h1 h2 (show data.size < 2 * 2 ^ 47 by omega) hc
  refine ⟨ops, e1, fun w => ?_⟩
  rw [e2 w]
  rcases w.execAll S ops with _ | ⟨_ | _, _⟩ <;> rfl

/-- **C78** (sessions) In every build, a session that computes and writes by turns has, on any sink, the same result and leaves the sink in the same
state as one that computes first, if every write is shorter than 2^47 bytes (than 2^28 - 1 bytes in a build with overflow checks). -/
theorem C78_session [c : Checks] (hlog : Log2Ok log2) (S : Sink σ) (o : Options) (bt : BlockType) (fmt : Format) (calls : List Call)
    (hfit : Fits (writesOf calls)) (hc : Checks.on = true → ∀ b ∈ writesOf calls, b.length < 2 ^ 28 - 1) (ending : Ending) (s : σ) :
    Direct.session ⟨ieee log2, S, o, bt⟩ fmt calls ending s = session ⟨ieee log2, S, o, bt⟩ fmt calls ending s :=
  Direct.session_eq (L := ieeeLaws hlog) (direct_enough hlog) fmt calls (fun b hb => direct_bound (hfit b hb) fun h => hc h b hb) ending s

/-- **C78** (`compress`) The same for `compress` with any reader and any sink, and data of any length. -/
theorem C78_compress [c : Checks] (hlog : Log2Ok log2) (S : Sink σ) (R : Reader ρ) (o : Options) (fmt : Format) (r : ρ) (s : σ) :
    Direct.compress (ieee log2) S R o fmt r s = compress (ieee log2) S R o fmt r s :=
  Direct.compress_eq (direct_enough hlog) (direct_bound (by norm_num [MASTER_BLOCK_SIZE]) fun _ => by norm_num [MASTER_BLOCK_SIZE]) S R o fmt r s

/-- **C78** (`compress` from a slice) The same for `compress` when it is given a byte slice. -/
theorem C78_compress_slice [c : Checks] (hlog : Log2Ok log2) (S : Sink σ) (o : Options) (fmt : Format) (data : List UInt8) (hfit : data.length < 2 ^ 47)
    (hc : Checks.on = true → data.length < 2 ^ 28 - 1) (s : σ) :
    Direct.compressFrom (ieee log2) S sliceSource o fmt data s = compressFrom (ieee log2) S sliceSource o fmt data s :=
  Direct.compressFrom_eq (direct_enough hlog) (direct_bound (by norm_num [MASTER_BLOCK_SIZE]) fun _ => by norm_num [MASTER_BLOCK_SIZE]) S sliceSource
    (I := fun d => d.length < 2 ^ 47 ∧ (Checks.on = true → d.length < 2 ^ 28 - 1))
    (fun d hd => ⟨⟨by show 0 < _; norm_num, fun _ => by show 0 < _; norm_num⟩, fun l hl => by cases hl; exact direct_bound hd.1 hd.2⟩) o fmt data ⟨hfit, hc⟩ s

/-- **C78** (buffered encoders) The same for sessions with an encoder made by `new_buffered`. -/
theorem C78_buffered [c : Checks] (hlog : Log2Ok log2) (S : Sink σ) (o : Options) (bt : BlockType) (fmt : Format) (calls : List Call)
    (hfit : Fits (writesOf calls)) (hc : Checks.on = true → ∀ b ∈ writesOf calls, b.length < 2 ^ 28 - 1) (ending : Ending) (s : σ) :
    Direct.bufferedSession ⟨ieee log2, S, o, bt⟩ fmt calls ending s = bufferedSession ⟨ieee log2, S, o, bt⟩ fmt calls ending s :=
  Direct.bufferedSession_eq (L := ieeeLaws hlog) (direct_enough hlog) (direct_bound (by norm_num [MASTER_BLOCK_SIZE]) fun _ => by norm_num [MASTER_BLOCK_SIZE])
    fmt calls (fun b hb => direct_bound (hfit b hb) fun h => hc h b hb) ending s

/-- **C78** (the program) On any file system, with any arguments, the program that writes while it computes ends as the one that computes first, and leaves the
same files behind. -/
theorem C78_program [c : Checks] (hlog : Log2Ok log2) (os : Os) (args : List String) (w : World) :
    Direct.main (ieee log2) os args w = main (ieee log2) os args w :=
  Direct.main_eq (direct_enough hlog) (direct_bound (by norm_num [MASTER_BLOCK_SIZE]) fun _ => by norm_num [MASTER_BLOCK_SIZE]) os args w

/-- **C78** (round trip) Computing and writing by turns, a session on a sink that does not fail for good succeeds, and what it writes decodes to the data. -/
theorem C78_roundtrip (hlog : Log2Ok log2) {S : Sink σ} {I : σ → Prop} {log : σ → List UInt8} {patience : σ → Nat} (hS : Reliable S I log patience)
    (o : Options) (bt : BlockType) (fmt : Format) (calls : List Call) (hfit : Fits (writesOf calls)) (ending : Ending) (s : σ) (hs : I s) :
    ∃ s' stream, Direct.session ⟨ieee log2, S, o, bt⟩ fmt calls ending s = some (.ok (), s') ∧ log s' = log s ++ stream ∧
      decode fmt stream = some (writesOf calls).flatten := by
  obtain ⟨stream, hd, h⟩ := C22_C23_C26_same_stream hlog o bt fmt _ hfit
  obtain ⟨s', h1, h2⟩ := h σ S I log patience hS calls ending s rfl hs
  exact ⟨s', stream, by rw [C78_session hlog S o bt fmt calls hfit (fun h => by cases h)]; exact h1, h2, hd⟩

/-- **C78** (failing sinks) Computing and writing by turns, a session on any sink that comes to an end has given the sink the whole of the stream that decodes to
the data, if it succeeds; otherwise its error is that of the first call of the sink that failed, and the sink has accepted a prefix of that stream. -/
theorem C78_failing_sink (hlog : Log2Ok log2) (o : Options) (bt : BlockType) (fmt : Format) (calls : List Call) (hfit : Fits (writesOf calls)) :
    ∃ stream, decode fmt stream = some (writesOf calls).flatten ∧
      ∀ (σ : Type) (S : Sink σ) (s s' : σ) (r : Except ErrKind Unit), Direct.session ⟨ieee log2, S, o, bt⟩ fmt calls .finish s = some (r, s') →
        ∃ accepted failed, Direct.session ⟨ieee log2, spy S, o, bt⟩ fmt calls .finish ⟨s, [], none⟩ = some (r, ⟨s', accepted, failed⟩) ∧
          (r = .ok () → failed = none ∧ accepted = stream) ∧
          ∀ k, r = .error k → failed = some k ∧ accepted <+: stream := by
  obtain ⟨stream, h1, -, h3⟩ := C21_sink_errors hlog o bt fmt calls hfit
  refine ⟨stream, h1, fun σ S s s' r h => ?_⟩
  rw [C78_session hlog S o bt fmt calls hfit (fun h => by cases h)] at h
  obtain ⟨accepted, failed, g1, g2, g3⟩ := h3 σ S s s' r h
  refine ⟨accepted, failed, ?_, g2, fun k hk => ⟨(g3 k hk).1, (g3 k hk).2.1⟩⟩
  rw [C78_session hlog (spy S) o bt fmt calls hfit (fun h => by cases h)]
  exact g1

/-- **C78** (no panic, no hang) Computing and writing by turns, too, sessions and `compress` come to an end without a panic, on any sink that does not claim to have written
more than it was given and does not interrupt for ever, wherever it fails. -/
theorem C78_no_panic (hlog : Log2Ok log2) {S : Sink σ} {I : σ → Prop} {patience : σ → Nat} (hS : Honest S I patience) (o : Options) (fmt : Format) (s : σ) (hs : I s) :
    (∀ (bt : BlockType) (calls : List Call) (ending : Ending), Fits (writesOf calls) → ∃ r s', Direct.session ⟨ieee log2, S, o, bt⟩ fmt calls ending s = some (r, s')) ∧
    ∀ (ρ : Type) (R : Reader ρ) (J : ρ → Prop) (data : ρ → List UInt8) (res : Except ErrKind Unit) (patienceR : ρ → Nat), Delivers R J data res patienceR →
      ∀ r, J r → ∃ x s', Direct.compress (ieee log2) S R o fmt r s = some (x, s') := by
  refine ⟨fun bt calls ending hfit => ?_, fun ρ R J data res patienceR hR r hr => ?_⟩
  · rw [C78_session hlog S o bt fmt calls hfit (fun h => by cases h)]
    exact C05_no_panic_failing hlog hS o bt fmt calls ending hfit s hs
  · rw [C78_compress hlog]
    exact C05_compress_no_panic_failing hlog hS hR o fmt r hr s hs

/-- **C78** (`compress`, round trip) Computing and writing by turns, `compress` returns what the reader ends with, and what it has written decodes to the data. -/
theorem C78_compress_roundtrip (hlog : Log2Ok log2) {S : Sink σ} {I : σ → Prop} {log : σ → List UInt8} {patience : σ → Nat} (hS : Reliable S I log patience)
    {R : Reader ρ} {J : ρ → Prop} {data : ρ → List UInt8} {res : Except ErrKind Unit} {patienceR : ρ → Nat} (hR : Delivers R J data res patienceR) (o : Options)
    (fmt : Format) (r : ρ) (hr : J r) (s : σ) (hs : I s) :
    ∃ s' stream, Direct.compress (ieee log2) S R o fmt r s = some (res, s') ∧ log s' = log s ++ stream ∧ decode fmt stream = some (data r) := by
  rw [C78_compress hlog]
  exact C04_C34_compress hlog hS hR o fmt r hr s hs

/-- **C78** (a build with overflow checks) If a session in a release build reports success, then a session that computes and writes by turns in a build with
overflow checks does not panic, reports success and leaves the sink in the same state, if no write is longer than 2^28 - 2 bytes. -/
theorem C78_checked (hlog : Log2Ok log2) (S : Sink σ) (o : Options) (bt : BlockType) (fmt : Format) (calls : List Call)
    (hc : ∀ b ∈ writesOf calls, b.length < 2 ^ 28 - 1) (s s' : σ) (h : session ⟨ieee log2, S, o, bt⟩ fmt calls .finish s = some (.ok (), s')) :
    @Direct.session checkedBuild _ ⟨ieee log2, S, o, bt⟩ fmt calls .finish s = some (.ok (), s') := by
  have hf : Fits (writesOf calls) := fun b hb => Nat.lt_trans (hc b hb) (by norm_num)
  rw [@C78_session _ _ checkedBuild hlog S o bt fmt calls hf (fun _ => hc)]
  exact (C44_checked_same hlog S o bt fmt calls (fun _ => hc) s s' h).1

/-- **C78** (`flag_last`) For any iterator: if it yields the items of `l` and then none, the iterator that `flag_last` makes of it yields the same items, each
with the flag that says whether it is the last, and then none. -/
theorem C78_flag_last {ι α : Type} {next : Direct.Next ι α} {it : ι} {l : List α} (h : Direct.Drains next it l) :
    ∃ out, Direct.Drains (Direct.flagLastNext next) (Direct.flagLast it) out ∧ out.map Prod.fst = l ∧
      ∀ i, (out[i]?).map Prod.snd = if i < l.length then some (decide (i + 1 = l.length)) else none := by
  refine ⟨_, Direct.drains_flagLast h, ?_, ?_⟩
  · clear h
    induction l using flagLast.induct <;> simp_all [flagLast]
  · clear h
    induction l using flagLast.induct with
    | case1 => intro i; simp [flagLast]
    | case2 x => intro i; cases i <;> simp [flagLast]
    | case3 x y l ih =>
      intro i
      cases i with
      | zero => simp [flagLast]
      | succ i =>
        rw [flagLast, List.getElem?_cons_succ, ih i]
        simp

/-- **C78** (`size_hint`) The number that `add_non_compressed_block` computes from `size_hint` is the number of chunks that the iterator yields, and no chunk is
empty or longer than the size; their concatenation is the slice. -/
theorem C78_chunks {α : Type} {n : Nat} (hn : 0 < n) (v : List α) :
    ∃ chunks, Direct.Drains (Direct.chunksNext n) v chunks ∧ Direct.chunksSizeHint n v = chunks.length ∧ chunks.flatten = v ∧
      ∀ c ∈ chunks, 0 < c.length ∧ c.length ≤ n := by
  exact ⟨_, Direct.drains_chunks hn v, Direct.sizeHint_eq hn v, (chunksOf_spec hn v).1, fun c hc =>
    ⟨List.length_pos_iff.2 ((chunksOf_spec hn v).2.1 c hc).2, ((chunksOf_spec hn v).2.1 c hc).1⟩⟩

/-! ## Examples -/

example (o : Options) := C78_chunk checkedBuild floorLog2_ok sliceSink o .dynamic true #[1, 2, 3, 1, 2, 3, 1, 2, 3, 4] 3 10 (by decide) (by decide) (by norm_num)
  (fun _ => by norm_num)
example (o : Options) (data : List UInt8) (h : data.length < 2 ^ 28 - 1) := @C78_session _ _ checkedBuild floorLog2_ok sliceSink o .dynamic .zlib
  [.write data, .flush, .write [1, 2, 3]] (by intro b hb; simp [writesOf] at hb; rcases hb with rfl | rfl; exact Nat.lt_trans h (by norm_num); norm_num)
  (by intro _ b hb; simp [writesOf] at hb; rcases hb with rfl | rfl; exact h; norm_num) .drop ⟨[], 20⟩
example (o : Options) (data : List UInt8) (h : data.length < 2 ^ 47) := C78_compress_slice floorLog2_ok vecSink o .gzip data h (fun h => by cases h) []
example (o : Options) := C78_roundtrip floorLog2_ok vecSink_reliable o .fixed .deflate [.write [1, 2, 3], .flush, .write []]
  (by intro b hb; simp [writesOf] at hb; rcases hb with rfl | rfl <;> norm_num) .drop [] trivial
example (o : Options) (data : List UInt8) (h : data.length < 2 ^ 47) := C78_buffered floorLog2_ok sliceSink o .dynamic .gzip [.write data, .flush]
  (by intro b hb; simp [writesOf] at hb; subst hb; exact h) (fun h => by cases h) .finish ⟨[], 20⟩
example (os : Os) (w : World) := @C78_program _ checkedBuild floorLog2_ok os ["a.txt", "b.txt"] w
example (o : Options) := C78_failing_sink floorLog2_ok o .uncompressed .gzip [.write [1, 2, 3]] (by intro b hb; simp [writesOf] at hb; subst hb; norm_num)
example := C78_no_panic floorLog2_ok (glitch_honest 3) Options.default .gzip ([], 0) trivial
example : ∃ s' stream, Direct.compress (ieee floorLog2) vecSink (listReader 1 (.error (.other 7))) Options.default .gzip ([1, 2, 3, 4, 5], true) [] =
    some (.error (.other 7), s') ∧ s' = [] ++ stream ∧ Rfc.gunzip stream = some [1, 2, 3, 4, 5] :=
  C78_compress_roundtrip floorLog2_ok vecSink_reliable (listReader_delivers 1 (.error (.other 7)) (by simp)) Options.default .gzip _ trivial [] trivial

/-- A sink with room for three bytes gets the first three of a stored block's header, and the writer stops there. -/
example : Direct.storedBlock sliceSink true ([7], true) ⟨0, 0, 0, ⟨[], 3⟩⟩ = some (.error .writeZero, ⟨0, 0, 4, ⟨[1, 1, 0], 0⟩⟩) := by
  simp [Direct.storedBlock, Bind.bind, Direct.Dm.andThen, Direct.addBit, Direct.finishPartialBits, BitwiseWriter.finishPartialBits, Direct.addByte, Direct.addBytes, BitwiseWriter.addBytes,
    C33_slice_write_all, sliceWriteAll]
  simp [sliceSink]

/-- The iterator looks one item ahead, and only when it is asked. -/
example : Direct.flagLastNext (Direct.chunksNext 2) (Direct.flagLast [1, 2, 3, 4, 5]) = (some ([1, 2], false), ⟨[5], some (some [3, 4])⟩) := rfl

/-- The last chunk is flagged. -/
example : Direct.flagLastNext (Direct.chunksNext 2) (⟨[], some (some [5])⟩ : Direct.Peekable (List Nat) (List Nat)) = (some ([5], true), ⟨[], some none⟩) := rfl

/-- In a build with overflow checks, shifting a `u32` by 32 panics. -/
example : @Direct.shr checkedBuild 5 32 = none ∧ @Direct.shr releaseBuild 5 32 = some 5 := by decide

end Zopfli
