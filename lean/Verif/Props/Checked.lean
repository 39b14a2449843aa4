import Verif.Proofs.CheckedOk
import Verif.Props.Main
import Verif.Props.Lending
import Verif.Props.Debug
/-!
# C44: builds with overflow checks

`@session checkedBuild` is a session in a build with overflow checks, as made by `cargo build` without `--release`; and in the
same way for `compress`, for the buffered encoders and for the program.  `session` alone is one in a release build.

In such a build these panic on overflow: `bit << self.bp` (src/deflate.rs:1339), if `bp` is 8 or more; the `u32` sums and
products of block sizes (src/deflate.rs:399-447); the `i32` difference and `abs` of counts (src/deflate.rs:324).
Subtractions of `usize` below zero are panics in every build of the model (`usub`).  Other `usize` arithmetic is exact.
(Fields of the containers are computed by `wrapping_add` and Adler-32 by reduced sums: these do not overflow in any build.)

In dynamic mode single writes must be shorter than `2^28 - 1` bytes (256 MiB): the sizes of blocks are added up in 32 bits.
`compress` writes at most 1,000,000 bytes at a time, unless the source is a slice in memory or has a larger buffer of its own
(`compressFrom`).
-/

namespace Zopfli
open Rfc

variable {log2 : Fp → Fp} {σ : Type} {S : Sink σ} {I : σ → Prop} {log : σ → List UInt8} {patience : σ → Nat}

/-- **C44** With any sink, if a session on a release build reports success, then a build with overflow checks does exactly
the same, whether the session ends with `finish` or by dropping the encoder. -/
theorem C44_checked_same (hlog : Log2Ok log2) (S : Sink σ) (o : Options) (bt : BlockType) (fmt : Format) (calls : List Call)
    (hsmall : bt = .dynamic → ∀ w ∈ writesOf calls, w.length < 2 ^ 28 - 1) (s s' : σ)
    (h : session ⟨ieee log2, S, o, bt⟩ fmt calls .finish s = some (.ok (), s')) :
    @session checkedBuild _ ⟨ieee log2, S, o, bt⟩ fmt calls .finish s = some (.ok (), s') ∧
      @session checkedBuild _ ⟨ieee log2, S, o, bt⟩ fmt calls .drop s = session ⟨ieee log2, S, o, bt⟩ fmt calls .drop s :=
  sessionC_ok _ fmt calls (partSame_ieee hlog S o bt [] fun _ => by norm_num) (fun w hw => partSame_ieee hlog S o bt w fun hb => hsmall hb w hw) h

/-- **C44** With a sink that does not fail, a build with overflow checks does not panic, reports success and writes the
stream a release build writes. -/
theorem C44_checked_stream (hlog : Log2Ok log2) (o : Options) (bt : BlockType) (fmt : Format) (calls : List Call) (hfit : Fits (writesOf calls))
    (hsmall : bt = .dynamic → ∀ w ∈ writesOf calls, w.length < 2 ^ 28 - 1) :
    ∃ stream, decode fmt stream = some (writesOf calls).flatten ∧
      ∀ (σ : Type) (S : Sink σ) (I : σ → Prop) (log : σ → List UInt8) (patience : σ → Nat), Reliable S I log patience →
      ∀ (ending : Ending) (s : σ), I s →
        ∃ s', @session checkedBuild _ ⟨ieee log2, S, o, bt⟩ fmt calls ending s = some (.ok (), s') ∧
          session ⟨ieee log2, S, o, bt⟩ fmt calls ending s = some (.ok (), s') ∧ log s' = log s ++ stream := by
  obtain ⟨stream, h1, h⟩ := C22_C23_C26_same_stream hlog o bt fmt (writesOf calls) hfit
  refine ⟨stream, h1, ?_⟩
  intro σ S I log patience hS ending s hs
  obtain ⟨s1, a1, a2⟩ := h σ S I log patience hS calls .finish s rfl hs
  obtain ⟨s2, b1, b2⟩ := h σ S I log patience hS calls .drop s rfl hs
  obtain ⟨c1, c2⟩ := C44_checked_same hlog S o bt fmt calls hsmall s s1 a1
  cases ending with
  | finish => exact ⟨s1, c1, a1, a2⟩
  | drop => exact ⟨s2, by rw [c2, b1], b1, b2⟩

/-- **C44** Dropping a `DeflateEncoder` whose calls all succeeded does not panic either, even if the sink fails then. -/
theorem C44_checked_drop (hlog : Log2Ok log2) (S : Sink σ) (o : Options) (bt : BlockType) (calls : List Call)
    (hsmall : bt = .dynamic → ∀ w ∈ writesOf calls, w.length < 2 ^ 28 - 1) (s s' : σ)
    (h : session ⟨ieee log2, S, o, bt⟩ .deflate calls .drop s = some (.ok (), s')) :
    @session checkedBuild _ ⟨ieee log2, S, o, bt⟩ .deflate calls .drop s = some (.ok (), s') :=
  sessionC_drop _ calls (partSame_ieee hlog S o bt [] fun _ => by norm_num) (fun w hw => partSame_ieee hlog S o bt w fun hb => hsmall hb w hw) h

/-- **C44** With any sink, failing or not: a session in a build with overflow checks panics, or does exactly what it does in a
release build. -/
theorem C44_panics_or_same (hlog : Log2Ok log2) (S : Sink σ) (o : Options) (bt : BlockType) (fmt : Format) (calls : List Call)
    (hsmall : bt = .dynamic → ∀ w ∈ writesOf calls, w.length < 2 ^ 28 - 1) (ending : Ending) (s : σ) (x : Except ErrKind Unit × σ)
    (h : @session checkedBuild _ ⟨ieee log2, S, o, bt⟩ fmt calls ending s = some x) :
    session ⟨ieee log2, S, o, bt⟩ fmt calls ending s = some x :=
  session_le _ fmt calls (partSame_ieee hlog S o bt [] fun _ => by norm_num) (fun w hw => partSame_ieee hlog S o bt w fun hb => hsmall hb w hw) ending s x h

theorem partSame_block (hlog : Log2Ok log2) (S : Sink σ) (o : Options) (bt : BlockType) (w : List UInt8) (h : w.length ≤ MASTER_BLOCK_SIZE) :
    PartSame ⟨ieee log2, S, o, bt⟩ w :=
  partSame_ieee hlog S o bt w fun _ => Nat.lt_of_le_of_lt h (by norm_num [MASTER_BLOCK_SIZE])

/-- **C44** The same for `compress`, with any reader, without a limit on the length of the data. -/
theorem C44_compress_panics_or_same (hlog : Log2Ok log2) {ρ : Type} (S : Sink σ) (R : Reader ρ) (o : Options) (fmt : Format) (r : ρ) (s : σ)
    (x : Except ErrKind Unit × σ) (h : @compress checkedBuild _ _ (ieee log2) S R o fmt r s = some x) : compress (ieee log2) S R o fmt r s = some x :=
  compress_le (ieee log2) S R o fmt (partSame_block hlog S o .dynamic) r s x h

/-- **C44** Where `compress` reports success, overflow checks change nothing. -/
theorem C44_compress_same (hlog : Log2Ok log2) {ρ : Type} (S : Sink σ) (R : Reader ρ) (o : Options) (fmt : Format) (r : ρ) (s s' : σ)
    (h : compress (ieee log2) S R o fmt r s = some (.ok (), s')) : @compress checkedBuild _ _ (ieee log2) S R o fmt r s = some (.ok (), s') :=
  compressC_ok (ieee log2) S R o fmt (partSame_block hlog S o .dynamic) h

/-- **C44** With a sink that does not fail, overflow checks never change anything in `compress`, whatever the reader does: it
may fail at any time, or never end. -/
theorem C44_compress_reliable (hlog : Log2Ok log2) (hS : Reliable S I log patience) {ρ : Type} (R : Reader ρ) (o : Options) (fmt : Format) (r : ρ) (s : σ)
    (hs : I s) : @compress checkedBuild _ _ (ieee log2) S R o fmt r s = compress (ieee log2) S R o fmt r s :=
  compressC_faultless (ieee log2) hS.faultless R o fmt (partSame_block hlog S o .dynamic) r hs

/-- **C44** The buffered encoders: the same. -/
theorem C44_buffered_panics_or_same (hlog : Log2Ok log2) (S : Sink σ) (o : Options) (bt : BlockType) (fmt : Format) (calls : List Call)
    (hsmall : bt = .dynamic → ∀ w ∈ writesOf calls, w.length < 2 ^ 28 - 1) (ending : Ending) (s : σ) (x : Except ErrKind Unit × σ)
    (h : @bufferedSession checkedBuild _ ⟨ieee log2, S, o, bt⟩ fmt calls ending s = some x) :
    bufferedSession ⟨ieee log2, S, o, bt⟩ fmt calls ending s = some x :=
  bufferedSession_le _ (partSame_block hlog S o bt) fmt calls (fun w hw => partSame_ieee hlog S o bt w fun hb => hsmall hb w hw) ending s x h

/-- **C44** Where a session with a buffered encoder reports success, overflow checks change nothing. -/
theorem C44_buffered_same (hlog : Log2Ok log2) (S : Sink σ) (o : Options) (bt : BlockType) (fmt : Format) (calls : List Call)
    (hsmall : bt = .dynamic → ∀ w ∈ writesOf calls, w.length < 2 ^ 28 - 1) (s s' : σ)
    (h : bufferedSession ⟨ieee log2, S, o, bt⟩ fmt calls .finish s = some (.ok (), s')) :
    @bufferedSession checkedBuild _ ⟨ieee log2, S, o, bt⟩ fmt calls .finish s = some (.ok (), s') := by
  rcases bufferedSession_cases _ fmt calls .finish h with h1 | ⟨-, -, k, -, -, -, h2, -⟩
  · refine @bufferedSession_ok _ checkedBuild _ fmt calls .finish _ _ (C44_checked_same hlog S o bt fmt _ (fun hb => ?_) s s' h1).1
    exact coalesce_fits MASTER_BLOCK_SIZE (by norm_num [MASTER_BLOCK_SIZE]) calls (hsmall hb)
  · rcases h2 with h2 | ⟨h2, -⟩ <;> cases h2

/-- **C44** With a sink that does not fail, such a session in a build with overflow checks does not panic, reports success
and writes the stream a release build writes, whether it ends with `finish` or by dropping the encoder. -/
theorem C44_buffered_stream (hlog : Log2Ok log2) (o : Options) (bt : BlockType) (fmt : Format) (calls : List Call) (hfit : Fits (writesOf calls))
    (hsmall : bt = .dynamic → ∀ w ∈ writesOf calls, w.length < 2 ^ 28 - 1) :
    ∃ stream, decode fmt stream = some (writesOf calls).flatten ∧
      ∀ (σ : Type) (S : Sink σ) (I : σ → Prop) (log : σ → List UInt8) (patience : σ → Nat), Reliable S I log patience →
      ∀ (ending : Ending) (s : σ), I s →
        ∃ s', @bufferedSession checkedBuild _ ⟨ieee log2, S, o, bt⟩ fmt calls ending s = some (.ok (), s') ∧
          bufferedSession ⟨ieee log2, S, o, bt⟩ fmt calls ending s = some (.ok (), s') ∧ log s' = log s ++ stream := by
  obtain ⟨stream, h1, h⟩ := C44_checked_stream hlog o bt fmt (coalesce MASTER_BLOCK_SIZE [] calls)
    (coalesce_fits MASTER_BLOCK_SIZE (by norm_num [MASTER_BLOCK_SIZE]) calls hfit)
    (fun hb => coalesce_fits MASTER_BLOCK_SIZE (by norm_num [MASTER_BLOCK_SIZE]) calls (hsmall hb))
  refine ⟨stream, by rw [h1, coalesce_flatten]; rfl, ?_⟩
  intro σ S I log patience hS ending s hs
  obtain ⟨s', a1, a2, a3⟩ := h σ S I log patience hS ending s hs
  exact ⟨s', @bufferedSession_ok _ checkedBuild _ fmt calls ending _ _ a1, bufferedSession_ok _ fmt calls ending a2, a3⟩

/-- **C44** `compress` from a slice, or from a reader that lends its buffer, of fewer than `2^28 - 1` bytes: overflow checks
never make a difference without a panic, and none where it reports success. -/
theorem C44_lent_same (hlog : Log2Ok log2) (S : Sink σ) {ρ : Type} {src : Source ρ} {J : ρ → Prop} {data : ρ → List UInt8}
    {res : Except ErrKind Unit} {patienceR : ρ → Nat} (hR : Supplies src J data res patienceR) (o : Options) (fmt : Format) (r : ρ) (hr : J r)
    (hsmall : (data r).length < 2 ^ 28 - 1) (s : σ) :
    (∀ x, @compressFrom checkedBuild _ _ (ieee log2) S src o fmt r s = some x → compressFrom (ieee log2) S src o fmt r s = some x) ∧
    ∀ s', compressFrom (ieee log2) S src o fmt r s = some (.ok (), s') → @compressFrom checkedBuild _ _ (ieee log2) S src o fmt r s = some (.ok (), s') := by
  obtain ⟨fs, g1, -, g3⟩ := compressFrom_eq hR r hr
  have hlen : ∀ w ∈ writesOf (fs.map Call.write), w.length < 2 ^ 28 - 1 := by
    intro w hw
    rw [writesOf_map] at hw
    refine Nat.lt_of_le_of_lt ?_ hsmall
    rw [← g1]
    exact List.Sublist.length_le (List.sublist_flatten_of_mem hw)
  rw [g3 checkedBuild, g3 releaseBuild]
  constructor
  · intro x hx
    rw [Option.map_eq_some_iff] at hx ⊢
    obtain ⟨y, hy, rfl⟩ := hx
    exact ⟨y, C44_buffered_panics_or_same hlog S o .dynamic fmt _ (fun _ => hlen) _ s y hy, rfl⟩
  · intro s' hx
    rw [Option.map_eq_some_iff] at hx ⊢
    obtain ⟨⟨y, s1⟩, hy, he⟩ := hx
    cases y with
    | error k => simp [answer] at he
    | ok u =>
      cases res with
      | error k => simp [answer] at he
      | ok v => exact ⟨_, C44_buffered_same hlog S o .dynamic fmt _ (fun _ => hlen) s s1 hy, he⟩

/-- One file of the program, with overflow checks. -/
theorem compressFileC (hlog : Log2Ok log2) (os : Os) (f : String) (w : World) :
    (∀ x, @compressFile checkedBuild (ieee log2) os f w = some x → compressFile (ieee log2) os f w = some x) ∧
    ∀ n w', compressFile (ieee log2) os f w = some (.ok n, w') → @compressFile checkedBuild (ieee log2) os f w = some (.ok n, w') := by
  unfold compressFile
  split
  · exact ⟨fun x h => h, fun n w' h => h⟩
  · exact ⟨fun x h => h, fun n w' h => h⟩
  · split
    · exact ⟨fun x h => h, fun n w' h => h⟩
    · split
      · exact ⟨fun x h => h, fun n w' h => h⟩
      · constructor
        · refine Le.bind ?_ fun _ _ => Le.refl _
          intro y hy
          exact C44_compress_panics_or_same hlog _ _ _ _ _ _ y hy
        · intro n w' h
          simp only [Option.bind_eq_bind, Option.bind_eq_some_iff, Prod.exists] at h ⊢
          obtain ⟨q, w1, c, hc, h⟩ := h
          cases q with
          | error k => cases h
          | ok u => exact ⟨_, _, _, C44_compress_same hlog _ _ _ _ _ _ _ hc, h⟩

/-- **C44** The program, built without `--release`, on any files and any operating system: it stops with a panic of its own,
or does exactly what the release build does; and where the release build succeeds, so does it, in the same way. -/
theorem C44_program (hlog : Log2Ok log2) (os : Os) : ∀ (args : List String) (w : World),
    (∀ x, @main checkedBuild (ieee log2) os args w = some x → main (ieee log2) os args w = some x) ∧
    ∀ w', main (ieee log2) os args w = some (.ok (), w') → @main checkedBuild (ieee log2) os args w = some (.ok (), w')
  | [], w => ⟨fun x h => h, fun w' h => h⟩
  | f :: l, w => by
    obtain ⟨h1, h2⟩ := compressFileC hlog os f w
    simp only [main]
    constructor
    · refine Le.bind h1 fun ⟨q, w1⟩ _ => ?_
      cases q with
      | error e => exact Le.refl _
      | ok n => exact (C44_program hlog os l w1).1
    · intro w' h
      simp only [Option.bind_eq_bind, Option.bind_eq_some_iff, Prod.exists] at h ⊢
      obtain ⟨q, w1, hc, h⟩ := h
      cases q with
      | error k => cases h
      | ok n => exact ⟨_, _, h2 n w1 hc, (C44_program hlog os l w1).2 w' h⟩

/-- **C44** What the limit is about: a build with overflow checks computes the size of the data of a block, and exactly,
provided that the size fits in 32 bits. -/
theorem C44_checked_size {data : Array UInt8} (xs : List LitLen) (start stop : Nat) (h : Parses data start xs stop)
    (ll d : Array Nat) (hl : ll.size = 288) (hd : d.size = 32) (hfits : (xs.map (bitsOf ll d)).sum + ll.getD 256 0 < 2 ^ 32) :
    ∃ s, storeOf (placed start xs) = some s ∧
      @blockSymbolSize checkedBuild ll d s 0 xs.length = some ((xs.map (bitsOf ll d)).sum + ll.getD 256 0) := by
  obtain ⟨s, e, hs, hx⟩ := storeOf_placed h
  refine ⟨s, e, ?_⟩
  have hsz : s.size = xs.length := by rw [Lz77Store.size_eq, hx]
  have hb : xs.map (itemCost ll d) = xs.map (bitsOf ll d) := by
    refine List.map_congr_left fun x hmem => bitsOf_eq (hs.inv.range x ?_)
    rw [hx]
    exact hmem
  have hsp : (s.litlens.toList.take xs.length).drop 0 = xs := by rw [hx, List.drop_zero, List.take_length]
  have hc : dataCost ll d ((s.litlens.toList.take xs.length).drop 0) = (xs.map (bitsOf ll d)).sum + ll.getD 256 0 := by
    rw [hsp, dataCost, hb]
  rw [← hc] at hfits ⊢
  exact blockSymbolSize_checked hl hd hs.inv (Nat.zero_le _) (by omega) hfits

/-- An empty chunk in fixed mode: three bits of block header, seven bits of end symbol. -/
theorem deflatePart_empty_fixed [Checks] (F : FloatOps) (o : Options) :
    deflatePart F o .fixed true #[] 0 0 = some ([.bit true, .bit true, .bit false] ++ List.replicate 7 (.bit false)) := by
  have h1 : lz77OptimalFixed F (.lmc (.new 0)) #[] 0 0 Lz77Store.new = some (Lz77Store.new, .lmc (.new 0)) := by
    simp [lz77OptimalFixed, lz77OptimalRun, getBestLengths, usub, trace, traceFrom, followPath]
  have h2 : addLz77Block .fixed true #[] Lz77Store.new 0 0 = some ([.bit true, .bit true, .bit false] ++ List.replicate 7 (.bit false)) := by
    rename_i c
    rcases c with ⟨_ | _⟩ <;> decide +kernel
  have h3 : usub 0 0 = some 0 := rfl
  have h4 : Lz77Store.new.size = 0 := rfl
  simp only [deflatePart, h3, some_bind, h1, h4, h2]

/-- **C44, violated** The client creates a `DeflateEncoder` and calls `finish`; the sink fails once, at the first byte.  A
release build returns the sink's error.  A build with overflow checks panics instead, while dropping the encoder: the
byte that could not be sent is complete, and the second attempt to encode the chunk shifts beyond it. -/
theorem C44_checked_violated (F : FloatOps) (o : Options) :
    (∃ s', session ⟨F, glitchSink 0, o, .fixed⟩ .deflate [] .finish ([], 0) = some (.error (.other 0), s')) ∧
    @session checkedBuild _ ⟨F, glitchSink 0, o, .fixed⟩ .deflate [] .finish ([], 0) = none := by
  have h1 := deflatePart_empty_fixed F o
  have h1c := @deflatePart_empty_fixed checkedBuild F o
  simp only [List.replicate, List.cons_append, List.nil_append] at h1 h1c
  constructor
  · refine ⟨([3], 2), ?_⟩
    simp [session, Encoder.new, Encoder.run, Encoder.finish, DeflateEncoder.new,
      DeflateEncoder.finish, DeflateEncoder.finishInner, DeflateEncoder.compressChunk, DeflateEncoder.dropWith, BitwiseWriter.new, h1,
      BitwiseWriter.execAll, BitwiseWriter.exec, addBit_release, BitwiseWriter.finishPartialBits, BitwiseWriter.addBytes, glitch_writeAll]
    decide
  · have h2 : @BitwiseWriter.execAll checkedBuild _ (glitchSink 0) (⟨0, 0, 0, ([], 0)⟩ : BitwiseWriter (List UInt8 × Nat))
        [.bit true, .bit true, .bit false, .bit false, .bit false, .bit false, .bit false, .bit false, .bit false, .bit false] =
        some (.error (.other 0), ⟨3, 8, 1, ([], 1)⟩) := by
      rw [(execAllC_eq _ _ _ (by decide)).1]
      simp [BitwiseWriter.execAll, BitwiseWriter.exec, addBit_release, BitwiseWriter.finishPartialBits, BitwiseWriter.addBytes, glitch_writeAll]
      decide
    have h3 : ∀ ops, @BitwiseWriter.execAll checkedBuild _ (glitchSink 0) (⟨3, 8, 1, ([], 1)⟩ : BitwiseWriter (List UInt8 × Nat)) (.bit true :: ops) = none := fun ops => rfl
    have h4 : @DeflateEncoder.finishInner checkedBuild _ ⟨F, glitchSink 0, o, .fixed⟩ (⟨false, 0, #[], some ⟨0, 0, 0, ([], 0)⟩⟩ : DeflateEncoder (List UInt8 × Nat)) =
        some (.error (.other 0), ⟨false, 0, #[], some ⟨3, 8, 1, ([], 1)⟩⟩, some ([], 1)) := by
      simp only [DeflateEncoder.finishInner, DeflateEncoder.compressChunk, some_bind, List.size_toArray, List.length_nil, h1c, h2]
      rfl
    have h5 : @DeflateEncoder.finishInner checkedBuild _ ⟨F, glitchSink 0, o, .fixed⟩ (⟨false, 0, #[], some ⟨3, 8, 1, ([], 1)⟩⟩ : DeflateEncoder (List UInt8 × Nat)) = none := by
      simp only [DeflateEncoder.finishInner, DeflateEncoder.compressChunk, some_bind, List.size_toArray, List.length_nil, h1c, h3]
      rfl
    simp only [session, Encoder.new, some_bind, Encoder.run, Encoder.finish, DeflateEncoder.new, BitwiseWriter.new, DeflateEncoder.finish, h4,
      DeflateEncoder.dropWith, h5]
    rfl

/-! ## The hypotheses are met -/

example : ∃ stream, Rfc.gunzip stream = some [1, 2, 3, 4] ∧
    ∃ s', @session checkedBuild _ ⟨ieee floorLog2, stutterSink, Options.default, .dynamic⟩ .gzip [.write [1], .write [2, 3], .flush, .write [4]] .drop ([9], 1) = some (.ok (), s') ∧
      s'.1 = [9] ++ stream := by
  obtain ⟨stream, h1, h2⟩ := C44_checked_stream (log2 := floorLog2) floorLog2_ok Options.default .dynamic .gzip [.write [1], .write [2, 3], .flush, .write [4]]
    (by intro w hw; simp [writesOf] at hw; rcases hw with rfl | rfl | rfl <;> decide)
    (by intro _ w hw; simp [writesOf] at hw; rcases hw with rfl | rfl | rfl <;> decide)
  obtain ⟨s', g1, g2, g3⟩ := h2 _ _ _ _ _ stutterSink_reliable .drop ([9], 1) trivial
  exact ⟨stream, h1, s', g1, g3⟩

/-- With overflow checks, from a reader that fails after five bytes. -/
example : ∃ s' stream, @compress checkedBuild _ _ (ieee floorLog2) vecSink (listReader 1 (.error (.other 7))) Options.default .gzip ([1, 2, 3, 4, 5], true) [] =
    some (.error (.other 7), s') ∧ s' = [] ++ stream ∧ Rfc.gunzip stream = some [1, 2, 3, 4, 5] := by
  rw [C44_compress_reliable floorLog2_ok vecSink_reliable (listReader 1 (.error (.other 7))) Options.default .gzip ([1, 2, 3, 4, 5], true) [] trivial]
  exact C04_C34_compress floorLog2_ok vecSink_reliable (listReader_delivers 1 (.error (.other 7)) (by simp)) Options.default .gzip ([1, 2, 3, 4, 5], true) trivial [] trivial

/-- A slice. -/
example : ∃ s', @compressFrom checkedBuild _ _ (ieee floorLog2) vecSink sliceSource Options.default .zlib [1, 2, 3] [] = some (.ok (), s') := by
  obtain ⟨s', stream, h1, h2, h3⟩ := C04_compress_slice floorLog2_ok vecSink_reliable Options.default .zlib [1, 2, 3] (by decide) [] trivial
  exact ⟨s', (C44_lent_same floorLog2_ok vecSink (sliceSource_supplies) Options.default .zlib [1, 2, 3] (by decide) (by decide) []).2 s' h1⟩

/-- A buffered encoder. -/
example : ∃ stream s', Rfc.inflate stream = some [1, 2, 3, 4] ∧
    @bufferedSession checkedBuild _ ⟨ieee floorLog2, stutterSink, Options.default, .dynamic⟩ .deflate [.write [1], .write [2, 3], .flush, .write [4]] .drop ([9], 1) = some (.ok (), s') ∧
      s'.1 = [9] ++ stream := by
  obtain ⟨stream, h1, h2⟩ := C44_buffered_stream (log2 := floorLog2) floorLog2_ok Options.default .dynamic .deflate [.write [1], .write [2, 3], .flush, .write [4]]
    (by intro w hw; simp [writesOf] at hw; rcases hw with rfl | rfl | rfl <;> decide)
    (by intro _ w hw; simp [writesOf] at hw; rcases hw with rfl | rfl | rfl <;> decide)
  obtain ⟨s', g1, g2, g3⟩ := h2 _ _ _ _ _ stutterSink_reliable .drop ([9], 1) trivial
  exact ⟨stream, s', h1, g1, g3⟩

/-- The program. -/
example : ∃ w', @main checkedBuild (ieee floorLog2) { exampleOs with fault := fun _ => none } ["a"] ⟨exampleDisk, 0⟩ = some (.ok (), w') := by
  have hf : Fair { exampleOs with fault := fun _ => none } := ⟨exampleOs_fair.read, fun _ _ _ h => by simp at h, exampleOs_fair.write⟩
  have hs : Smooth { exampleOs with fault := fun _ => none } :=
    ⟨fun _ _ => rfl, fun _ _ => rfl, fun _ _ => rfl, fun _ _ => rfl, exampleOs_smooth.writeFile⟩
  obtain ⟨w', h, -⟩ := C46_compresses floorLog2_ok hf hs (fun _ => rfl) ["a"] ⟨exampleDisk, 0⟩ (by simp [exampleDisk])
  exact ⟨w', (C44_program floorLog2_ok _ ["a"] _).2 w' h⟩

end Zopfli
