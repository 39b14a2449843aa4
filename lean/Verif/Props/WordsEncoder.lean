import Verif.Proofs.WordsEncoder
import Verif.Proofs.WordsBuffered
import Verif.Props.Lending
import Verif.Props.Words
/-!
# C71: the same output on every target

`Model/WordsPart.lean` and `Model/WordsEncoder.lean` are the compressor and the encoders with a `usize` of `W` bits; the main model has exact
numbers in its place.  The theorems say that both do the same, for words of any width that is large enough for the sizes of the writes, and so
that a 32-bit target and a 64-bit target produce the same bytes.
-/

namespace Zopfli
open Rfc

variable {σ ρ : Type} {log2 : Fp → Fp}

theorem words_room {W N : Nat} (hlog : Log2Ok log2) (h28 : N < 2 ^ 28 - 1) (hW : 604 * (N + 290) < 2 ^ W) : Words.Room W N (ieeeLaws hlog) :=
  ⟨⟨h28, hW⟩, by
    show 32768 + N < 2 * 2 ^ 47
    exact Nat.lt_of_lt_of_le (Nat.add_lt_add_left h28 _) (by norm_num)⟩

/-- **C71** (one chunk) In every build, the compressed form of a part of the data is, with words of `W` bits, that of exact arithmetic, if the
positions in the data fit and 604 times the number of bytes (and 290 more) does. -/
theorem C71_chunk (c : Checks) (hlog : Log2Ok log2) (W : Nat) (o : Options) (bt : BlockType) (final : Bool) (data : Array UInt8) (start stop : Nat)
    (h1 : start ≤ stop) (h2 : stop ≤ data.size) (hsz : data.size < 2 ^ 47) (hb : stop < 2 ^ W) (h28 : stop - start < 2 ^ 28 - 1)
    (hW : 604 * (stop - start + 290) < 2 ^ W) :
    Words.deflatePart W (ieee log2) o bt final data start stop = deflatePart (ieee log2) o bt final data start stop :=
  Words.deflatePart_words c (ieeeLaws hlog) o bt final h1 h2 (Nat.lt_of_lt_of_le hsz (show 2 ^ 47 ≤ 2 * 2 ^ 47 by norm_num)) hb ⟨h28, hW⟩

/-- **C71** (sessions) With words of `W` bits, a session on any sink, whatever that does, has the same result and leaves the sink in the same state as
with exact arithmetic, if no write is longer than `N` bytes.  There may be any number of them: the counter of written bytes may overflow. -/
theorem C71_session (hlog : Log2Ok log2) (W N : Nat) (h28 : N < 2 ^ 28 - 1) (hW : 604 * (N + 290) < 2 ^ W) (S : Sink σ) (o : Options)
    (bt : BlockType) (fmt : Format) (calls : List Call) (hN : ∀ b ∈ writesOf calls, b.length ≤ N) (ending : Ending) (s : σ) :
    Words.session W ⟨ieee log2, S, o, bt⟩ fmt calls ending s = session ⟨ieee log2, S, o, bt⟩ fmt calls ending s :=
  Words.session_words (L := ieeeLaws hlog) (words_room hlog h28 hW) fmt calls hN ending s

/-- **C71** (`compress`) The same for `compress`, with any reader and any sink and data of any length, if `604 * 1 000 290` fits. -/
theorem C71_compress (hlog : Log2Ok log2) (W : Nat) (hW : 604 * 1000290 < 2 ^ W) (S : Sink σ) (R : Reader ρ) (o : Options) (fmt : Format) (r : ρ) (s : σ) :
    Words.compress W (ieee log2) S R o fmt r s = compress (ieee log2) S R o fmt r s :=
  Words.compress_words (words_room (N := 1000000) hlog (by norm_num) hW) (Nat.le_refl _) S R o fmt r s

/-- **C71** (`compress` from a slice) The same for `compress` when it is given a byte slice of at most `N` bytes, which `std::io::copy` hands over as
a whole, or a million bytes if it is shorter than that. -/
theorem C71_compress_slice (hlog : Log2Ok log2) (W N : Nat) (hN : 1000000 ≤ N) (h28 : N < 2 ^ 28 - 1) (hW : 604 * (N + 290) < 2 ^ W) (S : Sink σ)
    (o : Options) (fmt : Format) (data : List UInt8) (hd : data.length ≤ N) (s : σ) :
    Words.compressFrom W (ieee log2) S sliceSource o fmt data s = compressFrom (ieee log2) S sliceSource o fmt data s :=
  Words.compressFrom_words (words_room hlog h28 hW) hN S sliceSource (I := fun d => d.length ≤ N)
    (fun d hd => ⟨Nat.zero_le _, fun l hl => by cases hl; exact hd⟩) o fmt data hd s

/-- **C71** (32 and 64 bits) A 32-bit target and a 64-bit target do the same, on any sink: in sessions whose writes are at most 7 000 000 bytes long, in
`compress` with any reader, and in `compress` with a slice of at most 7 000 000 bytes. -/
theorem C71_32bit_64bit (hlog : Log2Ok log2) (S : Sink σ) (o : Options) (fmt : Format) (s : σ) :
    (∀ (bt : BlockType) (calls : List Call) (ending : Ending), (∀ b ∈ writesOf calls, b.length ≤ 7000000) →
      Words.session 32 ⟨ieee log2, S, o, bt⟩ fmt calls ending s = Words.session 64 ⟨ieee log2, S, o, bt⟩ fmt calls ending s) ∧
    (∀ (ρ : Type) (R : Reader ρ) (r : ρ), Words.compress 32 (ieee log2) S R o fmt r s = Words.compress 64 (ieee log2) S R o fmt r s) ∧
    (∀ data : List UInt8, data.length ≤ 7000000 →
      Words.compressFrom 32 (ieee log2) S sliceSource o fmt data s = Words.compressFrom 64 (ieee log2) S sliceSource o fmt data s) := by
  refine ⟨fun bt calls ending h => ?_, fun ρ R r => ?_, fun data h => ?_⟩
  · rw [C71_session hlog 32 7000000 (by norm_num) (by norm_num) S o bt fmt calls h, C71_session hlog 64 7000000 (by norm_num) (by norm_num) S o bt fmt calls h]
  · rw [C71_compress hlog 32 (by norm_num), C71_compress hlog 64 (by norm_num)]
  · rw [C71_compress_slice hlog 32 7000000 (by norm_num) (by norm_num) (by norm_num) S o fmt data h,
      C71_compress_slice hlog 64 7000000 (by norm_num) (by norm_num) (by norm_num) S o fmt data h]

/-- **C71** (buffered encoders) With words of `W` bits, a session with an encoder made by `new_buffered`, on any sink, has the same result and leaves the
sink in the same state as with exact arithmetic, if no write is longer than `N` bytes; so a 32-bit target and a 64-bit target do the same if none is longer
than 7 000 000 bytes. -/
theorem C71_buffered (hlog : Log2Ok log2) (S : Sink σ) (o : Options) (bt : BlockType) (fmt : Format) (calls : List Call) (ending : Ending) (s : σ) :
    (∀ W N : Nat, 1000000 ≤ N → N < 2 ^ 28 - 1 → 604 * (N + 290) < 2 ^ W → (∀ b ∈ writesOf calls, b.length ≤ N) →
      Words.bufferedSession W ⟨ieee log2, S, o, bt⟩ fmt calls ending s = bufferedSession ⟨ieee log2, S, o, bt⟩ fmt calls ending s) ∧
    ((∀ b ∈ writesOf calls, b.length ≤ 7000000) →
      Words.bufferedSession 32 ⟨ieee log2, S, o, bt⟩ fmt calls ending s = Words.bufferedSession 64 ⟨ieee log2, S, o, bt⟩ fmt calls ending s) := by
  have key : ∀ W N : Nat, 1000000 ≤ N → N < 2 ^ 28 - 1 → 604 * (N + 290) < 2 ^ W → (∀ b ∈ writesOf calls, b.length ≤ N) →
      Words.bufferedSession W ⟨ieee log2, S, o, bt⟩ fmt calls ending s = bufferedSession ⟨ieee log2, S, o, bt⟩ fmt calls ending s :=
    fun W N hN h28 hW hb => Words.bufferedSession_words (env := ⟨ieee log2, S, o, bt⟩) (L := ieeeLaws hlog) (words_room hlog h28 hW) hN fmt calls hb ending s
  refine ⟨key, fun h => ?_⟩
  rw [key 32 7000000 (by norm_num) (by norm_num) (by norm_num) h, key 64 7000000 (by norm_num) (by norm_num) (by norm_num) h]

/-- **C71** (the program) On any file system the program does the same with words of `W` bits as with exact arithmetic, so the same on a 32-bit target as on
a 64-bit target, for files of any length. -/
theorem C71_program (hlog : Log2Ok log2) (os : Os) (args : List String) (w : World) :
    (∀ W : Nat, 604 * 1000290 < 2 ^ W → Words.main W (ieee log2) os args w = main (ieee log2) os args w) ∧
      Words.main 32 (ieee log2) os args w = Words.main 64 (ieee log2) os args w := by
  have key : ∀ W : Nat, 604 * 1000290 < 2 ^ W → Words.main W (ieee log2) os args w = main (ieee log2) os args w :=
    fun W hW => Words.main_words (words_room (N := 1000000) hlog (by norm_num) hW) (Nat.le_refl _) os args w
  exact ⟨key, by rw [key 32 (by norm_num), key 64 (by norm_num)]⟩

/-- **C71** (round trip) So on a 32-bit target, too, what a session writes to a sink that does not fail decodes to the data. -/
theorem C71_32bit_roundtrip (hlog : Log2Ok log2) {S : Sink σ} {I : σ → Prop} {log : σ → List UInt8} {patience : σ → Nat} (hS : Reliable S I log patience)
    (o : Options) (bt : BlockType) (fmt : Format) (calls : List Call) (hN : ∀ b ∈ writesOf calls, b.length ≤ 7000000) (ending : Ending) (s : σ) (hs : I s) :
    ∃ s' stream, Words.session 32 ⟨ieee log2, S, o, bt⟩ fmt calls ending s = some (.ok (), s') ∧ log s' = log s ++ stream ∧
      decode fmt stream = some (writesOf calls).flatten := by
  have hf : Fits (writesOf calls) := fun b hb => Nat.lt_of_le_of_lt (hN b hb) (by norm_num)
  obtain ⟨stream, hd, h⟩ := C22_C23_C26_same_stream hlog o bt fmt _ hf
  obtain ⟨s', h1, h2⟩ := h σ S I log patience hS calls ending s rfl hs
  exact ⟨s', stream, by rw [C71_session hlog 32 7000000 (by norm_num) (by norm_num) S o bt fmt calls hN]; exact h1, h2, hd⟩

/-! ## Examples -/

example (o : Options) := C71_chunk checkedBuild floorLog2_ok 18 o .dynamic true #[1, 2, 3, 1, 2, 3, 1, 2, 3, 4] 3 10 (by decide) (by decide) (by norm_num)
  (by decide) (by norm_num) (by decide)
example (o : Options) (data : List UInt8) (h : data.length ≤ 7000000) := C71_session floorLog2_ok 32 7000000 (by norm_num) (by norm_num) vecSink o .dynamic .zlib
  [.write data, .flush, .write [1, 2, 3]] (by intro b hb; simp [writesOf] at hb; rcases hb with rfl | rfl; exact h; norm_num) .finish []
example (o : Options) (data : List UInt8) (h : data.length ≤ 7000000) := C71_compress_slice floorLog2_ok 32 7000000 (by norm_num) (by norm_num) (by norm_num) vecSink o
  .gzip data h []
example (o : Options) := C71_32bit_64bit floorLog2_ok vecSink o .deflate []

example (o : Options) (data : List UInt8) (h : data.length ≤ 7000000) := (C71_buffered floorLog2_ok vecSink o .dynamic .zlib
  [.write data, .flush, .write [1, 2, 3]] .drop []).2 (by intro b hb; simp [writesOf] at hb; rcases hb with rfl | rfl; exact h; norm_num)
example (os : Os) (w : World) := (C71_program floorLog2_ok os ["a.txt", "b.txt"] w).2

/-- The width matters: with words of 4 bits the length field of a stored block is damaged. -/
example : Words.storedBlock 4 true [] ≠ storedBlock true [] := by decide

/-- A counter of 8 bits overflows without effect on what is written. -/
example : Words.addBytes 8 vecSink ⟨0, 0, 255, []⟩ [7] = some (.ok (), ⟨0, 0, 0, [7]⟩) := by
  rw [Words.addBytes, C33_vec_write_all _ _ |>.1]
  rfl

/-- In a build with overflow checks it panics (on a 32-bit target, after 4 GiB of output). -/
example : @Words.addBytes checkedBuild _ 32 vecSink ⟨0, 0, 2 ^ 32 - 1, []⟩ [7] = none := rfl

end Zopfli
