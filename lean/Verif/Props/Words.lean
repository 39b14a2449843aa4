import Verif.Proofs.WordsBlocks
import Verif.Props.Division
/-!
# C69: targets with small machine words

`usize` is a natural number in the main model.  `Model/Words.lean` computes code lengths and block sizes with numbers of `W` bits, in builds
with and without overflow checks (`c : Checks`); the theorems say that nothing is different.
-/

namespace Zopfli
open Rfc

/-- **C69** (code lengths) With numbers of `W` bits the code lengths for any frequencies are those of exact arithmetic, provided the
sum of the frequencies, multiplied by their number plus 14, is less than `2^W`. -/
theorem C69_code_lengths (c : Checks) (W : Nat) (frequencies : Array Nat) (maxBits : Nat)
    (hW : (frequencies.size + 14) * frequencies.toList.sum < 2 ^ W) :
    Words.lengthLimitedCodeLengths W frequencies maxBits = Katajainen.lengthLimitedCodeLengths frequencies maxBits :=
  Words.lengthLimited_words frequencies maxBits hW

/-- The facts about a range of items, as a store. -/
theorem words_range {data : Array UInt8} {xs : List LitLen} {start stop : Nat} (h : Parses data start xs stop) {k l : Nat} (hkl : k ≤ l)
    (hl : l ≤ xs.length) : ∃ s, storeOf (placed start xs) = some s ∧ StoreOk data start stop s ∧ l ≤ s.size ∧
      RangeOk data (posAfter start xs k) (posAfter start xs l) s k l ∧ posAfter start xs l ≤ stop ∧ start ≤ posAfter start xs k := by
  obtain ⟨s, e, hs, hx⟩ := storeOf_placed h
  have hsize : s.size = xs.length := by rw [Lz77Store.size_eq, hx]
  have hr := hs.rangeOk hkl (by omega : l ≤ s.size)
  have hle := bytePos_le hs (k := l) (by omega)
  have ea : ∀ j, bytePos start s j = posAfter start xs j := by intro j; unfold bytePos posAfter; rw [hx]
  rw [ea, ea] at hr
  rw [ea] at hle
  exact ⟨s, e, hs, by omega, hr, hle, by unfold posAfter; omega⟩

/-- **C69** (block sizes) For any sequence of items that describes data and any range of it, the code lengths of a block with its own codes,
the size of a block of each type and the estimate used to choose between them are, with numbers of `W` bits, those of exact arithmetic, if the
position of its last byte fits and 302 times the number of bytes (and 289 more) does. -/
theorem C69_block_sizes (c : Checks) (W : Nat) (F : FloatOps) (data : Array UInt8) (xs : List LitLen) (start stop : Nat)
    (h : Parses data start xs stop) (k l : Nat) (hkl : k ≤ l) (hl : l ≤ xs.length) (hpos : posAfter start xs l < 2 ^ W)
    (hW : 302 * (posAfter start xs l - posAfter start xs k + 289) < 2 ^ W) :
    ∃ s, storeOf (placed start xs) = some s ∧
      Words.getDynamicLengths W s k l = getDynamicLengths s k l ∧
      (∀ t, Words.calculateBlockSize W F s k l t = calculateBlockSize F s k l t) ∧
      Words.calculateBlockSizeAutoType W F s k l = calculateBlockSizeAutoType F s k l := by
  obtain ⟨s, e, -, -, hr, -, -⟩ := words_range h hkl hl
  exact ⟨s, e, Words.getDynamicLengths_words hr hW, Words.calculateBlockSize_words F hr hpos hW,
    Words.calculateBlockSizeAutoType_words F hr hpos hW⟩

/-- **C69** (what the estimates are) On a target with `W`-bit words, in any build, nothing overflows: the estimated size of a range of at most
2^28 bytes as stored blocks is `storedBits`, and as a block of one of the other types the number of bits that are written for it. -/
theorem C69_estimates {log2 : Fp → Fp} (c : Checks) (W : Nat) (data : Array UInt8) (xs : List LitLen) (start stop : Nat)
    (h : Parses data start xs stop) (hlen : stop - start < 2 ^ 28 - 1) (hstop : stop < 2 ^ W)
    (hW : 302 * (stop - start + 289) < 2 ^ W) (k l : Nat) (hkl : k < l) (hl : l ≤ xs.length) (final : Bool) :
    ∃ s, storeOf (placed start xs) = some s ∧
      @Words.calculateBlockSize c W (ieee log2) s k l .uncompressed
        = some (Fp.fin (storedBits (posAfter start xs l - posAfter start xs k) : Nat)) ∧
      (∃ ops bits, addLz77Block .fixed final data s k l = some ops ∧ WritesBits ops bits ∧
        @Words.calculateBlockSize c W (ieee log2) s k l .fixed = some (Fp.fin bits.length)) ∧
      (∃ ops bits, addLz77Block .dynamic final data s k l = some ops ∧ WritesBits ops bits ∧
        @Words.calculateBlockSize c W (ieee log2) s k l .dynamic = some (Fp.fin bits.length)) := by
  obtain ⟨s, e, hs, hl', hr, h1, h2⟩ := words_range h (Nat.le_of_lt hkl) hl
  have hsm : SmallStore s := hs.small hlen
  have hpos : posAfter start xs l < 2 ^ W := by omega
  have hF : Words.Fits W (posAfter start xs l - posAfter start xs k) :=
    Nat.lt_of_le_of_lt (Nat.mul_le_mul_left _ (Nat.add_le_add_right (by omega) _)) hW
  have key : ∀ t, @Words.calculateBlockSize c W (ieee log2) s k l t = @calculateBlockSize releaseBuild (ieee log2) s k l t := by
    intro t
    rw [Words.calculateBlockSize_words (ieee log2) hr hpos hF, calculateBlockSize_eq c hsm]
  have hsz : posAfter start xs l - posAfter start xs k < 2 ^ 28 := by omega
  refine ⟨s, e, ?_, ?_, ?_⟩
  · rw [key, estimate_stored (F := ieee log2) hr]
    exact congrArg some (ieee_ofUsize_small _ (by unfold storedBits; omega))
  · obtain ⟨bits, eb, ec, hb, -⟩ := estimate_fixed (ieee_exact log2) hr (hr.cost_lt hsz fixedLens_ok) final
    exact ⟨_, bits, (addLz77Block_eq c hsm _ _ _ _ _).trans eb, rfl, by rw [key, ec]; exact congrArg some (ieee_ofUsize_small _ (by omega))⟩
  · obtain ⟨bits, hdr, eb, ec, hb, -⟩ := estimate_dynamic (ieee_exact log2) hr hkl hsz final
    exact ⟨_, bits, (addLz77Block_eq c hsm _ _ _ _ _).trans eb, rfl, by rw [key, ec]; exact congrArg some (ieee_ofUsize_small _ (by omega))⟩

/-- **C69** (32 bits) On a 32-bit target the condition on the size of a block is met by 14 000 000 bytes, and so by every block made by
`compress` and by every encoder that is handed at most so much at once (`compress` hands over 1 000 000 bytes at once). -/
theorem C69_32bit (c : Checks) (F : FloatOps) (data : Array UInt8) (xs : List LitLen) (start stop : Nat)
    (h : Parses data start xs stop) (hstop : stop < 2 ^ 32) (hlen : stop ≤ start + 14 * 10 ^ 6) (k l : Nat) (hkl : k ≤ l) (hl : l ≤ xs.length) :
    ∃ s, storeOf (placed start xs) = some s ∧
      Words.getDynamicLengths 32 s k l = getDynamicLengths s k l ∧
      (∀ t, Words.calculateBlockSize 32 F s k l t = calculateBlockSize F s k l t) ∧
      Words.calculateBlockSizeAutoType 32 F s k l = calculateBlockSizeAutoType F s k l := by
  obtain ⟨-, -, -, -, -, h1, h2⟩ := words_range h hkl hl
  exact C69_block_sizes c 32 F data xs start stop h k l hkl hl (by omega) (by omega)

/-- **C69** (64 bits) On a 64-bit target they are met by all data that fits in memory (2^55 bytes). -/
theorem C69_64bit (c : Checks) (F : FloatOps) (data : Array UInt8) (xs : List LitLen) (start stop : Nat)
    (h : Parses data start xs stop) (hstop : stop < 2 ^ 55) (k l : Nat) (hkl : k ≤ l) (hl : l ≤ xs.length) :
    ∃ s, storeOf (placed start xs) = some s ∧
      Words.getDynamicLengths 64 s k l = getDynamicLengths s k l ∧
      (∀ t, Words.calculateBlockSize 64 F s k l t = calculateBlockSize F s k l t) ∧
      Words.calculateBlockSizeAutoType 64 F s k l = calculateBlockSizeAutoType F s k l := by
  obtain ⟨-, -, -, -, -, h1, h2⟩ := words_range h hkl hl
  exact C69_block_sizes c 64 F data xs start stop h k l hkl hl (by omega) (by omega)

/-! ## Examples -/

example := C69_code_lengths checkedBuild 32 #[3, 1, 4, 1, 5] 15 (by decide)
example := C69_block_sizes checkedBuild 17 (ieee floorLog2) exampleParseData exampleParse 0 9 exampleParse_parses 1 4 (by decide) (by decide) (by decide) (by decide)
example := C69_estimates (log2 := floorLog2) checkedBuild 32 exampleParseData exampleParse 0 9 exampleParse_parses (by decide) (by decide) (by decide) 1 4 (by decide) (by decide) true
example := C69_32bit checkedBuild (ieee floorLog2) exampleParseData exampleParse 0 9 exampleParse_parses (by decide) (by decide) 1 4 (by decide) (by decide)
example := C69_64bit checkedBuild (ieee floorLog2) exampleParseData exampleParse 0 9 exampleParse_parses (by decide) 1 4 (by decide) (by decide)

/-- The bound matters: with words of 8 bits, the sum of four counts overflows. -/
example : @Words.optimizeHuffmanForRle checkedBuild 8 #[100, 100, 100, 100] = none := by decide +kernel

/-- And it does not panic in a release build, but the counts are other ones. -/
example : @Words.optimizeHuffmanForRle releaseBuild 8 #[100, 100, 100, 100] = some #[36, 36, 36, 36] ∧
    optimizeHuffmanForRle #[100, 100, 100, 100] = some #[100, 100, 100, 100] := by decide +kernel

end Zopfli
