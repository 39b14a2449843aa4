import Verif.Props.Division
import Verif.Proofs.BlockCodes
/-!
# C39: a dynamic block is no larger than with the optimal codes of its symbols
-/

namespace Zopfli
open Rfc Katajainen

/-- **C39** For any sequence of items and any non-empty range of it of fewer than 2^32 / 48 items (buffered
writes make blocks of at most 1,000,000 bytes), the dynamic block written for the range
- is no larger than the block with the best of all codes for the symbols of the range: there are good code lengths
  `llBest`, `dBest` with which the symbols take no more bits than with any lengths that can code them, and the bits written
  are at most the 3 header bits, the smallest description of `llBest` and `dBest`, and the symbols coded with them;
- and so is at most 1654 bits larger than its symbols take with any code lengths that can code them. -/
theorem C39_dynamic_best_codes (items : List (LitLen × Nat)) (hr : ∀ x ∈ items, x.1.InRange) (lo hi : Nat) (hlt : lo < hi) (hhi : hi ≤ items.length)
    (hbig : 48 * (hi - lo) + 15 < 2 ^ 32) (final : Bool) (data : Array UInt8) :
    ∃ s ops bits, storeOf items = some s ∧ addLz77Block .dynamic final data s lo hi = some ops ∧ WritesBits ops bits ∧
      (∃ llBest dBest treeOps treeBits, GoodTree llBest dBest ∧ CanCode llBest dBest (((items.take hi).drop lo).map Prod.fst) ∧
        (∀ ll d, CanCode ll d (((items.take hi).drop lo).map Prod.fst) →
          bodyBits llBest dBest (((items.take hi).drop lo).map Prod.fst) ≤ bodyBits ll d (((items.take hi).drop lo).map Prod.fst)) ∧
        addDynamicTree llBest dBest = some treeOps ∧ WritesBits treeOps treeBits ∧
        bits.length ≤ 3 + treeBits.length + bodyBits llBest dBest (((items.take hi).drop lo).map Prod.fst)) ∧
      ∀ ll d, CanCode ll d (((items.take hi).drop lo).map Prod.fst) →
        bits.length ≤ 1654 + bodyBits ll d (((items.take hi).drop lo).map Prod.fst) := by
  obtain ⟨s, e, h1, h2, -⟩ := storeOf_spec hr
  have hsz : s.size = items.length := by rw [Lz77Store.size_eq, h2, List.length_map]
  have hit : (s.litlens.toList.take hi).drop lo = ((items.take hi).drop lo).map Prod.fst := by
    rw [h2, ← List.map_take, ← List.map_drop]
  have hlen : (((items.take hi).drop lo).map Prod.fst).length = hi - lo := by simp; omega
  obtain ⟨⟨n, ll, d⟩, e1, g1, ⟨t, g2, g3⟩, g4, g5, g6, g7⟩ := getDynamicLengths_spec h1 (Nat.le_of_lt hlt) (by omega)
  obtain ⟨r, er, ll0, d0, t0, b1, b2, b3, b4, b5, b6⟩ := getDynamicLengths_le h1 hlt (by omega) hit (by rw [hlen]; exact hbig)
  rw [e1] at er
  cases er
  dsimp only at g1 g2 g3 g4 g5 g6 g7 b5
  have ht := g4 hlt
  obtain ⟨ops, e2, tb, rfl, -, k2, hdr, k3, k4, k5⟩ := addDynamicTree_spec ht
  rw [g2] at k2
  obtain ⟨bits, eb, el, -⟩ := addBlockData_spec h1.range (Nat.le_of_lt hlt) (by omega) (.of ht.lle ht.llk) (.of ht.de ht.dk) (rll := hdr.ll) (rd := hdr.d)
    k3 k4 g7 (fun x hx => ⟨g5 x hx, g6 x hx⟩)
  have hrr : ∀ x ∈ ((items.take hi).drop lo).map Prod.fst, x.InRange := by
    intro x hx
    obtain ⟨y, hy, rfl⟩ := List.mem_map.mp hx
    exact hr y (List.mem_of_mem_take (List.mem_of_mem_drop hy))
  have hbody := bodyBits_le (items := ((items.take hi).drop lo).map Prod.fst) ht.good.llMax ht.good.dMax
  rw [hit, bodyBits_eq hrr] at el g3
  rw [Nat.mod_eq_of_lt (by omega)] at g3
  obtain ⟨ops0, c1, tb0, rfl, -, c2, -⟩ := addDynamicTree_spec b1
  rw [b3] at c2
  have c2 := Option.some.inj c2
  have k2 := Option.some.inj k2
  have htot : ([final, false, true] ++ (tb ++ bits)).length = 3 + n := by
    rw [List.length_append, List.length_append]
    simp only [List.length_cons, List.length_nil]
    omega
  refine ⟨s, bitOps ([final, false, true] ++ (tb ++ bits)), [final, false, true] ++ (tb ++ bits), e, ?_, rfl,
    ⟨ll0, d0, _, tb0, b1.good, b2, b6, c1, rfl, ?_⟩, fun ll' d' hc => ?_⟩
  · unfold addLz77Block
    dsimp only
    rw [e1, some_bind]
    dsimp only
    rw [e2, some_bind, eb, some_bind, bitOps_append, bitOps_append]
    rfl
  · rw [htot]
    omega
  · have := b6 ll' d' hc
    rw [htot]
    omega

/-! ## Concrete cases -/

/-- Code lengths for `exampleItems`: 97, 98, 10, 256, 257 and 285; distances 2 (symbol 1) and 32768 (symbol 29). -/
def exampleLL2 : Array Nat :=
  ((((((Array.replicate 288 0).set! 97 3).set! 98 3).set! 10 3).set! 256 2).set! 257 3).set! 285 2

/-- See `exampleLL2`. -/
def exampleD2 : Array Nat := ((Array.replicate 32 0).set! 1 1).set! 29 1

theorem example_canCode : CanCode exampleLL2 exampleD2 (((exampleItems.take 5).drop 0).map Prod.fst) where
  llSize := by decide +kernel
  dSize := by decide +kernel
  llMax := by decide +kernel
  dMax := by decide +kernel
  llKraft := by decide +kernel
  dKraft := by decide +kernel
  endOfBlock := by decide +kernel
  llUsed := by decide +kernel
  dUsed := by
    intro x hx t ht
    simp only [exampleItems, List.take, List.drop, List.map, List.mem_cons, List.not_mem_nil, or_false] at hx
    rcases hx with rfl | rfl | rfl | rfl | rfl
    · cases ht
    · cases ht
    · cases ht
      decide +kernel
    · cases ht
    · cases ht
      decide +kernel

/-- The five items of `exampleItems` take 31 bits with these lengths (14 of the literal/length symbols, 2 of the distance
symbols, 13 extra bits of the distance 32768 and 2 of the end symbol), so the block written takes at most 1685 bits. -/
example : ∃ s ops bits, storeOf exampleItems = some s ∧ addLz77Block .dynamic true #[] s 0 5 = some ops ∧ WritesBits ops bits ∧ bits.length ≤ 1685 := by
  obtain ⟨s, ops, bits, e1, e2, e3, -, h⟩ :=
    C39_dynamic_best_codes exampleItems exampleItems_inRange 0 5 (by decide) (by decide) (by decide) true #[]
  refine ⟨s, ops, bits, e1, e2, e3, (h _ _ example_canCode).trans ?_⟩
  have : bodyBits exampleLL2 exampleD2 (((exampleItems.take 5).drop 0).map Prod.fst) = 31 := by decide +kernel
  rw [this]

end Zopfli
