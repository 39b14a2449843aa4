import Verif.Spec.Shortest
import Verif.Proofs.FixedOpt
import Verif.Props.Division
/-!
# C38: in fixed mode each chunk is the shortest possible block with the fixed codes
-/

namespace Zopfli
open Rfc

variable {F : FloatOps}

theorem plain_of {H : List UInt8} {arr : Array UInt8} {pos : Nat} (h : Searchable (H.toArray ++ arr) (H.length + pos)) : Plain arr pos where
  few := Nat.le_trans (sharing_shift H arr pos) h.few
  r257 h0 := startsRun_shift h0 h.run257
  r258 h0 := startsRun_shift h0 h.run258

theorem fixedBits {s : Lz77Store} (h : ∀ x ∈ s.litlens.toList, x.InRange) :
    3 + dataCost fixedTree.1 fixedTree.2 ((s.litlens.toList.take s.size).drop 0) = 3 + (s.litlens.toList.map fcost).sum + 7 := by
  rw [List.drop_zero, List.take_of_length_le (by rw [Array.length_toList]; exact Nat.le_refl _)]
  unfold dataCost
  have e : s.litlens.toList.map (itemCost fixedTree.1 fixedTree.2) = s.litlens.toList.map fcost := List.map_congr_left fun x hx => fcost_eq (h x hx)
  have : fixedTree.1.getD 256 0 = 7 := by decide +kernel
  rw [e, this, Nat.add_assoc]

/-- What the parser finds for a range of the data costs least among the parses. -/
theorem fixed_leastParses (R : NatFloat F) (L : FloatLaws F) {data : Array UInt8} {a b : Nat} (h1 : a ≤ b) (h2 : b ≤ data.size) {s : Lz77Store} {lmc : Cache}
    (es : lz77OptimalFixed F (.lmc (.new (b - a))) data a b Lz77Store.new = some (s, lmc)) {H : List UInt8} (hH : H ≠ [] → 32768 ≤ a)
    (hn : 9 * (b - a) < 2 ^ 24) (hp : ∀ pos, (H ++ (data.extract 0 a).toList).length ≤ pos →
      pos < ((H ++ (data.extract 0 a).toList) ++ (data.extract a b).toList).length →
      Searchable ((H ++ (data.extract 0 a).toList) ++ (data.extract a b).toList).toArray pos) :
    ∀ xs : List LitLen, Parses ((H ++ (data.extract 0 a).toList) ++ (data.extract a b).toList).toArray (H ++ (data.extract 0 a).toList).length xs
      ((H ++ (data.extract 0 a).toList) ++ (data.extract a b).toList).length → (s.litlens.toList.map fcost).sum ≤ (xs.map fcost).sum := by
  intro xs hpar
  have hcl : (data.extract a b).toList.length = b - a := by simp; omega
  have hbl : (data.extract 0 a).toList.length = a := by simp; omega
  have hsize : (data.extract 0 b).size = b := by simp; omega
  have hfull : ((H ++ (data.extract 0 a).toList) ++ (data.extract a b).toList).toArray = H.toArray ++ data.extract 0 b := by
    rw [List.append_assoc, extract_toList_append (Nat.zero_le _) h1, ← List.append_toArray, Array.toArray_toList]
  rw [hfull] at hp hpar
  simp only [List.length_append, hbl, hcl] at hp hpar
  obtain ⟨O, hO⟩ := oracle_exists (data.extract 0 b) (a - 32768)
  obtain ⟨s2, ⟨-, hopt⟩, g⟩ := fixedRun_optimal R L hO h1 h2 hn fun pos a b => plain_of (hp (H.length + pos) (by omega) (by omega))
  have hc := cacheInv_new (data.extract 0 b) O a
  rw [hsize] at hc
  obtain ⟨lmc2, -, e2⟩ := g _ hc
  unfold lz77OptimalFixed at es
  dsimp only at e2
  rw [es] at e2
  cases e2
  rw [show H.length + a + (b - a) = H.length + b by omega] at hpar
  exact hopt xs (hpar.unshift hH)

/-- What the parser finds for a range of the data costs least. -/
theorem fixed_leastCost (R : NatFloat F) (L : FloatLaws F) {data : Array UInt8} {a b : Nat} (h1 : a ≤ b) (h2 : b ≤ data.size) {s : Lz77Store} {lmc : Cache}
    (es : lz77OptimalFixed F (.lmc (.new (b - a))) data a b Lz77Store.new = some (s, lmc)) {H : List UInt8} (hH : H ≠ [] → 32768 ≤ a)
    (hn : 9 * (b - a) < 2 ^ 24) (hp : ∀ pos, (H ++ (data.extract 0 a).toList).length ≤ pos →
      pos < ((H ++ (data.extract 0 a).toList) ++ (data.extract a b).toList).length →
      Searchable ((H ++ (data.extract 0 a).toList) ++ (data.extract a b).toList).toArray pos) :
    ∀ xs : List LitLen, (∀ x ∈ xs, x.InRange) →
      expandSyms (H ++ (data.extract 0 a).toList).toArray (xs.map symOf) = some ((H ++ (data.extract 0 a).toList) ++ (data.extract a b).toList).toArray →
      (∀ len dist, .copy len dist ∈ xs.map symOf → dist ≤ 32767) → (s.litlens.toList.map fcost).sum ≤ (xs.map fcost).sum := by
  intro xs x1 hexp hdist
  have hpar := expandSyms_parses hexp x1 hdist
  rw [List.size_toArray, List.size_toArray] at hpar
  exact fixed_leastParses R L h1 h2 es hH hn hp xs hpar

/-- What the parser finds for a range of the data makes a shortest block. -/
theorem fixed_noShorter (R : NatFloat F) (L : FloatLaws F) {data : Array UInt8} {a b : Nat} (h1 : a ≤ b) (h2 : b ≤ data.size) {s : Lz77Store} {lmc : Cache}
    (es : lz77OptimalFixed F (.lmc (.new (b - a))) data a b Lz77Store.new = some (s, lmc)) {H : List UInt8} (hH : H ≠ [] → 32768 ≤ a)
    (hn : 9 * (b - a) < 2 ^ 24) (hp : ∀ pos, (H ++ (data.extract 0 a).toList).length ≤ pos →
      pos < ((H ++ (data.extract 0 a).toList) ++ (data.extract a b).toList).length →
      Searchable ((H ++ (data.extract 0 a).toList) ++ (data.extract a b).toList).toArray pos) :
    NoShorterFixed (H ++ (data.extract 0 a).toList) (data.extract a b).toList (3 + (s.litlens.toList.map fcost).sum + 7) := by
  intro t t' final' syms' hread hexp hdist
  obtain ⟨xs, x1, rfl, x3⟩ := readBlock_cost hread
  have := fixed_leastCost R L h1 h2 es hH hn hp xs x1 hexp hdist
  omega

/-- Fixed mode: the chunk is one block with the fixed codes, and none is shorter. -/
theorem fixed_shortest (R : NatFloat F) (L : FloatLaws F) (o : Options) :
    Guarantees F L.lim o .fixed fun before chunk pieces => ∃ p syms f, pieces = [p] ∧ p.data = chunk ∧ p.blocks = [⟨f, .fixed syms⟩] ∧
      Decodes before pieces ∧
      (9 * chunk.length < 2 ^ 24 → (∀ pos, before.length ≤ pos → pos < (before ++ chunk).length → Searchable (before ++ chunk).toArray pos) →
        NoShorterFixed before chunk p.bits) := by
  intro data instart inend final h1 h2 hsz
  unfold deflatePart
  dsimp only
  rw [usub_eq h1, some_bind]
  obtain ⟨⟨s, lmc⟩, es, hs⟩ := lz77OptimalFixed_new (F := F) L h1 h2
  rw [es, some_bind]
  dsimp only at hs ⊢
  have hr := hs.rangeOk (Nat.zero_le _) (Nat.le_refl s.size)
  rw [bytePos_zero, hs.bytePos_size] at hr
  obtain ⟨bits, e, hlen, he⟩ := addLz77Block_fixed hr final
  refine ⟨_, e, fun pos => ?_⟩
  obtain ⟨bits', pieces, k1, k2, k3, k4, k5, k6, k7⟩ := PiecesOf.one (Q := fun p => p.data = (data.extract instart inend).toList ∧
    (∃ syms f, p.blocks = [⟨f, .fixed syms⟩]) ∧ p.bits = bits.length) h1 he (fun pos bits' hb => ⟨rfl, ⟨_, _, rfl⟩, by rw [render_bitOps_eq hb]⟩) pos
  obtain ⟨p, rfl⟩ := List.length_eq_one_iff.mp k3
  obtain ⟨q1, ⟨syms, f, q2⟩, q3⟩ := k7 p (by simp)
  refine ⟨bits', [p], k1, k2, k6, fun H hH => ⟨p, syms, f, rfl, q1, q2, k5 H, ?_⟩⟩
  intro hn hp
  have hcl : (data.extract instart inend).toList.length = inend - instart := by simp; omega
  rw [hcl] at hn
  rw [q3, hlen, fixedBits hs.inv.range]
  exact fixed_noShorter R L h1 h2 es hH hn hp

variable {σ : Type} {S : Sink σ} {I : σ → Prop} {log : σ → List UInt8} {patience : σ → Nat} {log2 : Fp → Fp}

/-- **C38** In fixed mode each chunk is one block with the fixed codes, and no other such block that stands for the same bytes is
shorter, whatever mixture of literals and copies from within 32767 bytes it uses; provided the chunk is shorter than about
1.8 megabytes (so that bit counts are exact in 32-bit floating point numbers) and the match finder does not have to give up. -/
theorem C38_shortest_fixed_block (hlog : Log2Ok log2) (hS : Reliable S I log patience) (o : Options) (fmt : Format) (calls : List Call)
    (ending : Ending) (hfit : Fits (writesOf calls)) (s : σ) (hs : I s) :
    ∃ s' stream body groups pad, session ⟨ieee log2, S, o, .fixed⟩ fmt calls ending s = some (.ok (), s') ∧ log s' = log s ++ stream ∧
      IsBody fmt stream body ∧ Rfc.parse body = some (groups.flatten.flatMap (·.blocks), []) ∧
      pad < 8 ∧ Layout ⟨bytesBits body, 0⟩ groups.flatten ⟨List.replicate pad false, 8 * body.length - pad⟩ ∧
      EachChunk (fun before chunk pieces => ∃ p syms f, pieces = [p] ∧ p.data = chunk ∧ p.blocks = [⟨f, .fixed syms⟩] ∧ Decodes before pieces ∧
          (9 * chunk.length < 2 ^ 24 → (∀ pos, before.length ≤ pos → pos < (before ++ chunk).length → Searchable (before ++ chunk).toArray pos) →
            NoShorterFixed before chunk p.bits))
        [] (chunksOfWrites (writesOf calls)) groups :=
  session_pieces o .fixed (fixed_shortest (ieeeNat log2) (ieeeLaws hlog) o) hS fmt calls ending hfit s hs

/-! ## The hypotheses are met -/

example := C38_shortest_fixed_block floorLog2_ok stutterSink_reliable Options.default .zlib exampleCalls .drop exampleCalls_fit ([9], 1) trivial

/-- Every position of short data is searchable. -/
theorem searchable_short {data : Array UInt8} (h : data.size < 257) (pos : Nat) (hpos : pos < data.size) : Searchable data pos where
  few := Nat.le_trans (C37_sharing_le data pos) (by omega)
  run257 hr := by
    have : runLength data pos ≤ data.size := by
      unfold runLength
      exact Nat.le_trans (List.takeWhile_sublist _).length_le (by rw [List.length_drop, Array.length_toList]; omega)
    have := hr.1
    omega
  run258 hr := by
    have : runLength data pos ≤ data.size := by
      unfold runLength
      exact Nat.le_trans (List.takeWhile_sublist _).length_le (by rw [List.length_drop, Array.length_toList]; omega)
    have := hr.1
    omega

/-- The last of the three chunks of the example, with the six bytes before it, meets the conditions. -/
example : 9 * [2, 3, 1, 2, 3, 1].length < 2 ^ 24 ∧ ∀ pos, [1, 2, 3, 1, 2, 3].length ≤ pos → pos < ([1, 2, 3, 1, 2, 3] ++ [2, 3, 1, 2, 3, 1]).length →
    Searchable ([1, 2, 3, 1, 2, 3] ++ [2, 3, 1, 2, 3, 1] : List UInt8).toArray pos :=
  ⟨by decide, fun pos _ h => searchable_short (by decide) pos h⟩

end Zopfli
