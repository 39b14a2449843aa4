import Verif.Props.FixedOptimal
/-!
# C55: short writes in dynamic mode
-/

namespace Zopfli
open Rfc

variable {F : FloatOps}

/-- What is claimed of a piece: it is at most two bits longer than any block with the fixed codes. -/
def NearFixed (before : List UInt8) (p : Piece) : Prop :=
  (∀ pos, before.length ≤ pos → pos < (before ++ p.data).length → Searchable (before ++ p.data).toArray pos) →
    NoShorterFixed before p.data (p.bits - 2)

theorem EachPiece.append {P : List UInt8 → Piece → Prop} : ∀ {a b : List Piece} {before : List UInt8}, EachPiece P before a →
    EachPiece P (before ++ (a.map (·.data)).flatten) b → EachPiece P before (a ++ b)
  | [], b, before, _, h2 => by simpa using h2
  | p :: a, b, before, h1, h2 => by
    refine ⟨h1.1, EachPiece.append h1.2 ?_⟩
    rw [List.map_cons, List.flatten_cons, ← List.append_assoc] at h2
    exact h2

/-- The operations are `n` pieces that describe the data from `a` to `b` and of which `Q` holds. -/
def NearPieces (Q : List UInt8 → Piece → Prop) (n instart : Nat) (data : Array UInt8) (a b : Nat) (final : Bool) (ops : List WOp) : Prop :=
  ∀ pos, ∃ bits pieces, render pos ops = some bits ∧ (∀ rest, Layout ⟨bits ++ rest, pos⟩ pieces ⟨rest, pos + bits.length⟩) ∧
    (pieces.map (·.data)).flatten = (data.extract a b).toList ∧
    (∀ H : List UInt8, Decodes (H ++ (data.extract 0 a).toList) pieces) ∧ FinalOk final (pieces.flatMap (·.blocks)) ∧
    pieces.length = n ∧ ∀ H : List UInt8, (H ≠ [] → 32768 ≤ instart) → EachPiece Q (H ++ (data.extract 0 a).toList) pieces

theorem NearPieces.append {Q : List UInt8 → Piece → Prop} {data : Array UInt8} {n m i a b c : Nat} {f : Bool} {o1 o2 : List WOp} (hab : a ≤ b) (hbc : b ≤ c)
    (h1 : NearPieces Q n i data a b false o1) (h2 : NearPieces Q m i data b c f o2) : NearPieces Q (n + m) i data a c f (o1 ++ o2) := by
  intro pos
  obtain ⟨x, p1, e1, l1, d1, k1, f1, n1, q1⟩ := h1 pos
  obtain ⟨y, p2, e2, l2, d2, k2, f2, n2, q2⟩ := h2 (pos + x.length)
  refine ⟨x ++ y, p1 ++ p2, render_append e1 e2, fun rest => ?_, ?_, fun H => ?_, ?_, by rw [List.length_append, n1, n2], fun H hH => ?_⟩
  · have := (l1 (y ++ rest)).append (l2 rest)
    rw [List.append_assoc, List.length_append, ← Nat.add_assoc]
    exact this
  · rw [List.map_append, List.flatten_append, d1, d2, extract_toList_append hab hbc]
  · refine (k1 H).append ?_
    rw [d1, List.append_assoc, extract_toList_append (Nat.zero_le _) hab]
    exact k2 H
  · rw [List.flatMap_append]
    exact f1.append f2
  · refine (q1 H hH).append ?_
    rw [d1, List.append_assoc, extract_toList_append (Nat.zero_le _) hab]
    exact q2 H hH

theorem autoType_near (R : NatFloat F) (L : FloatLaws F) (X : FloatExact F) {data : Array UInt8} {start stop : Nat} {s : Lz77Store}
    (h : StoreOk data start stop s) (hstop : stop ≤ data.size) (hsh : stop - start < 1000) {k l : Nat} (hkl : k ≤ l) (hl : l ≤ s.size) (final : Bool) :
    Ret (addLz77BlockAutoType F final data s k l) fun ops => NearPieces NearFixed 1 start data (bytePos start s k) (bytePos start s l) final ops := by
  refine Ret.mono (autoType_ok L X h hstop hkl hl final) ?_
  rintro ops ⟨blocks, ho⟩ pos
  have hle := (h.rangeOk hkl hl).parses.le
  have hle2 := bytePos_le h hl
  have hge : start ≤ bytePos start s k := by unfold bytePos; omega
  obtain ⟨bits, pieces, k1, k2, k3, k4, k5, k6, k7⟩ := PiecesOf.one (Q := fun p => p = ⟨(data.extract (bytePos start s k) (bytePos start s l)).toList, blocks, p.bits⟩ ∧
    ∃ pos bits, render pos ops = some bits ∧ p.bits = bits.length) hle ho.emits
    (fun pos bits hb => ⟨rfl, pos, bits, hb, rfl⟩) pos
  obtain ⟨p, rfl⟩ := List.length_eq_one_iff.mp k3
  obtain ⟨q1, pos', bits', hb', q2⟩ := k7 p (by simp)
  refine ⟨bits, [p], k1, k2, k4, k5, k6, rfl, fun H hH => ⟨fun hp => ?_, trivial⟩⟩
  have hd : p.data = (data.extract (bytePos start s k) (bytePos start s l)).toList := by rw [q1]
  rw [hd] at hp ⊢
  rcases Nat.eq_or_lt_of_le hkl with rfl | hlt
  · intro t t' final' syms' hread _ _
    obtain ⟨xs, x1, rfl, x3⟩ := readBlock_cost hread
    have : p.bits = 10 := by
      rw [ho.empty rfl] at hb'
      rw [q2, render_bitOps_eq hb']
      rfl
    omega
  · obtain ⟨⟨fs, lmc⟩, ef, hf⟩ := lz77OptimalFixed_new (F := F) (data := data) L hle (by omega)
    dsimp only at hf
    have hfr := hf.rangeOk (Nat.zero_le _) (Nat.le_refl fs.size)
    rw [bytePos_zero, hf.bytePos_size] at hfr
    obtain ⟨fbits, efb, hlen, -⟩ := addLz77Block_fixed hfr final
    have hbest := fixed_noShorter R L hle (by omega) ef (H := H) (fun hne => Nat.le_trans (hH hne) hge) (by omega) hp
    have hsize : s.size ≤ stop - start := h.size_le
    have := ho.fixed (by omega) hlt (by omega) fs lmc ef _ efb pos' bits' fbits hb' (render_bitOps _ _)
    rw [hlen, fixedBits hf.inv.range] at this
    intro t t' final' syms' a b c
    have := hbest t t' final' syms' a b c
    omega

/-- What holds of each block holds of all the pieces. -/
theorem addSplitBlocks_near {Q : List UInt8 → Piece → Prop} {data : Array UInt8} {start stop : Nat} {s : Lz77Store} (h : StoreOk data start stop s)
    (hQ : ∀ k l, k ≤ l → l ≤ s.size → ∀ final, Ret (addLz77BlockAutoType F final data s k l) fun ops =>
      NearPieces Q 1 start data (bytePos start s k) (bytePos start s l) final ops) : ∀ (sp : List Nat) (last : Nat), sp.Pairwise (· < ·) →
    (∀ x ∈ sp, last < x ∧ x < s.size) → last ≤ s.size →
    Ret (addSplitBlocks F s data sp last) fun r => NearPieces Q sp.length start data (bytePos start s last) (bytePos start s r.2) false r.1 ∧
      last ≤ r.2 ∧ r.2 ≤ s.size
  | [], last, _, _, hl => by
    refine ⟨_, rfl, ?_, Nat.le_refl _, hl⟩
    intro pos
    exact ⟨[], [], rfl, fun rest => .nil _, by simp, fun H => trivial, by simp [FinalOk], rfl, fun H _ => trivial⟩
  | item :: rest, last, h1, h2, hl => by
    have hi := h2 item (by simp)
    rw [List.pairwise_cons] at h1
    rw [addSplitBlocks]
    refine Ret.bind' (hQ _ _ (Nat.le_of_lt hi.1) (Nat.le_of_lt hi.2) false) ?_
    rintro ops g1
    refine Ret.bind' (addSplitBlocks_near h hQ rest item h1.2 (fun x hx => ⟨h1.1 x hx, (h2 x (by simp [hx])).2⟩) (Nat.le_of_lt hi.2)) ?_
    rintro ⟨ops', last'⟩ ⟨g2, g3, g4⟩
    dsimp only at g2 g3 g4
    refine ⟨_, rfl, ?_, by simp only; omega, g4⟩
    rw [List.length_cons, Nat.add_comm]
    exact g1.append (h.rangeOk (Nat.le_of_lt hi.1) (Nat.le_of_lt hi.2)).parses.le (h.rangeOk g3 g4).parses.le g2

/-- What holds of each block holds of all the pieces of a chunk. -/
theorem dynamic_each (L : FloatLaws F) (o : Options) {Q : List UInt8 → Piece → Prop} {data : Array UInt8} {instart inend : Nat} (final : Bool)
    (h1 : instart ≤ inend) (h2 : inend ≤ data.size) (hsz : data.size < 2 * L.lim)
    (hQ : ∀ s, StoreOk data instart inend s → ∀ k l, k ≤ l → l ≤ s.size → ∀ final, Ret (addLz77BlockAutoType F final data s k l) fun ops =>
      NearPieces Q 1 instart data (bytePos instart s k) (bytePos instart s l) final ops) :
    Ret (deflatePart F o .dynamic final data instart inend) fun ops =>
      ∃ n, 1 ≤ n ∧ n ≤ max 1 o.maximumBlockSplits ∧ NearPieces Q n instart data instart inend final ops := by
  unfold deflatePart blocksplitAttempt
  dsimp only
  refine Ret.bind' (blocksplitPlan_spec L o h1 h2 hsz) ?_
  rintro ⟨s, sp⟩ ⟨g1, g2, g3⟩
  unfold addAllBlocks
  refine Ret.bind' (addSplitBlocks_near g1 (hQ s g1) sp 0 g2.1 g2.2 (Nat.zero_le _)) ?_
  rintro ⟨ops, last⟩ ⟨a1, -, a3⟩
  dsimp only at a1 a3 ⊢
  refine Ret.bind' (hQ s g1 _ _ a3 (Nat.le_refl _) final) ?_
  rintro ops2 a2
  rw [bytePos_zero] at a1
  rw [g1.bytePos_size] at a2
  have hle := bytePos_le g1 a3
  have hle2 : instart ≤ bytePos instart s last := by unfold bytePos; omega
  exact ⟨_, rfl, _, by omega, g3, a1.append hle2 hle a2⟩

/-- Dynamic mode: every piece of a short chunk is near to the best fixed block. -/
theorem dynamic_near (R : NatFloat F) (L : FloatLaws F) (X : FloatExact F) (o : Options) :
    Guarantees F L.lim o .dynamic fun before chunk pieces => (pieces.map (·.data)).flatten = chunk ∧ Decodes before pieces ∧
      (chunk.length < 1000 → EachPiece NearFixed before pieces) := by
  intro data instart inend final h1 h2 hsz
  by_cases hsh : inend - instart < 1000
  · refine Ret.mono (dynamic_each L o final h1 h2 hsz fun s hs k l hkl hl final => autoType_near R L X hs h2 hsh hkl hl final) fun ops ho pos => ?_
    obtain ⟨n, -, -, ho⟩ := ho
    obtain ⟨bits, pieces, k1, k2, k3, k4, k5, -, k6⟩ := ho pos
    exact ⟨bits, pieces, k1, k2, k5, fun H hH => ⟨k3, k4 H, fun _ => k6 H hH⟩⟩
  · refine Ret.mono (dynamic_guarantees L X o data instart inend final h1 h2 hsz) fun ops ho pos => ?_
    obtain ⟨bits, pieces, k1, k2, k3, k4⟩ := ho pos
    refine ⟨bits, pieces, k1, k2, k3, fun H hH => ⟨(k4 H hH).1.data, (k4 H hH).1.decodes, fun hlt => ?_⟩⟩
    simp at hlt
    omega

variable {σ : Type} {S : Sink σ} {I : σ → Prop} {log : σ → List UInt8} {patience : σ → Nat} {log2 : Fp → Fp}

/-- **C55** In dynamic mode (the default), whatever the options: when a chunk (a write) is shorter than 1000 bytes, none of the
pieces it is divided into is more than two bits longer than any block with the fixed codes that stands for the same bytes
(whatever mixture of literals and copies from within 32767 bytes it uses), unless the match finder has to give up somewhere in the
piece. -/
theorem C55_short_writes (hlog : Log2Ok log2) (hS : Reliable S I log patience) (o : Options) (fmt : Format) (calls : List Call)
    (ending : Ending) (hfit : Fits (writesOf calls)) (s : σ) (hs : I s) :
    ∃ s' stream body groups pad, session ⟨ieee log2, S, o, .dynamic⟩ fmt calls ending s = some (.ok (), s') ∧ log s' = log s ++ stream ∧
      IsBody fmt stream body ∧ Rfc.parse body = some (groups.flatten.flatMap (·.blocks), []) ∧
      pad < 8 ∧ Layout ⟨bytesBits body, 0⟩ groups.flatten ⟨List.replicate pad false, 8 * body.length - pad⟩ ∧
      EachChunk (fun before chunk pieces => (pieces.map (·.data)).flatten = chunk ∧ Decodes before pieces ∧
          (chunk.length < 1000 → EachPiece (fun before p =>
            (∀ pos, before.length ≤ pos → pos < (before ++ p.data).length → Searchable (before ++ p.data).toArray pos) →
            NoShorterFixed before p.data (p.bits - 2)) before pieces))
        [] (chunksOfWrites (writesOf calls)) groups :=
  session_pieces o .dynamic (dynamic_near (ieeeNat log2) (ieeeLaws hlog) (ieee_exact log2) o) hS fmt calls ending hfit s hs

/-! ## The hypotheses are met -/

example := C55_short_writes floorLog2_ok stutterSink_reliable Options.default .zlib exampleCalls .drop exampleCalls_fit ([9], 1) trivial

/-- The last of the three chunks of the example is short, and matches can be searched for at each of its positions. -/
example : [2, 3, 1, 2, 3, 1].length < 1000 ∧ ∀ pos, [1, 2, 3, 1, 2, 3].length ≤ pos → pos < ([1, 2, 3, 1, 2, 3] ++ [2, 3, 1, 2, 3, 1]).length →
    Searchable ([1, 2, 3, 1, 2, 3] ++ [2, 3, 1, 2, 3, 1] : List UInt8).toArray pos :=
  ⟨by decide, fun pos _ h => searchable_short (by decide) pos h⟩

end Zopfli
