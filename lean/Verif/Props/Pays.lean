import Verif.Props.ShortWrites
/-!
# C63: a block has its own codes only where they pay
-/

namespace Zopfli
open Rfc

variable {F : FloatOps}

theorem symOf_inj {x y : LitLen} (hx : x.InRange) (hy : y.InRange) (h : symOf x = symOf y) : x = y := by
  cases x with
  | literal a =>
    cases y with
    | literal b =>
      have ha : a < 256 := hx
      have hb : b < 256 := hy
      simp only [symOf, Sym.lit.injEq] at h
      have := congrArg UInt8.toNat h
      simp only [UInt8.toNat_ofNat'] at this
      rw [Nat.mod_eq_of_lt (by omega), Nat.mod_eq_of_lt (by omega)] at this
      rw [this]
    | lengthDist _ _ => simp [symOf] at h
  | lengthDist a b =>
    cases y with
    | literal b => simp [symOf] at h
    | lengthDist _ _ => simpa [symOf] using h

theorem symOf_map_inj : ∀ {xs ys : List LitLen}, (∀ x ∈ xs, x.InRange) → (∀ x ∈ ys, x.InRange) → xs.map symOf = ys.map symOf → xs = ys
  | [], [], _, _, _ => rfl
  | [], _ :: _, _, _, h => by simp at h
  | _ :: _, [], _, _, h => by simp at h
  | x :: xs, y :: ys, hx, hy, h => by
    rw [List.map_cons, List.map_cons, List.cons.injEq] at h
    rw [symOf_inj (hx x (by simp)) (hy y (by simp)) h.1,
      symOf_map_inj (fun z hz => hx z (List.mem_cons_of_mem _ hz)) (fun z hz => hy z (List.mem_cons_of_mem _ hz)) h.2]

/-- A piece that is one block with its own codes is shorter than any block with the fixed codes for the same symbols. -/
def OwnCodesPay (before : List UInt8) (p : Piece) : Prop :=
  9 * p.data.length < 2 ^ 24 →
  (∀ pos, before.length ≤ pos → pos < (before ++ p.data).length → Searchable (before ++ p.data).toArray pos) →
    ∀ f hdr syms, p.blocks = [⟨f, .dynamic hdr syms⟩] → ∀ (t t' : Bits) (f' : Bool), readBlock t = some (⟨f', .fixed syms⟩, t') →
      t.pos + p.bits < t'.pos

theorem autoType_pays (R : NatFloat F) (L : FloatLaws F) (X : FloatExact F) {data : Array UInt8} {start stop : Nat} {s : Lz77Store}
    (h : StoreOk data start stop s) (hstop : stop ≤ data.size) {k l : Nat} (hkl : k ≤ l) (hl : l ≤ s.size) (final : Bool) :
    Ret (addLz77BlockAutoType F final data s k l) fun ops => NearPieces OwnCodesPay 1 start data (bytePos start s k) (bytePos start s l) final ops := by
  refine Ret.mono (autoType_ok L X h hstop hkl hl final) ?_
  rintro ops ⟨blocks, ho⟩ pos
  have hr := h.rangeOk hkl hl
  have hle := hr.parses.le
  have hle2 := bytePos_le h hl
  have hge : start ≤ bytePos start s k := by unfold bytePos; omega
  obtain ⟨bits, pieces, k1, k2, k3, k4, k5, k6, k7⟩ := PiecesOf.one (Q := fun p => p = ⟨(data.extract (bytePos start s k) (bytePos start s l)).toList, blocks, p.bits⟩ ∧
    ∃ pos bits, render pos ops = some bits ∧ p.bits = bits.length) hle ho.emits
    (fun pos bits hb => ⟨rfl, pos, bits, hb, rfl⟩) pos
  obtain ⟨p, rfl⟩ := List.length_eq_one_iff.mp k3
  obtain ⟨q1, pos', bits', hb', q2⟩ := k7 p (by simp)
  refine ⟨bits, [p], k1, k2, k4, k5, k6, rfl, fun H hH => ⟨fun hn hp f hdr syms hblocks t t' f' hread => ?_, trivial⟩⟩
  have hd : p.data = (data.extract (bytePos start s k) (bytePos start s l)).toList := by rw [q1]
  have hbl : p.blocks = blocks := by rw [q1]
  rw [hbl] at hblocks
  rw [hd] at hp hn
  rw [Array.length_toList, Array.size_extract, Nat.min_eq_left (by omega)] at hn
  rcases Nat.eq_or_lt_of_le hkl with rfl | hlt
  · exfalso
    rw [ho.emptyBlock rfl] at hblocks
    cases hblocks
  · obtain ⟨⟨fs, lmc⟩, ef, hf⟩ := lz77OptimalFixed_new (F := F) (data := data) L hle (by omega)
    dsimp only at hf
    have hfr := hf.rangeOk (Nat.zero_le _) (Nat.le_refl fs.size)
    rw [bytePos_zero, hf.bytePos_size] at hfr
    obtain ⟨fbits, efb, hlen, -⟩ := addLz77Block_fixed hfr final
    obtain ⟨gbits, egb, hglen, hge'⟩ := addLz77Block_fixed hr final
    obtain ⟨-, hpay⟩ := ho.pays (by omega) hlt fs lmc ef fbits efb gbits egb pos' bits' hb'
    obtain ⟨hlt', hsyms⟩ := hpay f hdr syms hblocks
    have hrange : ∀ x ∈ (s.litlens.toList.take l).drop k, x.InRange := fun x hx => h.inv.range x (List.mem_of_mem_take (List.mem_of_mem_drop hx))
    obtain ⟨xs, x1, x2, x3⟩ := readBlock_cost hread
    have hxs : xs = (s.litlens.toList.take l).drop k := symOf_map_inj x1 hrange (by rw [← x2, hsyms])
    have hcost : gbits.length = 3 + (xs.map fcost).sum + 7 := by
      rw [hglen, hxs]
      unfold dataCost
      have e : ((s.litlens.toList.take l).drop k).map (itemCost fixedTree.1 fixedTree.2) = ((s.litlens.toList.take l).drop k).map fcost :=
        List.map_congr_left fun x hx => fcost_eq (hrange x hx)
      have : fixedTree.1.getD 256 0 = 7 := by decide +kernel
      rw [e, this, Nat.add_assoc]
    have hbest := fixed_leastCost R L hle (by omega) ef (H := H) (fun hne => Nat.le_trans (hH hne) hge) (by omega) hp xs x1 (by
      rw [← x2]
      have := ho.emits.exp H.toArray
      rw [hblocks] at this
      simp only [expand, expandBlock, Option.bind_eq_bind, Option.bind_eq_some_iff] at this
      obtain ⟨out, e1, e2⟩ := this
      cases e2
      have c1 : (H ++ (data.extract 0 (bytePos start s k)).toList).toArray = H.toArray ++ data.extract 0 (bytePos start s k) := by
        apply Array.ext'
        simp
      rw [c1, e1, List.append_assoc, extract_toList_append (Nat.zero_le _) hle]
      refine congrArg some (Array.ext' ?_)
      simp) (by
      intro len dist hm
      have := ho.emits.refs ⟨f, .dynamic hdr syms⟩ (by rw [hblocks]; simp) len dist (by unfold blockSyms; dsimp only; rw [x2]; exact hm)
      exact this.2.2.2)
    rw [hlen, fixedBits hf.inv.range] at hlt'
    rw [q2]
    omega

/-- Dynamic mode: own codes only where they pay. -/
theorem dynamic_pays (R : NatFloat F) (L : FloatLaws F) (X : FloatExact F) (o : Options) :
    Guarantees F L.lim o .dynamic fun before chunk pieces => (pieces.map (·.data)).flatten = chunk ∧ Decodes before pieces ∧
      EachPiece OwnCodesPay before pieces := by
  intro data instart inend final h1 h2 hsz
  refine Ret.mono (dynamic_each L o final h1 h2 hsz fun s hs k l hkl hl final => autoType_pays R L X hs h2 hkl hl final) fun ops ho pos => ?_
  obtain ⟨n, -, -, ho⟩ := ho
  obtain ⟨bits, pieces, k1, k2, k3, k4, k5, -, k6⟩ := ho pos
  exact ⟨bits, pieces, k1, k2, k5, fun H hH => ⟨k3, k4 H, k6 H hH⟩⟩

variable {σ : Type} {S : Sink σ} {I : σ → Prop} {log : σ → List UInt8} {patience : σ → Nat} {log2 : Fp → Fp}

/-- **C63** In dynamic mode (the default), whatever the options and however long the writes: a piece (of fewer than 2^24/9 bytes,
in which the match finder never has to give up) that is written as a block with codes of its own is strictly shorter than any
block with the fixed codes that has the same literals and copies. -/
theorem C63_own_codes_pay (hlog : Log2Ok log2) (hS : Reliable S I log patience) (o : Options) (fmt : Format) (calls : List Call)
    (ending : Ending) (hfit : Fits (writesOf calls)) (s : σ) (hs : I s) :
    ∃ s' stream body groups pad, session ⟨ieee log2, S, o, .dynamic⟩ fmt calls ending s = some (.ok (), s') ∧ log s' = log s ++ stream ∧
      IsBody fmt stream body ∧ Rfc.parse body = some (groups.flatten.flatMap (·.blocks), []) ∧
      pad < 8 ∧ Layout ⟨bytesBits body, 0⟩ groups.flatten ⟨List.replicate pad false, 8 * body.length - pad⟩ ∧
      EachChunk (fun before chunk pieces => (pieces.map (·.data)).flatten = chunk ∧ Decodes before pieces ∧
          EachPiece (fun before p => 9 * p.data.length < 2 ^ 24 →
            (∀ pos, before.length ≤ pos → pos < (before ++ p.data).length → Searchable (before ++ p.data).toArray pos) →
            ∀ f hdr syms, p.blocks = [⟨f, .dynamic hdr syms⟩] → ∀ (t t' : Bits) (f' : Bool), readBlock t = some (⟨f', .fixed syms⟩, t') →
              t.pos + p.bits < t'.pos) before pieces)
        [] (chunksOfWrites (writesOf calls)) groups :=
  session_pieces o .dynamic (dynamic_pays (ieeeNat log2) (ieeeLaws hlog) (ieee_exact log2) o) hS fmt calls ending hfit s hs

/-! ## The hypotheses are met -/

example := C63_own_codes_pay floorLog2_ok stutterSink_reliable Options.default .zlib exampleCalls .drop exampleCalls_fit ([9], 1) trivial

end Zopfli
