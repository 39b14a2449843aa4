import Verif.Proofs.Render
import Verif.Proofs.Plan
/-! # Emitted blocks are read back -/

namespace Zopfli
open Rfc

variable {F : FloatOps}

/-- The decoded form of an item. -/
def symOf : LitLen → Sym
  | .literal b => .lit (UInt8.ofNat b)
  | .lengthDist len dist => .copy len dist

/-- The codewords `syms` decode under the code lengths `lens`, when followed by unused symbols cut off. -/
def Dec (lens syms : Array Nat) (read : List Nat) : Prop :=
  syms.size = lens.size ∧ ∀ i (hi : i < lens.size), lens[i] ≠ 0 → ∃ c, syms[i]? = some c ∧ ∀ (rest : List Bool) (pos : Nat),
    decodeSym read ⟨bitsMsb c lens[i] ++ rest, pos⟩ = some (i, ⟨rest, pos + lens[i]⟩)

theorem dec_of {lens : Array Nat} (h : CodeOk lens 15) {read : List Nat} (hr : ∃ k, lens.toList = read ++ List.replicate k 0) :
    Ret (lengthsToSymbols lens 15) fun syms => Dec lens syms read := by
  refine Ret.mono (huff_decode h (by omega)) ?_
  rintro syms ⟨h1, h2⟩
  obtain ⟨k, e⟩ := hr
  refine ⟨h1, fun i hi hne => ?_⟩
  obtain ⟨c, hc1, hc2⟩ := h2 i hi hne
  refine ⟨c, hc1, fun rest pos => ?_⟩
  rw [← hc2 rest pos, e, decodeSym_zeros]

/-- The item's symbols have codes. -/
def Coded (ll d : Array Nat) (x : LitLen) : Prop :=
  (∃ h : llSym x < ll.size, ll[llSym x] ≠ 0) ∧ ∀ t, dSym x = some t → ∃ h : t < d.size, d[t] ≠ 0

theorem itemOps_spec {ll d lls ds : Array Nat} {rll rd : List Nat} (h1 : Dec ll lls rll) (h2 : Dec d ds rd) {x : LitLen} (hx : x.InRange)
    (hc : Coded ll d x) :
    ∃ bits, itemOps lls ll ds d x = some (bitOps bits) ∧ bits.length = itemCost ll d x ∧
      ∀ rest pos, readSym rll rd ⟨bits ++ rest, pos⟩ = some (some (symOf x), ⟨rest, pos + bits.length⟩) := by
  obtain ⟨⟨g1, g2⟩, g3⟩ := hc
  obtain ⟨c, e1, k1⟩ := h1.2 _ g1 g2
  cases x with
  | literal b =>
    have hb : b < 256 := hx
    change b < ll.size at g1
    change lls[b]? = some c at e1
    have k1 : ∀ (rest : List Bool) (pos : Nat), decodeSym rll ⟨bitsMsb c ll[b] ++ rest, pos⟩ = some (b, ⟨rest, pos + ll[b]⟩) := k1
    refine ⟨bitsMsb c ll[b], ?_, ?_, fun rest pos => ?_⟩
    · have g2 : ll[b] ≠ 0 := g2
      unfold itemOps
      dsimp only
      rw [guardR_eq (by simp only [decide_eq_true_eq]; omega), some_bind, Array.getElem?_eq_getElem g1, some_bind,
        guardR_eq (by simp only [decide_eq_true_eq]; omega), some_bind, e1, some_bind, some_bind, addHuffmanBits_eq]
      rfl
    · rw [bitsMsb_length]
      show _ = ll.getD b 0 + (if b < 257 then 0 else _) + 0
      rw [if_pos (by omega)]
      simp [g1]
    · unfold readSym
      rw [k1, some_bind, bitsMsb_length]
      dsimp only
      rw [if_pos hb]
      rfl
  | lengthDist len dist =>
    obtain ⟨r1, r2, r3, r4⟩ := hx
    obtain ⟨s, eb, v, l1, l2, l3, l4, l5, l6, l7, l8, l9, l10, l11⟩ := length_spec r1 r2
    obtain ⟨d1, d2, d3, d4, d5, d6, d7⟩ := dist_spec r3 r4
    have hs : llSym (.lengthDist len dist) = s := by simp [llSym, l1]
    simp only [hs] at g1 g2 e1 k1
    obtain ⟨g4, g5⟩ := g3 _ rfl
    obtain ⟨dc, e2, k2⟩ := h2.2 _ g4 g5
    refine ⟨bitsMsb c ll[s] ++ bitsLsb v eb ++ bitsMsb dc d[getDistSymbol dist] ++ bitsLsb (getDistExtraBitsValue dist) (getDistExtraBits dist), ?_, ?_, fun rest pos => ?_⟩
    · unfold itemOps
      dsimp only
      rw [guardR_eq (by simp; omega), some_bind, l1, some_bind]
      rw [Array.getElem?_eq_getElem g1, some_bind, guardR_eq (by simp only [decide_eq_true_eq]; omega), some_bind,
        Array.getElem?_eq_getElem g4, some_bind, guardR_eq (by simp only [decide_eq_true_eq]; omega), some_bind,
        e1, some_bind, some_bind, l3, some_bind, l2, some_bind, e2, some_bind,
        some_bind, bitOps_append, bitOps_append, bitOps_append, addHuffmanBits_eq, addHuffmanBits_eq, addBits_eq, addBits_eq]
      rfl
    · unfold itemCost
      rw [hs]
      unfold llCost dCost
      rw [if_neg (by omega), l6]
      simp only [dSym, Option.map_some, Option.getD_some, d2, List.length_append, bitsMsb_length, bitsLsb_length]
      simp [g1, g4]
      omega
    · simp only [List.append_assoc]
      unfold readSym
      rw [k1, some_bind]
      dsimp only
      rw [if_neg (by omega), if_neg (by omega), l11, some_bind, l7, some_bind, readNat_lt l8, some_bind]
      dsimp only
      rw [k2, some_bind]
      dsimp only
      rw [d7, some_bind, d3, some_bind, readNat_lt d4, some_bind]
      dsimp only
      show some (some (Sym.copy _ _), _) = _
      rw [show len - v + v = len by omega, show dist - getDistExtraBitsValue dist + getDistExtraBitsValue dist = dist by omega]
      simp only [List.length_append, bitsMsb_length, bitsLsb_length, ← Nat.add_assoc]
      rfl

/-- The items and the end symbol are read back. -/
theorem readSyms_items {ll d lls ds : Array Nat} {rll rd : List Nat} (h1 : Dec ll lls rll) (h2 : Dec d ds rd)
    {h256 : 256 < ll.size} (hne : ll[256] ≠ 0) : ∀ (items : List LitLen), (∀ x ∈ items, x.InRange ∧ Coded ll d x) →
    ∃ bits c, (do let ops ← items.mapM (itemOps lls ll ds d); return ops.flatten : Option (List WOp)) = some (bitOps bits) ∧ lls[256]? = some c ∧
      (bits ++ bitsMsb c ll[256]).length = dataCost ll d items ∧
      ∀ rest pos, readSyms rll rd ⟨(bits ++ bitsMsb c ll[256]) ++ rest, pos⟩
        = some (items.map symOf, ⟨rest, pos + (bits ++ bitsMsb c ll[256]).length⟩)
  | [], _ => by
    obtain ⟨c, e1, k1⟩ := h1.2 _ h256 hne
    refine ⟨[], c, rfl, e1, ?_, fun rest pos => ?_⟩
    · simp [dataCost, bitsMsb_length, h256]
    · rw [List.nil_append, readSyms.eq_1]
      unfold readSym
      rw [k1, some_bind]
      dsimp only
      rw [if_neg (by omega), if_pos rfl, bitsMsb_length]
      rfl
  | x :: items, h => by
    obtain ⟨bits, c, e, ec, elen, hr⟩ := readSyms_items h1 h2 (h256 := h256) hne items fun y hy => h y (by simp [hy])
    obtain ⟨b1, f1, f2, f3⟩ := itemOps_spec h1 h2 (h x (by simp)).1 (h x (by simp)).2
    refine ⟨b1 ++ bits, c, ?_, ec, ?_, fun rest pos => ?_⟩
    · rw [List.mapM_cons, f1, some_bind]
      cases hm : items.mapM (itemOps lls ll ds d) with
      | none => rw [hm] at e; cases e
      | some r =>
        rw [hm, some_bind] at e
        rw [some_bind, bitOps_append, ← Option.some.inj e]
        rfl
    · rw [List.append_assoc, List.length_append, elen, f2]
      simp only [dataCost, List.map_cons, List.sum_cons]
      omega
    · rw [readSyms.eq_1]
      simp only [List.append_assoc]
      rw [f3, some_bind]
      dsimp only
      have := hr rest (pos + b1.length)
      rw [List.append_assoc] at this
      rw [this, some_bind]
      show some (_, _) = _
      simp only [List.map_cons, List.length_append, Nat.add_assoc]

/-- `add_lz77_data` and the end symbol. -/
theorem addBlockData_spec {lz77 : Lz77Store} (hr : ∀ x ∈ lz77.litlens.toList, x.InRange) {lstart lend : Nat} (hle : lstart ≤ lend)
    (hlend : lend ≤ lz77.size) {ll d : Array Nat} {rll rd : List Nat} (h1 : CodeOk ll 15) (h2 : CodeOk d 15)
    (hrll : ∃ k, ll.toList = rll ++ List.replicate k 0) (hrd : ∃ k, d.toList = rd ++ List.replicate k 0)
    (h256 : ∃ h : 256 < ll.size, ll[256] ≠ 0) (hc : ∀ x ∈ (lz77.litlens.toList.take lend).drop lstart, Coded ll d x) :
    ∃ bits, addBlockData lz77 lstart lend ll d = some (bitOps bits) ∧
      bits.length = dataCost ll d ((lz77.litlens.toList.take lend).drop lstart) ∧
      ∀ rest pos, readSyms rll rd ⟨bits ++ rest, pos⟩
        = some (((lz77.litlens.toList.take lend).drop lstart).map symOf, ⟨rest, pos + bits.length⟩) := by
  obtain ⟨lls, e1, g1⟩ := dec_of h1 hrll
  obtain ⟨ds, e2, g2⟩ := dec_of h2 hrd
  obtain ⟨h256, hne⟩ := h256
  obtain ⟨bits, c, e3, e4, e5, e6⟩ := readSyms_items g1 g2 (h256 := h256) hne ((lz77.litlens.toList.take lend).drop lstart) fun x hx =>
    ⟨hr x (List.mem_of_mem_take (List.mem_of_mem_drop hx)), hc x hx⟩
  refine ⟨bits ++ bitsMsb c ll[256], ?_, e5, e6⟩
  have hx : (lz77.litlens.extract lstart lend).toList = (lz77.litlens.toList.take lend).drop lstart := by
    rw [Array.toList_extract, List.extract_eq_take_drop, List.take_drop]
    congr 2
    omega
  unfold addBlockData
  rw [e1, some_bind, e2, some_bind]
  unfold addLz77Data
  rw [slice_eq hle hlend, some_bind, hx, e3, some_bind, e4, some_bind, Array.getElem?_eq_getElem h256, some_bind, addHuffmanBits_eq, bitOps_append]
  rfl

/-! ## Expanding -/

theorem extract_zero_push {data : Array UInt8} {a : Nat} (h : a < data.size) : (data.extract 0 a).push data[a] = data.extract 0 (a + 1) := by
  simp [Array.push_extract_getElem h]

theorem copyBytes_spec {data : Array UInt8} (H : Array UInt8) {dist : Nat} (h1 : 1 ≤ dist) : ∀ (n a : Nat), dist ≤ a → a + n ≤ data.size →
    (∀ k, k < n → data[a + k]? = data[a - dist + k]?) → copyBytes dist n (H ++ data.extract 0 a) = some (H ++ data.extract 0 (a + n))
  | 0, a, _, _, _ => rfl
  | n + 1, a, h2, h3, h4 => by
    have hs : (H ++ data.extract 0 a).size = H.size + a := by
      rw [Array.size_append, Array.size_extract, Nat.min_eq_left (by omega)]; omega
    rw [copyBytes]
    rw [if_neg (by rw [hs]; omega)]
    have hk := h4 0 (by omega)
    rw [Nat.add_zero, Nat.add_zero] at hk
    have hb : (H ++ data.extract 0 a)[(H ++ data.extract 0 a).size - dist]? = some data[a] := by
      rw [hs, Array.getElem?_append_right (by omega), Array.getElem?_extract, if_pos (by omega),
        show 0 + (H.size + a - dist - H.size) = a - dist by omega, ← hk]
      exact Array.getElem?_eq_getElem (by omega)
    rw [hb]
    show copyBytes dist n ((H ++ data.extract 0 a).push data[a]) = _
    rw [← Array.append_push, extract_zero_push (by omega), copyBytes_spec H h1 n (a + 1) (by omega) (by omega) (by
      intro k hk
      have := h4 (k + 1) (by omega)
      rw [show a + 1 + k = a + (k + 1) by omega, show a + 1 - dist + k = a - dist + (k + 1) by omega]
      exact this)]
    rw [show a + 1 + n = a + (n + 1) by omega]

theorem expandSyms_spec {data : Array UInt8} (H : Array UInt8) : ∀ (xs : List LitLen) (a b : Nat), Parses data a xs b →
    expandSyms (H ++ data.extract 0 a) (xs.map symOf) = some (H ++ data.extract 0 b)
  | [], a, b, h => by cases h; rfl
  | x :: xs, a, b, h => by
    have ih := expandSyms_spec H xs _ b h.2
    have h1 := h.1
    rw [List.map_cons, expandSyms]
    have e : expandSym (H ++ data.extract 0 a) (symOf x) = some (H ++ data.extract 0 (a + x.size)) := by
      cases x with
      | literal v =>
        obtain ⟨u, hu, rfl⟩ := h1
        obtain ⟨hlt, rfl⟩ := Array.getElem?_eq_some_iff.mp hu
        show some ((H ++ data.extract 0 a).push (UInt8.ofNat data[a].toNat)) = _
        rw [UInt8.ofNat_toNat, ← Array.append_push, extract_zero_push hlt]
        rfl
      | lengthDist len dist =>
        obtain ⟨k1, k2, k3, k4, k5, k6, k7⟩ := h1
        show (if 32768 < dist then none else copyBytes dist len (H ++ data.extract 0 a)) = _
        rw [if_neg (by omega)]
        exact copyBytes_spec H k3 len a k5 k6 k7
    rw [e, some_bind]
    exact ih

end Zopfli
