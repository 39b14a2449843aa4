import Verif.Props.ShortWrites
import Verif.Props.Periodic
/-!
# C72: repeats in short writes, in dynamic mode
-/

namespace Zopfli
open Rfc

variable {F : FloatOps}

/-- What is claimed of a piece: two bits more than in fixed mode. -/
def CheapPiece (before : List UInt8) (p : Piece) : Prop := CheapRepeat before p.data (p.bits - 2)

theorem autoType_cheap (R : NatFloat F) (L : FloatLaws F) (X : FloatExact F) {data : Array UInt8} {start stop : Nat} {s : Lz77Store}
    (h : StoreOk data start stop s) (hstop : stop ≤ data.size) (hsh : stop - start < 1000) {k l : Nat} (hkl : k ≤ l) (hl : l ≤ s.size) (final : Bool) :
    Ret (addLz77BlockAutoType F final data s k l) fun ops => NearPieces CheapPiece 1 start data (bytePos start s k) (bytePos start s l) final ops := by
  refine Ret.mono (autoType_ok L X h hstop hkl hl final) ?_
  rintro ops ⟨blocks, ho⟩ pos
  have hle := (h.rangeOk hkl hl).parses.le
  have hle2 := bytePos_le h hl
  have hge : start ≤ bytePos start s k := by unfold bytePos; omega
  obtain ⟨bits, pieces, k1, k2, k3, k4, k5, k6, k7⟩ := PiecesOf.one (Q := fun p => p = ⟨(data.extract (bytePos start s k) (bytePos start s l)).toList, blocks, p.bits⟩ ∧
    ∃ pos bits, render pos ops = some bits ∧ p.bits = bits.length) hle ho.emits
    (fun pos bits hb => ⟨rfl, pos, bits, hb, rfl⟩) pos
  obtain ⟨p, rfl⟩ := List.length_eq_one_iff.mp k3
  obtain ⟨q1, pos', bits', hb', q2⟩ := k7 p (by simp)
  refine ⟨bits, [p], k1, k2, k4, k5, k6, rfl, fun H hH => ⟨?_, trivial⟩⟩
  have hd : p.data = (data.extract (bytePos start s k) (bytePos start s l)).toList := by rw [q1]
  unfold CheapPiece
  rw [hd]
  intro d e d1 d2 d3 d4 hn hrep hrun
  rcases Nat.eq_or_lt_of_le hkl with rfl | hlt
  · have : p.bits = 10 := by
      rw [ho.empty rfl] at hb'
      rw [q2, render_bitOps_eq hb']
      rfl
    omega
  · obtain ⟨⟨fs, lmc⟩, ef, hf⟩ := lz77OptimalFixed_new (F := F) (data := data) L hle (by omega)
    dsimp only at hf
    have hfr := hf.rangeOk (Nat.zero_le _) (Nat.le_refl fs.size)
    rw [bytePos_zero, hf.bytePos_size] at hfr
    obtain ⟨fbits, efb, hlen, -⟩ := addLz77Block_fixed hfr final
    have hcl : (data.extract (bytePos start s k) (bytePos start s l)).toList.length = bytePos start s l - bytePos start s k := by simp; omega
    have hd8 : d ≤ 8192 := Nat.le_trans d3 (Nat.pow_le_pow_right (by omega) (by omega : e + 2 ≤ 13))
    have hp := repeats_searchable hrep d1 hd8 d2 hrun
    have hll : ((H ++ (data.extract 0 (bytePos start s k)).toList) ++ (data.extract (bytePos start s k) (bytePos start s l)).toList).length
        = (H ++ (data.extract 0 (bytePos start s k)).toList).length + (bytePos start s l - bytePos start s k) := by rw [List.length_append, hcl]
    rw [hcl] at hn ⊢
    have hpar := copies_parses hrep d1 hd8 ((bytePos start s l - bytePos start s k) / 258) _ (Nat.le_refl _) d2 (by omega) (by omega)
    have hc := fixed_leastParses R L hle (by omega) ef (H := H) (fun hne => Nat.le_trans (hH hne) hge) hn hp _ hpar
    have hc2 := copies_cost (w := (H ++ (data.extract 0 (bytePos start s k)).toList) ++ (data.extract (bytePos start s k) (bytePos start s l)).toList) d3
      ((bytePos start s l - bytePos start s k) / 258) (H ++ (data.extract 0 (bytePos start s k)).toList).length (by omega)
    have hsize : s.size ≤ stop - start := h.size_le
    have := ho.fixed (by omega) hlt (by omega) fs lmc ef _ efb pos' bits' fbits hb' (render_bitOps _ _)
    rw [hlen, fixedBits hf.inv.range] at this
    omega

theorem runLength_prefix {a b : List UInt8} {pos : Nat} (h : pos < a.length) : runLength a.toArray pos ≤ runLength (a ++ b).toArray pos := by
  rcases Nat.eq_zero_or_pos (runLength a.toArray pos) with h0 | h0
  · omega
  · have h1 := (run_iff (data := a.toArray) (q := pos) (runLength a.toArray pos - 1) (by simpa using h)).mpr (by omega)
    have h2 : Run (a ++ b).toArray pos (runLength a.toArray pos - 1) := by
      have h3 := h1.1
      rw [List.size_toArray] at h3
      refine ⟨by rw [List.size_toArray, List.length_append]; omega, fun i hi => ?_⟩
      have := h1.2 i hi
      rw [List.getElem?_toArray, List.getElem?_toArray] at this ⊢
      rw [List.getElem?_append_left (by omega), List.getElem?_append_left (by omega)]
      exact this
    have := (run_iff (data := (a ++ b).toArray) (q := pos) (runLength a.toArray pos - 1) (by simp; omega)).mp h2
    omega

theorem runLength_zero {a : List UInt8} {pos : Nat} (h : a.length ≤ pos) : runLength a.toArray pos = 0 := by
  unfold runLength
  rw [List.drop_eq_nil_of_le (by simpa using h)]
  rfl

theorem cheap_sum {d e : Nat} (d1 : 1 ≤ d) (d3 : d ≤ 2 ^ (e + 2)) (d4 : e ≤ 11) : ∀ (pieces : List Piece) (before : List UInt8),
    EachPiece CheapPiece before pieces → (pieces.map (·.data)).flatten.length < 1000 → d ≤ before.length →
    RepeatsFrom before.length d (before ++ (pieces.map (·.data)).flatten) →
    (257 < d → ∀ pos, before.length ≤ pos → runLength (before ++ (pieces.map (·.data)).flatten).toArray pos < 257) →
    (pieces.map (·.bits)).sum ≤ (13 + e) * ((pieces.map (·.data)).flatten.length / 258) + pieces.length * (30 + e)
  | [], _, _, _, _, _, _ => by simp
  | p :: l, before, h, hn, d2, hrep, hrun => by
    simp only [List.map_cons, List.flatten_cons, List.length_append, List.sum_cons, List.length_cons] at hn hrep hrun ⊢
    have e1 : before ++ (p.data ++ (l.map (·.data)).flatten) = before ++ p.data ++ (l.map (·.data)).flatten := by rw [List.append_assoc]
    rw [e1] at hrep hrun
    have h1 := h.1 d e d1 d2 d3 d4 (by omega) (by
      intro i a b
      have := hrep i a (by rw [List.length_append]; omega)
      rw [List.getElem?_append_left (l₁ := before ++ p.data) b, List.getElem?_append_left (l₁ := before ++ p.data) (by omega)] at this
      exact this) (by
      intro hd pos hpos
      have hlt : runLength (before ++ p.data).toArray pos < 257 := by
        by_cases hp : pos < (before ++ p.data).length
        · exact Nat.lt_of_le_of_lt (runLength_prefix hp) (hrun hd pos hpos)
        · rw [runLength_zero (by omega)]; omega
      exact ⟨fun h => by have := h.1; omega, fun h => by have := h.1; omega⟩)
    have h2 := cheap_sum d1 d3 d4 l (before ++ p.data) h.2 (by omega) (by rw [List.length_append]; omega)
      (fun i a b => hrep i (by rw [List.length_append] at a; omega) b)
      (fun hd pos hpos => hrun hd pos (by rw [List.length_append] at hpos; omega))
    have h3 : p.data.length / 258 + (l.map (·.data)).flatten.length / 258 ≤ (p.data.length + (l.map (·.data)).flatten.length) / 258 := by omega
    have h4 := Nat.mul_le_mul_left (13 + e) h3
    rw [Nat.mul_add] at h4
    rw [Nat.add_mul l.length 1, Nat.one_mul]
    generalize (13 + e) * (p.data.length / 258) = x at *
    generalize (13 + e) * ((l.map (·.data)).flatten.length / 258) = y at *
    generalize (13 + e) * ((p.data.length + (l.map (·.data)).flatten.length) / 258) = z at *
    generalize l.length * (30 + e) = v at *
    omega

/-- Dynamic mode: short chunks that repeat what is before are cheap. -/
theorem dynamic_cheap (R : NatFloat F) (L : FloatLaws F) (X : FloatExact F) (o : Options) :
    Guarantees F L.lim o .dynamic fun before chunk pieces => (pieces.map (·.data)).flatten = chunk ∧ Decodes before pieces ∧
      pieces.length ≤ max 1 o.maximumBlockSplits ∧
      (chunk.length < 1000 → CheapRepeats (max 1 o.maximumBlockSplits) before chunk (pieces.map (·.bits)).sum) := by
  intro data instart inend final h1 h2 hsz
  by_cases hsh : inend - instart < 1000
  · refine Ret.mono (dynamic_each L o final h1 h2 hsz fun s hs k l hkl hl final => autoType_cheap R L X hs h2 hsh hkl hl final) fun ops ho pos => ?_
    obtain ⟨n, n1, n2, ho⟩ := ho
    obtain ⟨bits, pieces, k1, k2, k3, k4, k5, k6, k7⟩ := ho pos
    refine ⟨bits, pieces, k1, k2, k5, fun H hH => ⟨k3, k4 H, by omega, fun hlt d e d1 d2 d3 d4 hrep hrun => ?_⟩⟩
    rw [← k3] at hlt hrep hrun ⊢
    have h4 := cheap_sum d1 d3 d4 pieces _ (k7 H hH) hlt d2 hrep hrun
    have h5 := Nat.mul_le_mul_right (30 + e) n2
    rw [k6] at h4
    omega
  · refine Ret.mono (dynamic_guarantees L X o data instart inend final h1 h2 hsz) fun ops ho pos => ?_
    obtain ⟨bits, pieces, k1, k2, k3, k4⟩ := ho pos
    refine ⟨bits, pieces, k1, k2, k3, fun H hH => ⟨(k4 H hH).1.data, (k4 H hH).1.decodes, (k4 H hH).1.limit, fun hlt => ?_⟩⟩
    simp at hlt
    omega

variable {σ : Type} {S : Sink σ} {I : σ → Prop} {log : σ → List UInt8} {patience : σ → Nat} {log2 : Fp → Fp}

/-- **C72** In dynamic mode (the default), a write of fewer than 1000 bytes that repeats the bytes at a distance `d` of at most 8192, in the
writes before, takes at most 13 bits and the extra bits `e` of one distance for every 258 bytes, and `30 + e` bits for each of the blocks that
the options allow. -/
theorem C72_cheap_repeats (hlog : Log2Ok log2) (hS : Reliable S I log patience) (o : Options) (fmt : Format) (calls : List Call)
    (ending : Ending) (hfit : Fits (writesOf calls)) (s : σ) (hs : I s) :
    ∃ s' stream body groups pad, session ⟨ieee log2, S, o, .dynamic⟩ fmt calls ending s = some (.ok (), s') ∧ log s' = log s ++ stream ∧
      IsBody fmt stream body ∧ Rfc.parse body = some (groups.flatten.flatMap (·.blocks), []) ∧
      pad < 8 ∧ Layout ⟨bytesBits body, 0⟩ groups.flatten ⟨List.replicate pad false, 8 * body.length - pad⟩ ∧
      EachChunk (fun before chunk pieces => (pieces.map (·.data)).flatten = chunk ∧ Decodes before pieces ∧
          pieces.length ≤ max 1 o.maximumBlockSplits ∧
          (chunk.length < 1000 → CheapRepeats (max 1 o.maximumBlockSplits) before chunk (pieces.map (·.bits)).sum))
        [] (chunksOfWrites (writesOf calls)) groups :=
  session_pieces o .dynamic (dynamic_cheap (ieeeNat log2) (ieeeLaws hlog) (ieee_exact log2) o) hS fmt calls ending hfit s hs

/-- **C72** The same buffer of fewer than 1000 bytes written twice in dynamic mode: the second time it takes at most 22 bits for every 258 bytes
and 39 bits for each of the blocks that the options allow, instead of about 8 bits for each byte. -/
theorem C72_written_twice (hlog : Log2Ok log2) (hS : Reliable S I log patience) (o : Options) (fmt : Format) (calls : List Call) (ending : Ending)
    (w : List UInt8) (hw : writesOf calls = [w, w]) (h1 : w ≠ []) (h2 : w.length < 1000)
    (hrun : 257 < w.length → ∀ pos, runLength (w ++ w).toArray pos < 257) (s : σ) (hs : I s) :
    ∃ (s' : σ) (stream body : List UInt8) (first second : List Piece) (pad : Nat),
      session ⟨ieee log2, S, o, .dynamic⟩ fmt calls ending s = some (.ok (), s') ∧ log s' = log s ++ stream ∧ IsBody fmt stream body ∧
      Rfc.parse body = some ((first ++ second).flatMap (·.blocks), []) ∧
      (first.map (·.data)).flatten = w ∧ (second.map (·.data)).flatten = w ∧
      (first.map (·.bits)).sum + (second.map (·.bits)).sum = 8 * body.length - pad ∧ pad < 8 ∧
      (second.map (·.bits)).sum ≤ 22 * (w.length / 258) + 39 * max 1 o.maximumBlockSplits := by
  have hfit : Fits (writesOf calls) := by
    rw [hw]
    intro x hx
    have : x = w := by simpa using hx
    rw [this]
    omega
  obtain ⟨s', stream, body, groups, pad, g1, g2, g3, g4, g5, g6, g7⟩ := C72_cheap_repeats hlog hS o fmt calls ending hfit s hs
  rw [hw] at g7
  have hg : ∃ a b, groups = [a, b] ∧ (a.map (·.data)).flatten = w ∧ (b.map (·.data)).flatten = w ∧
      CheapRepeats (max 1 o.maximumBlockSplits) ([] ++ w) w (b.map (·.bits)).sum := by
    unfold chunksOfWrites at g7
    cases groups with
    | nil => exact absurd g7 (by simp [EachChunk])
    | cons a l =>
      cases l with
      | nil => exact absurd g7.2 (by simp [EachChunk])
      | cons b l =>
        obtain ⟨⟨p1, -, -, -⟩, ⟨q1, -, -, hq⟩, h⟩ := g7
        cases l with
        | nil => exact ⟨a, b, rfl, p1, q1, hq h2⟩
        | cons c l => exact absurd h (by simp [EachChunk])
  obtain ⟨a, b, rfl, p1, q1, hq⟩ := hg
  rw [List.nil_append] at hq
  have hpos : 1 ≤ w.length := by
    cases w with
    | nil => exact absurd rfl h1
    | cons x l => simp
  have hrep : RepeatsFrom w.length w.length (w ++ w) := by
    have := repeatsFrom_again [] w []
    simpa using this
  have := hq w.length 9 hpos (Nat.le_refl _) (by omega) (by omega) hrep (fun hd pos _ => hrun hd pos)
  refine ⟨s', stream, body, a, b, pad, g1, g2, g3, by simpa using g4, p1, q1, ?_, g5, by omega⟩
  have := g6.total
  simp at this
  omega

/-! ## The hypotheses are met -/

/-- A buffer of 600 bytes. -/
def abc : List UInt8 := (List.replicate 200 [1, 2, 3]).flatten

theorem abc_length : abc.length = 600 := by decide +kernel

theorem abc_next : ∀ k < 1199, (abc ++ abc)[k]? ≠ (abc ++ abc)[k + 1]? := by decide +kernel

/-- 600 bytes, in which no byte is repeated at once, written twice to a gzip encoder with the default options: the second time they take at most
629 bits. -/
example (hlog : Log2Ok log2) : ∃ w : List UInt8, w.length = 600 ∧
    ∃ (s' : List UInt8) (stream body : List UInt8) (first second : List Piece) (pad : Nat),
      session ⟨ieee log2, vecSink, .default, .dynamic⟩ .gzip [.write w, .flush, .write w] .drop [] = some (.ok (), s') ∧ s' = stream ∧ IsBody .gzip stream body ∧
      Rfc.parse body = some ((first ++ second).flatMap (·.blocks), []) ∧ (second.map (·.data)).flatten = w ∧
      (first.map (·.bits)).sum + (second.map (·.bits)).sum = 8 * body.length - pad ∧
      (second.map (·.bits)).sum ≤ 629 := by
  have hl := abc_length
  have h : ∀ k, k + 1 < (abc ++ abc).length → (abc ++ abc)[k]? ≠ (abc ++ abc)[k + 1]? := by
    intro k hk
    rw [List.length_append, hl] at hk
    exact abc_next k (by omega)
  generalize abc = w at hl h
  have hr : ∀ pos, runLength (w ++ w).toArray pos < 257 := by
    intro pos
    by_contra hge
    by_cases hp : pos < (w ++ w).length
    · obtain ⟨a, b⟩ := runLength_get (data := (w ++ w).toArray) (pos := pos) (by simpa using hp) rfl (i := 1) (by omega)
      refine h pos (by simpa using a) ?_
      simp only [List.getElem?_toArray] at b
      exact b.symm
    · rw [runLength_zero (by omega)] at hge
      omega
  obtain ⟨s', stream, body, first, second, pad, g1, g2, g3, g4, -, g5, g6, -, g7⟩ := C72_written_twice hlog vecSink_reliable .default .gzip
    [.write w, .flush, .write w] .drop w rfl (by rintro rfl; simp at hl) (by omega) (fun _ => hr) [] trivial
  refine ⟨w, hl, s', stream, body, first, second, pad, g1, by simpa using g2, g3, g4, g5, g6, ?_⟩
  rw [hl] at g7
  exact Nat.le_trans g7 (by decide)

end Zopfli
