import Verif.Props.FixedStream
import Verif.Spec.Periodic
/-!
# C61: periodic data
-/

namespace Zopfli
open Rfc

variable {F : FloatOps} {log2 : Fp → Fp}

/-- What the parser finds costs no more than any other parse. -/
theorem fixed_leastParse (R : NatFloat F) (L : FloatLaws F) {w : List UInt8} {s : Lz77Store} {lmc : Cache}
    (es : lz77OptimalFixed F (.lmc (.new (w.length - 0))) w.toArray 0 w.length Lz77Store.new = some (s, lmc))
    (hn : 9 * w.length < 2 ^ 24) (hp : ∀ pos, pos < w.length → Plain w.toArray pos) :
    ∀ xs : List LitLen, Parses w.toArray 0 xs w.length → (s.litlens.toList.map fcost).sum ≤ (xs.map fcost).sum := by
  have e0 : w.toArray.extract 0 w.length = w.toArray := by simp
  obtain ⟨O, hO⟩ := oracle_exists (w.toArray.extract 0 w.length) (0 - 32768)
  obtain ⟨s2, ⟨-, hopt⟩, g⟩ := fixedRun_optimal R L hO (Nat.zero_le _) (by simp) hn fun pos _ b => by rw [e0]; exact hp pos b
  have hc := cacheInv_new (w.toArray.extract 0 w.length) O 0
  rw [show (w.toArray.extract 0 w.length).size = w.length by simp] at hc
  obtain ⟨lmc2, -, e2⟩ := g _ hc
  unfold lz77OptimalFixed at es
  dsimp only at e2
  rw [es] at e2
  cases e2
  rwa [e0] at hopt

theorem runLength_get {data : Array UInt8} {pos n : Nat} (hpos : pos < data.size) (h : runLength data pos = n) {i : Nat} (hi : i < n) :
    pos + i < data.size ∧ data[pos + i]? = data[pos]? := by
  have := (run_iff i hpos).mpr (by omega)
  exact ⟨this.1, this.2 i (Nat.le_refl _)⟩

theorem Periodic.from {p : Nat} {w : List UInt8} (h : Periodic p w) : RepeatsFrom p p w := by
  intro i h1 h2
  have := h (i - p) (by omega)
  rwa [show p + (i - p) = i by omega] at this

theorem repeats_noRun {a p : Nat} {w : List UInt8} (h : RepeatsFrom a p w) (h1 : 1 ≤ p) {n : Nat} (hn : p ≤ n) {pos : Nat} (h0 : 0 < pos)
    (ha : a < pos + p) (hw : pos < w.length) : ¬ StartsRun w.toArray pos n := by
  rintro ⟨h2, h3⟩
  refine h3 ⟨h0, ?_⟩
  obtain ⟨b1, b⟩ := runLength_get (by simpa using hw) h2 (i := p - 1) (by omega)
  have := h (pos + (p - 1)) (by omega) (by simpa using b1)
  rw [show pos + (p - 1) - p = pos - 1 by omega] at this
  simp only [List.getElem?_toArray] at b ⊢
  rw [← this, b]

theorem repeats_sharing {a p : Nat} {w : List UInt8} (h : RepeatsFrom a p w) (h1 : 1 ≤ p) {pos : Nat} (ha : a ≤ pos) (hp : p ≤ pos)
    (hr : ¬ StartsRun w.toArray pos 257 ∧ ¬ StartsRun w.toArray pos 258) : sharing w.toArray pos ≤ p := by
  have hs : ((Finset.range pos).filter fun q => pos ≤ q + 32767 ∧ Competes w.toArray pos q) ⊆ Finset.Ico (pos - p) pos := by
    intro q hq
    rw [Finset.mem_filter, Finset.mem_range] at hq
    rw [Finset.mem_Ico]
    refine ⟨?_, hq.1⟩
    by_contra hlt
    obtain ⟨-, hc⟩ := hq.2.2
    rcases hc with hc | hc | ⟨hc, -⟩
    · exact hr.1 hc
    · exact hr.2 hc
    · refine hc (pos - p) (by omega) (by omega) fun k _ hk => ?_
      have := h (pos + k) (by omega) (by simpa using hk)
      rw [show pos + k - p = pos - p + k by omega] at this
      simpa only [List.getElem?_toArray] using this
  have := Finset.card_le_card hs
  rw [Nat.card_Ico] at this
  unfold sharing
  omega

theorem periodic_plain {p : Nat} {w : List UInt8} (h : Periodic p w) (h1 : 1 ≤ p) (h2 : p ≤ 8192)
    (hrun : 257 < p → ∀ pos, 0 < pos → ¬ StartsRun w.toArray pos 257 ∧ ¬ StartsRun w.toArray pos 258) (pos : Nat) (hw : pos < w.length) :
    Plain w.toArray pos := by
  have hr : 0 < pos → ¬ StartsRun w.toArray pos 257 ∧ ¬ StartsRun w.toArray pos 258 := by
    intro h0
    by_cases hp : p ≤ 257
    · exact ⟨repeats_noRun h.from h1 hp h0 (by omega) hw, repeats_noRun h.from h1 (by omega) h0 (by omega) hw⟩
    · exact hrun (by omega) pos h0
  refine ⟨?_, fun h0 => (hr h0).1, fun h0 => (hr h0).2⟩
  by_cases hp : pos < p
  · exact Nat.le_trans (C37_sharing_le _ _) (by omega)
  · exact Nat.le_trans (repeats_sharing h.from h1 (by omega) (by omega) (hr (by omega))) h2

/-- The bytes from `a` on as literals. -/
def literals (w : List UInt8) (a n : Nat) : List LitLen := ((w.drop a).take n).map fun b => .literal b.toNat

theorem literals_parses {w : List UInt8} : ∀ (n a : Nat), a + n ≤ w.length → Parses w.toArray a (literals w a n) (a + n)
  | 0, a, h => by simp [literals, Parses]
  | n + 1, a, h => by
    have ha : a < w.length := by omega
    have ih := literals_parses (w := w) n (a + 1) (by omega)
    rw [show a + 1 + n = a + (n + 1) by omega] at ih
    have e : literals w a (n + 1) = .literal (w[a]).toNat :: literals w (a + 1) n := by
      unfold literals
      rw [List.drop_eq_getElem_cons ha, List.take_succ_cons, List.map_cons]
    rw [e]
    refine ⟨⟨w[a], ?_, rfl⟩, ih⟩
    simp

theorem literals_cost (w : List UInt8) (a n : Nat) : ((literals w a n).map fcost).sum ≤ 9 * n := by
  unfold literals
  have : ∀ l : List UInt8, ((l.map fun b => LitLen.literal b.toNat).map fcost).sum ≤ 9 * l.length := by
    intro l
    induction l with
    | nil => simp
    | cons b l ih =>
      simp only [List.map_cons, List.sum_cons, List.length_cons]
      have : fcost (.literal b.toNat) ≤ 9 := by rw [fcost]; split <;> omega
      omega
  refine Nat.le_trans (this _) ?_
  simp only [List.length_take]
  omega

/-- Copies of 258 bytes at distance `p`, then the rest. -/
def copies (p : Nat) (w : List UInt8) : Nat → Nat → List LitLen
  | 0, a => if 3 ≤ w.length - a then [.lengthDist (w.length - a) p] else literals w a (w.length - a)
  | m + 1, a => .lengthDist 258 p :: copies p w m (a + 258)

theorem periodic_item {b p : Nat} {w : List UInt8} (h : RepeatsFrom b p w) (h1 : 1 ≤ p) (h2 : p ≤ 8192) {a len : Nat} (hb : b ≤ a) (ha : p ≤ a) (h3 : 3 ≤ len) (h4 : len ≤ 258)
    (h5 : a + len ≤ w.length) : ItemOk w.toArray a (.lengthDist len p) := by
  refine ⟨h3, h4, h1, by omega, ha, by simpa using h5, fun k hk => ?_⟩
  have := h (a + k) (by omega) (by omega)
  rw [show a + k - p = a - p + k by omega] at this
  simpa only [List.getElem?_toArray] using this

theorem copies_parses {b p : Nat} {w : List UInt8} (h : RepeatsFrom b p w) (h1 : 1 ≤ p) (h2 : p ≤ 8192) : ∀ (m a : Nat), b ≤ a → p ≤ a → a + 258 * m ≤ w.length →
    w.length < a + 258 * m + 258 → Parses w.toArray a (copies p w m a) w.length
  | 0, a, hb, ha, hl, hu => by
    unfold copies
    split
    · exact ⟨periodic_item h h1 h2 hb ha (by assumption) (by omega) (by omega), by simp only [Parses, LitLen.size]; omega⟩
    · have := literals_parses (w := w) (w.length - a) a (by omega)
      rwa [show a + (w.length - a) = w.length by omega] at this
  | m + 1, a, hb, ha, hl, hu => by
    have ih := copies_parses h h1 h2 m (a + 258) (by omega) (by omega) (by omega) (by omega)
    have h6 : ∀ v : Nat, v = 258 → ItemOk w.toArray a (.lengthDist v p) :=
      fun v hv => periodic_item h h1 h2 hb ha (by omega) (by omega) (by omega)
    have hi := h6 258 rfl
    rw [copies]
    rw [Parses]
    exact ⟨hi, by rw [LitLen.size]; exact ih⟩

theorem distExtra_le {p e : Nat} (h : p ≤ 2 ^ (e + 2)) : getDistExtraBits p ≤ e := by
  unfold getDistExtraBits
  split
  · omega
  · have : Nat.log2 (p - 1) < e + 2 := (Nat.log2_lt (by omega)).mpr (by omega)
    omega

theorem copy258_cost {p e : Nat} (h : p ≤ 2 ^ (e + 2)) : fcost (.lengthDist 258 p) ≤ 13 + e := by
  have := distExtra_le h
  have h2 : (if (getLengthSymbol 258).getD 0 > 279 then 1 else 0) = 1 ∧ (getLengthExtraBits 258).getD 0 = 0 := by decide +kernel
  rw [fcost, h2.1, h2.2]
  omega

theorem copy_cost {p e len : Nat} (h : p ≤ 2 ^ (e + 2)) (hl : len ≤ 258) : fcost (.lengthDist len p) ≤ 18 + e := by
  have := distExtra_le h
  obtain ⟨b, h1, h2⟩ := lengthExtraBits_total hl
  rw [fcost, h1, Option.getD_some]
  split <;> omega

theorem copies_cost {p e : Nat} {w : List UInt8} (h : p ≤ 2 ^ (e + 2)) : ∀ (m a : Nat), w.length < a + 258 * m + 258 →
    ((copies p w m a).map fcost).sum ≤ (13 + e) * m + (18 + e)
  | 0, a, hu => by
    unfold copies
    split
    · simp only [List.map_cons, List.map_nil, List.sum_cons, List.sum_nil]
      have := copy_cost h (len := w.length - a) (by omega)
      omega
    · have := literals_cost w a (w.length - a)
      omega
  | m + 1, a, hu => by
    unfold copies
    rw [List.map_cons, List.sum_cons]
    have h1 := copies_cost (w := w) h m (a + 258) (by omega)
    have h2 := copy258_cost h
    rw [Nat.mul_succ]
    omega

/-- **C61** Periodic data compress well: in fixed mode, bytes with a period of at most 8192 (and fewer than 1.8 million of them) written in one
call take at most 9 bits for each byte of the first period, and for every 258 bytes after it 13 bits and the extra bits of one distance,
and a few bits more. -/
theorem C61_periodic (hlog : Log2Ok log2) (o : Options) (w : List UInt8) (p e : Nat) (h : Periodic p w) (h1 : 1 ≤ p) (h2 : p ≤ w.length)
    (he : p ≤ 2 ^ (e + 2)) (he' : e ≤ 11) (hw : 9 * w.length < 2 ^ 24)
    (hrun : 257 < p → ∀ pos, 0 < pos → ¬ StartsRun w.toArray pos 257 ∧ ¬ StartsRun w.toArray pos 258) :
    ∃ body, (∀ (fmt : Format) (σ : Type) (S : Sink σ) (I : σ → Prop) (log : σ → List UInt8) (patience : σ → Nat), Reliable S I log patience →
      ∀ (calls : List Call) (ending : Ending) (s : σ), writesOf calls = [w] → I s →
        ∃ s', session ⟨ieee log2, S, o, .fixed⟩ fmt calls ending s = some (.ok (), s') ∧ log s' = log s ++ framed body w fmt) ∧
      inflate body = some w ∧
      8 * body.length ≤ 10 + 9 * p + (13 + e) * ((w.length - p) / 258) + (18 + e) + 7 := by
  have hp : p ≤ 8192 := Nat.le_trans he (Nat.pow_le_pow_right (by omega) (by omega : e + 2 ≤ 13))
  obtain ⟨body, g1, g2, g3⟩ := single_sessions hlog o .fixed w (by omega)
  refine ⟨body, g3, g2, ?_⟩
  obtain ⟨⟨fs, lmc⟩, ef, hf⟩ := lz77OptimalFixed_new (F := ieee log2) (data := w.toArray) (ieeeLaws hlog) (Nat.zero_le _) (show w.length ≤ w.toArray.size by simp)
  dsimp only at hf
  have hfr := hf.rangeOk (Nat.zero_le _) (Nat.le_refl fs.size)
  rw [bytePos_zero, hf.bytePos_size] at hfr
  obtain ⟨fbits, efb, hlen, -⟩ := addLz77Block_fixed hfr true
  have hpar := (literals_parses (w := w) p 0 (by omega)).append (by
    rw [Nat.zero_add]
    exact copies_parses h.from h1 hp ((w.length - p) / 258) p (Nat.le_refl _) (Nat.le_refl _) (by omega) (by omega))
  have hc := fixed_leastParse (ieeeNat log2) (ieeeLaws hlog) ef hw (periodic_plain h h1 hp hrun) _ hpar
  have c1 := literals_cost w 0 p
  have c2 := copies_cost (w := w) he ((w.length - p) / 258) p (by omega)
  rw [List.map_append, List.sum_append] at hc
  rw [fixedBits hf.inv.range] at hlen
  rw [single_body g1 (ops := bitOps fbits) (by
    unfold deflatePart
    dsimp only
    rw [usub_eq (Nat.zero_le _), some_bind, ef, some_bind]
    exact efb) (render_bitOps _ _)]
  omega

/-! ## C62: repeated buffers -/

/-- Where the bytes repeat those at a distance of at most 8192, matches can be searched for without giving up. -/
theorem repeats_searchable {a p : Nat} {w : List UInt8} (h : RepeatsFrom a p w) (h1 : 1 ≤ p) (h2 : p ≤ 8192) (hpa : p ≤ a)
    (hrun : 257 < p → ∀ pos, a ≤ pos → ¬ StartsRun w.toArray pos 257 ∧ ¬ StartsRun w.toArray pos 258) (pos : Nat) (ha : a ≤ pos)
    (hw : pos < w.length) : Searchable w.toArray pos := by
  have hr : ¬ StartsRun w.toArray pos 257 ∧ ¬ StartsRun w.toArray pos 258 := by
    by_cases hp : p ≤ 257
    · exact ⟨repeats_noRun h h1 hp (by omega) (by omega) hw, repeats_noRun h h1 (by omega) (by omega) (by omega) hw⟩
    · exact hrun (by omega) pos ha
  exact ⟨Nat.le_trans (repeats_sharing h h1 ha (by omega) hr) h2, hr.1, hr.2⟩

theorem fixed_repeats (R : NatFloat F) (L : FloatLaws F) (o : Options) :
    Guarantees F L.lim o .fixed fun before chunk pieces => ∃ p, pieces = [p] ∧ p.data = chunk ∧ Decodes before pieces ∧
      CheapRepeat before chunk p.bits := by
  intro data instart inend final h1 h2 hsz
  unfold deflatePart
  dsimp only
  rw [usub_eq h1, some_bind]
  obtain ⟨⟨s, lmc⟩, es, hs⟩ := lz77OptimalFixed_new (F := F) L h1 h2
  rw [es, some_bind]
  dsimp only at hs ⊢
  have hr := hs.rangeOk (Nat.zero_le _) (Nat.le_refl s.size)
  rw [bytePos_zero, hs.bytePos_size] at hr
  obtain ⟨bits, e, hlen, he⟩ := addLz77Block_fixed hr final
  refine ⟨_, e, fun pos => ?_⟩
  obtain ⟨bits', pieces, k1, k2, k3, k4, k5, k6, k7⟩ := PiecesOf.one (Q := fun p => p.data = (data.extract instart inend).toList ∧
    p.bits = bits.length) h1 he (fun pos bits' hb => ⟨rfl, by rw [render_bitOps_eq hb]⟩) pos
  obtain ⟨p, rfl⟩ := List.length_eq_one_iff.mp k3
  obtain ⟨q1, q3⟩ := k7 p (by simp)
  refine ⟨bits', [p], k1, k2, k6, fun H hH => ⟨p, rfl, q1, k5 H, ?_⟩⟩
  intro d e d1 d2 d3 d4 hn hrep hrun
  have hcl : (data.extract instart inend).toList.length = inend - instart := by simp; omega
  have hd : d ≤ 8192 := Nat.le_trans d3 (Nat.pow_le_pow_right (by omega) (by omega : e + 2 ≤ 13))
  have hp := repeats_searchable hrep d1 hd d2 hrun
  have hll : ((H ++ (data.extract 0 instart).toList) ++ (data.extract instart inend).toList).length
      = (H ++ (data.extract 0 instart).toList).length + (inend - instart) := by rw [List.length_append, hcl]
  rw [hcl] at hn ⊢
  rw [q3, hlen, fixedBits hs.inv.range]
  have hpar := copies_parses hrep d1 hd ((inend - instart) / 258) _ (Nat.le_refl _) d2 (by omega) (by omega)
  have hc := fixed_leastParses R L h1 h2 es hH hn hp _ hpar
  have hc2 := copies_cost (w := (H ++ (data.extract 0 instart).toList) ++ (data.extract instart inend).toList) d3 ((inend - instart) / 258)
    (H ++ (data.extract 0 instart).toList).length (by omega)
  omega

/-- **C62** In fixed mode a chunk that repeats the bytes at a distance `d` of at most 8192, whether these are in the same write, in the one
before or further back, takes at most 13 bits and the extra bits `e` of one distance for every 258 bytes, and `28 + e` bits more. -/
theorem C62_cheap_repeats {σ : Type} {S : Sink σ} {I : σ → Prop} {log : σ → List UInt8} {patience : σ → Nat} (hlog : Log2Ok log2)
    (hS : Reliable S I log patience) (o : Options) (fmt : Format) (calls : List Call)
    (ending : Ending) (hfit : Fits (writesOf calls)) (s : σ) (hs : I s) :
    ∃ s' stream body groups pad, session ⟨ieee log2, S, o, .fixed⟩ fmt calls ending s = some (.ok (), s') ∧ log s' = log s ++ stream ∧
      IsBody fmt stream body ∧ Rfc.parse body = some (groups.flatten.flatMap (·.blocks), []) ∧
      pad < 8 ∧ Layout ⟨bytesBits body, 0⟩ groups.flatten ⟨List.replicate pad false, 8 * body.length - pad⟩ ∧
      EachChunk (fun before chunk pieces => ∃ p, pieces = [p] ∧ p.data = chunk ∧ Decodes before pieces ∧ CheapRepeat before chunk p.bits)
        [] (chunksOfWrites (writesOf calls)) groups :=
  session_pieces o .fixed (fixed_repeats (ieeeNat log2) (ieeeLaws hlog) o) hS fmt calls ending hfit s hs

/-- A buffer that is written again after others: the bytes at the distance of its first occurrence. -/
theorem repeatsFrom_again (x w y : List UInt8) : RepeatsFrom (x ++ w ++ y).length (w ++ y).length (x ++ w ++ y ++ w) := by
  intro i h1 h2
  simp only [List.length_append] at h1 h2
  have e1 : (x ++ w ++ y ++ w)[i]? = w[i - (x ++ w ++ y).length]? := List.getElem?_append_right (by simp only [List.length_append]; omega)
  have e2 : (x ++ w ++ y ++ w)[i - (w ++ y).length]? = w[i - (w ++ y).length - x.length]? := by
    rw [List.append_assoc, List.append_assoc, List.getElem?_append_right (by simp only [List.length_append]; omega),
      List.getElem?_append_left (by simp only [List.length_append]; omega)]
  rw [e1, e2]
  simp only [List.length_append]
  congr 1
  omega

/-- **C62** The same buffer written twice in fixed mode: the second time it takes at most 24 bits for every 258 bytes, and 39 bits. -/
theorem C62_written_twice {σ : Type} {S : Sink σ} {I : σ → Prop} {log : σ → List UInt8} {patience : σ → Nat} (hlog : Log2Ok log2)
    (hS : Reliable S I log patience) (o : Options) (fmt : Format) (calls : List Call) (ending : Ending) (w : List UInt8)
    (hw : writesOf calls = [w, w]) (h1 : w ≠ []) (h2 : w.length ≤ 8192)
    (hrun : 257 < w.length → ∀ pos, w.length ≤ pos → ¬ StartsRun (w ++ w).toArray pos 257 ∧ ¬ StartsRun (w ++ w).toArray pos 258)
    (s : σ) (hs : I s) :
    ∃ (s' : σ) (stream body : List UInt8) (p q : Piece) (pad : Nat), session ⟨ieee log2, S, o, .fixed⟩ fmt calls ending s = some (.ok (), s') ∧ log s' = log s ++ stream ∧
      IsBody fmt stream body ∧ Rfc.parse body = some (p.blocks ++ q.blocks, []) ∧ p.data = w ∧ q.data = w ∧
      p.bits + q.bits = 8 * body.length - pad ∧ pad < 8 ∧ q.bits ≤ 39 + 24 * (w.length / 258) := by
  have hfit : Fits (writesOf calls) := by
    rw [hw]
    intro x hx
    have : x = w := by simpa using hx
    rw [this]
    omega
  obtain ⟨s', stream, body, groups, pad, g1, g2, g3, g4, g5, g6, g7⟩ := C62_cheap_repeats hlog hS o fmt calls ending hfit s hs
  rw [hw] at g7
  have hg : ∃ p q, groups = [[p], [q]] ∧ p.data = w ∧ q.data = w ∧ CheapRepeat ([] ++ w) w q.bits := by
    unfold chunksOfWrites at g7
    cases groups with
    | nil => exact absurd g7 (by simp [EachChunk])
    | cons a l =>
      cases l with
      | nil => exact absurd g7.2 (by simp [EachChunk])
      | cons b l =>
        obtain ⟨⟨p, e1, p1, -, -⟩, ⟨q, e2, q1, -, hq⟩, h⟩ := g7
        cases l with
        | nil => exact ⟨p, q, by rw [e1, e2], p1, q1, hq⟩
        | cons c l => exact absurd h (by simp [EachChunk])
  obtain ⟨p, q, rfl, p1, q1, hq⟩ := hg
  rw [List.nil_append] at hq
  have hpos : 1 ≤ w.length := by
    cases w with
    | nil => exact absurd rfl h1
    | cons x l => simp
  have hrep : RepeatsFrom w.length w.length (w ++ w) := by
    have := repeatsFrom_again [] w []
    simpa using this
  have := hq w.length 11 hpos (Nat.le_refl _) (by omega) (Nat.le_refl _) (by omega) hrep hrun
  refine ⟨s', stream, body, p, q, pad, g1, g2, g3, by simpa using g4, p1, q1, ?_, g5, by omega⟩
  have := g6.total
  simp at this
  omega

theorem periodic_replicate (b : UInt8) (n : Nat) : Periodic 1 (List.replicate n b) := by
  intro i hi
  rw [List.length_replicate] at hi
  rw [List.getElem?_replicate, List.getElem?_replicate, if_pos hi, if_pos (by omega)]

/-- **C61** `n` equal bytes: 13 bits for every 258 of them, and 44 bits. -/
theorem C61_constant (hlog : Log2Ok log2) (o : Options) (b : UInt8) (n : Nat) (h1 : 1 ≤ n) (hw : 9 * n < 2 ^ 24) :
    ∃ body, (∀ (fmt : Format) (σ : Type) (S : Sink σ) (I : σ → Prop) (log : σ → List UInt8) (patience : σ → Nat), Reliable S I log patience →
      ∀ (calls : List Call) (ending : Ending) (s : σ), writesOf calls = [List.replicate n b] → I s →
        ∃ s', session ⟨ieee log2, S, o, .fixed⟩ fmt calls ending s = some (.ok (), s') ∧ log s' = log s ++ framed body (List.replicate n b) fmt) ∧
      inflate body = some (List.replicate n b) ∧
      8 * body.length ≤ 44 + 13 * ((n - 1) / 258) := by
  obtain ⟨body, g1, g2, g3⟩ := C61_periodic hlog o (List.replicate n b) 1 0 (periodic_replicate b n) (Nat.le_refl _)
    (by rw [List.length_replicate]; exact h1) (by decide) (by decide) (by rw [List.length_replicate]; exact hw) (fun h => absurd h (by decide))
  rw [List.length_replicate] at g3
  exact ⟨body, g1, g2, by omega⟩

/-- A million zero bytes written in one call to a gzip encoder: at most 6304 bytes of DEFLATE data. -/
example (hlog : Log2Ok log2) (o : Options) :
    ∃ body, inflate body = some (List.replicate 1000000 0) ∧ body.length ≤ 6304 := by
  obtain ⟨body, -, g2, g3⟩ := C61_constant hlog o 0 1000000 (by decide) (by decide)
  exact ⟨body, g2, by omega⟩

theorem noRun_alternating {w : List UInt8} (h : ∀ k, k + 1 < w.length → w[k]? ≠ w[k + 1]?) {n : Nat} (hn : 2 ≤ n) (pos : Nat) :
    ¬ StartsRun w.toArray pos n := by
  rintro ⟨h1, -⟩
  by_cases hp : pos < w.length
  · obtain ⟨a, b⟩ := runLength_get (by simpa using hp) h1 (i := 1) (by omega)
    refine h pos (by simpa using a) ?_
    simp only [List.getElem?_toArray] at b
    exact b.symm
  · unfold runLength at h1
    rw [List.drop_eq_nil_of_le (by simp; omega)] at h1
    simp at h1
    omega

/-- A buffer of 300 bytes that meets the hypotheses of `C62_written_twice`: no two neighbouring bytes are equal. -/
example : ∃ w : List UInt8, w.length = 300 ∧ w ≠ [] ∧
    ∀ pos, w.length ≤ pos → ¬ StartsRun (w ++ w).toArray pos 257 ∧ ¬ StartsRun (w ++ w).toArray pos 258 := by
  have h : ∀ k, k + 1 < ((List.replicate 150 [1, 2]).flatten ++ (List.replicate 150 [1, 2]).flatten : List UInt8).length →
      ((List.replicate 150 [1, 2]).flatten ++ (List.replicate 150 [1, 2]).flatten : List UInt8)[k]? ≠
      ((List.replicate 150 [1, 2]).flatten ++ (List.replicate 150 [1, 2]).flatten : List UInt8)[k + 1]? := by
    have hl : ((List.replicate 150 [1, 2]).flatten ++ (List.replicate 150 [1, 2]).flatten : List UInt8).length = 600 := by decide +kernel
    rw [hl]
    intro k hk
    have := (by decide +kernel : ∀ k < 599, ((List.replicate 150 [1, 2]).flatten ++ (List.replicate 150 [1, 2]).flatten : List UInt8)[k]? ≠
      ((List.replicate 150 [1, 2]).flatten ++ (List.replicate 150 [1, 2]).flatten : List UInt8)[k + 1]?)
    exact this k (by omega)
  exact ⟨(List.replicate 150 [1, 2]).flatten, by decide +kernel, by decide +kernel, fun pos _ =>
    ⟨noRun_alternating h (by decide) pos, noRun_alternating h (by decide) pos⟩⟩

/-- `abcabcabcab` has period 3, `abcab` has not period 2. -/
example : Periodic 3 [97, 98, 99, 97, 98, 99, 97, 98, 99, 97, 98] ∧ ¬ Periodic 2 [97, 98, 99, 97, 98] := by
  refine ⟨fun i hi => ?_, fun h => absurd (h 0 (by decide)) (by decide)⟩
  have : i < 8 := by simp at hi; omega
  revert hi
  revert this
  revert i
  decide

end Zopfli
