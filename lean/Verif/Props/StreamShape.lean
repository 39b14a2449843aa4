import Mathlib.Tactic.Ring
import Mathlib.Tactic.Linarith
import Mathlib.Tactic.Positivity
import Mathlib.Tactic.FieldSimp
import Verif.Props.RoundTrip
import Verif.Spec.Shape
/-!
# C06, C07, C08: the shape of every stream
-/

namespace Rfc

theorem kraft15_rat : ∀ (lens : List Nat), (∀ l ∈ lens, l ≤ 15) → (kraft15 lens : Rat) = 2 ^ 15 * kraftSum lens
  | [], _ => by simp [kraft15, kraftSum]
  | l :: lens, h => by
    have ih := kraft15_rat lens fun x hx => h x (by simp [hx])
    have e1 : kraft15 (l :: lens) = (if l = 0 then 0 else 2 ^ (15 - l)) + kraft15 lens := by simp [kraft15]
    have e2 : kraftSum (l :: lens) = (if l = 0 then 0 else (1 / 2 : Rat) ^ l) + kraftSum lens := by simp [kraftSum]
    rw [e1, e2]
    push_cast
    rw [ih]
    by_cases hl : l = 0
    · simp [hl]
    · rw [if_neg hl, if_neg hl]
      have hle := h l (by simp)
      have : (2 : Rat) ^ (15 - l) = 2 ^ 15 * (1 / 2) ^ l := by
        rw [show (15 : Nat) = (15 - l) + l by omega, pow_add, Nat.add_sub_cancel, mul_assoc, ← mul_pow]
        norm_num
      rw [this]
      ring

theorem kraftSum_eq_one {limit : Nat} (hlim : limit ≤ 15) {lens : List Nat} (h : completeCode limit lens = true) :
    kraftSum lens = 1 ∧ ∀ l ∈ lens, l ≤ limit := by
  simp only [completeCode, Bool.and_eq_true, List.all_eq_true, beq_iff_eq, decide_eq_true_eq] at h
  refine ⟨?_, h.1⟩
  have := kraft15_rat lens fun l hl => (h.1 l hl).trans hlim
  rw [h.2] at this
  push_cast at this
  have h2 : (2 : Rat) ^ 15 ≠ 0 := by positivity
  exact (mul_left_cancel₀ h2 (by rw [mul_one]; exact this)).symm

theorem kraftSum_le : ∀ (lens : List Nat), kraftSum lens ≤ usedSymbols lens / 2
  | [] => by simp [kraftSum, usedSymbols]
  | l :: lens => by
    have ih := kraftSum_le lens
    have e2 : kraftSum (l :: lens) = (if l = 0 then 0 else (1 / 2 : Rat) ^ l) + kraftSum lens := by simp [kraftSum]
    rw [e2]
    by_cases hl : l = 0
    · simpa [hl, usedSymbols] using ih
    · have e3 : usedSymbols (l :: lens) = usedSymbols lens + 1 := by simp [usedSymbols, hl]
      rw [if_neg hl, e3]
      push_cast
      have : (1 / 2 : Rat) ^ l ≤ 1 / 2 := pow_le_of_le_one (by norm_num) (by norm_num) hl
      linarith

theorem usedSymbols_ge {lens : List Nat} (h : kraftSum lens = 1) : 2 ≤ usedSymbols lens := by
  have := kraftSum_le lens
  rw [h] at this
  have h2 : (2 : Rat) ≤ usedSymbols lens := by linarith
  exact_mod_cast h2

/-- What the strict parser guarantees about a dynamic header. -/
theorem readDynHeader_ok {s s' : Bits} {h : DynHeader} (e : readDynHeader s = some (h, s')) :
    h.cl.length = 19 ∧ 257 ≤ h.ll.length ∧ h.ll.length ≤ 286 ∧ h.d.length ≤ 30 ∧
    completeCode 7 h.cl = true ∧ completeCode 15 h.ll = true ∧ completeCode 15 h.d = true ∧ h.ll[256]? ≠ some 0 := by
  unfold readDynHeader at e
  simp only [Option.bind_eq_bind, Option.bind_eq_some_iff] at e
  obtain ⟨⟨hlit, s1⟩, -, ⟨hdist, s2⟩, -, ⟨hclen, s3⟩, -, e⟩ := e
  dsimp only at e
  split at e
  · cases e
  rename_i hle
  simp only [Option.bind_eq_some_iff] at e
  obtain ⟨⟨vals, s4⟩, -, e⟩ := e
  dsimp only at e
  split at e
  · cases e
  rename_i hcl
  simp only [Option.bind_eq_some_iff] at e
  obtain ⟨⟨lens, s5⟩, hl, e⟩ := e
  dsimp only at e
  split at e
  · cases e
  rename_i hc
  injection e with e
  injection e with e e'
  subst e
  have hlen : lens.length = hlit + 257 + (hdist + 1) := by
    have key := readLens.partial_correctness (cl := clLens vals) (total := hlit + 257 + (hdist + 1))
      (motive := fun _ _ r => r.1.length = hlit + 257 + (hdist + 1)) (by
        intro f ih acc s r hr
        split at hr
        · injection hr with hr; rw [← hr]; assumption
        split at hr
        · cases hr
        simp only [Option.bind_eq_bind, Option.bind_eq_some_iff] at hr
        obtain ⟨⟨v, s1⟩, -, hr⟩ := hr
        dsimp only at hr
        split at hr
        · exact ih _ _ _ hr
        split at hr
        · simp only [Option.bind_eq_some_iff] at hr
          obtain ⟨prev, -, ⟨r', s2⟩, -, hr⟩ := hr
          exact ih _ _ _ hr
        split at hr <;>
        · simp only [Option.bind_eq_some_iff] at hr
          obtain ⟨⟨r', s2⟩, -, hr⟩ := hr
          exact ih _ _ _ hr)
    exact key _ _ _ hl
  simp only [not_or, Bool.not_eq_true, Bool.not_eq_false] at hc hcl hle
  refine ⟨by simp [clLens], ?_, ?_, ?_, by simpa using hcl, by simpa using hc.1, by simpa using hc.2.1, hc.2.2⟩
  · rw [List.length_take]; omega
  · rw [List.length_take]; omega
  · rw [List.length_drop]; omega

theorem readBlock_dynamic {s s' : Bits} {f : Bool} {h : DynHeader} {syms : List Sym} (e : readBlock s = some (⟨f, .dynamic h syms⟩, s')) :
    ∃ s1 s2, readDynHeader s1 = some (h, s2) := by
  unfold readBlock at e
  simp only [Option.bind_eq_bind, Option.bind_eq_some_iff] at e
  obtain ⟨⟨final, s1⟩, -, ⟨bt, s2⟩, -, e⟩ := e
  dsimp only at e
  split at e
  · simp only [Option.bind_eq_some_iff] at e
    obtain ⟨s3, -, ⟨len, s4⟩, -, ⟨nlen, s5⟩, -, e⟩ := e
    dsimp only at e
    split at e
    · cases e
    simp only [Option.pure_def, Option.bind_eq_some_iff] at e
    obtain ⟨⟨data, s6⟩, -, e⟩ := e
    simp at e
  split at e
  · simp only [Option.bind_eq_some_iff] at e
    obtain ⟨⟨data, s6⟩, -, e⟩ := e
    simp at e
  split at e
  · simp only [Option.bind_eq_some_iff] at e
    obtain ⟨⟨h', s6⟩, hh, ⟨syms', s7⟩, -, e⟩ := e
    simp at e
    obtain ⟨⟨-, rfl, -⟩, -⟩ := e
    exact ⟨_, _, hh⟩
  · cases e

/-! ## Output grows, and copies copy -/

theorem copyBytes_ok {dist : Nat} : ∀ {n : Nat} {out out' : Array UInt8}, copyBytes dist n out = some out' →
    (∃ l, out'.toList = out.toList ++ l) ∧ out'.size = out.size + n ∧ (0 < n → dist ≤ out.size) ∧
    ∀ i < n, out'[out.size + i]? = out'[out.size + i - dist]?
  | 0, out, out', h => by
    rw [copyBytes] at h
    cases h
    exact ⟨⟨[], by simp⟩, rfl, by simp, by simp⟩
  | n + 1, out, out', h => by
    rw [copyBytes] at h
    split at h
    · cases h
    rename_i hd
    rw [not_or] at hd
    simp only [Option.pure_def, Option.bind_eq_bind, Option.bind_some, Option.bind_eq_some_iff] at h
    obtain ⟨b, hb, h⟩ := h
    obtain ⟨⟨l, h1⟩, h2, h3, h4⟩ := copyBytes_ok h
    rw [Array.size_push] at h2 h4
    refine ⟨⟨b :: l, by rw [h1]; simp⟩, by omega, fun _ => by omega, ?_⟩
    intro i hi
    cases i with
    | succ i =>
      have := h4 i (by omega)
      rw [show out.size + (i + 1) = out.size + 1 + i by omega]
      exact this
    | zero =>
      have e1 : out'.toList[out.size]? = some b := by
        rw [h1, Array.toList_push, List.append_assoc, List.getElem?_append_right (by simp)]
        simp
      have e2 : out'.toList[out.size - dist]? = some b := by
        rw [h1, Array.toList_push, List.append_assoc, List.getElem?_append_left (by rw [Array.length_toList]; omega), Array.getElem?_toList, hb]
      rw [Nat.add_zero, ← Array.getElem?_toList, ← Array.getElem?_toList, e1, e2]

theorem expandSym_ext {out out' : Array UInt8} {x : Sym} (h : expandSym out x = some out') : ∃ l, out'.toList = out.toList ++ l := by
  cases x with
  | lit b => cases h; exact ⟨[b], by simp⟩
  | copy len dist =>
    rw [expandSym] at h
    split at h
    · cases h
    exact (copyBytes_ok h).1

theorem expandSyms_ext : ∀ {l : List Sym} {out out' : Array UInt8}, expandSyms out l = some out' → ∃ t, out'.toList = out.toList ++ t
  | [], out, out', h => by cases h; exact ⟨[], by simp⟩
  | x :: l, out, out', h => by
    rw [expandSyms, Option.bind_eq_bind, Option.bind_eq_some_iff] at h
    obtain ⟨o, h1, h2⟩ := h
    obtain ⟨a, ha⟩ := expandSym_ext h1
    obtain ⟨b, hb⟩ := expandSyms_ext h2
    exact ⟨a ++ b, by rw [hb, ha, List.append_assoc]⟩

theorem expandBlock_ext {b : Block} {out out' : Array UInt8} (h : expandBlock out b = some out') : ∃ t, out'.toList = out.toList ++ t := by
  unfold expandBlock at h
  split at h
  · rename_i d _; cases h; exact ⟨d, by simp⟩
  · exact expandSyms_ext h
  · exact expandSyms_ext h

theorem expand_ext : ∀ {l : List Block} {out out' : Array UInt8}, expand out l = some out' → ∃ t, out'.toList = out.toList ++ t
  | [], out, out', h => by cases h; exact ⟨[], by simp⟩
  | x :: l, out, out', h => by
    rw [expand, Option.bind_eq_bind, Option.bind_eq_some_iff] at h
    obtain ⟨o, h1, h2⟩ := h
    obtain ⟨a, ha⟩ := expandBlock_ext h1
    obtain ⟨b, hb⟩ := expand_ext h2
    exact ⟨a ++ b, by rw [hb, ha, List.append_assoc]⟩

theorem expandSyms_append : ∀ (a b : List Sym) (out : Array UInt8), expandSyms out (a ++ b) = (expandSyms out a).bind fun o => expandSyms o b
  | [], b, out => rfl
  | x :: a, b, out => by
    rw [List.cons_append, expandSyms, expandSyms]
    cases expandSym out x with
    | none => rfl
    | some o => simp only [Option.bind_eq_bind, Option.bind_some]; rw [expandSyms_append a b o]

theorem expandBlock_syms {b : Block} {out : Array UInt8} (h : b.syms ≠ []) : expandBlock out b = expandSyms out b.syms := by
  obtain ⟨f, body⟩ := b
  cases body with
  | stored d => exact absurd rfl h
  | fixed l => rfl
  | dynamic hd l => rfl

/-- Every back-reference of a stream that expands to `data` repeats the bytes of `data` at its place. -/
theorem copy_true {blocks bs bs' : List Block} {b : Block} {p q : List Sym} {len dist : Nat} {data : List UInt8}
    (h : expand #[] blocks = some data.toArray) (hb : blocks = bs ++ b :: bs') (hs : b.syms = p ++ .copy len dist :: q) (hlen : 0 < len) :
    ∃ A B, expand #[] bs = some A ∧ expandSyms A p = some B ∧ B.toList = data.take B.size ∧ dist ≤ B.size ∧ B.size + len ≤ data.length ∧
      ∀ i < len, data[B.size + i]? = data[B.size + i - dist]? := by
  rw [hb, Zopfli.expand_append, Option.bind_eq_some_iff] at h
  obtain ⟨A, hA, h⟩ := h
  rw [expand, Option.bind_eq_bind, Option.bind_eq_some_iff] at h
  obtain ⟨C, hC, h⟩ := h
  rw [expandBlock_syms (by rw [hs]; simp), hs, expandSyms_append, Option.bind_eq_some_iff] at hC
  obtain ⟨B, hB, hC⟩ := hC
  rw [expandSyms, Option.bind_eq_bind, Option.bind_eq_some_iff] at hC
  obtain ⟨D, hD, hC⟩ := hC
  rw [expandSym] at hD
  split at hD
  · cases hD
  obtain ⟨⟨l1, e1⟩, e2, e3, e4⟩ := copyBytes_ok hD
  obtain ⟨l2, e5⟩ := expandSyms_ext hC
  obtain ⟨l3, e6⟩ := expand_ext h
  rw [List.toList_toArray] at e6
  have e7 : data = D.toList ++ (l2 ++ l3) := by rw [e6, e5, List.append_assoc]
  have e8 := congrArg List.length e7
  rw [List.length_append, Array.length_toList (xs := D), e2] at e8
  refine ⟨A, B, hA, hB, ?_, e3 hlen, by omega, ?_⟩
  · rw [e7, e1, List.append_assoc, List.take_left' (by simp)]
  · intro i hi
    rw [e7, List.getElem?_append_left (by rw [Array.length_toList]; omega), List.getElem?_append_left (by rw [Array.length_toList]; omega),
      Array.getElem?_toList, Array.getElem?_toList]
    exact e4 i hi

end Rfc

namespace Zopfli

variable {log2 : Fp → Fp} {σ : Type} {S : Sink σ} {I : σ → Prop} {log : σ → List UInt8} {patience : σ → Nat}

theorem header_size (fmt : Format) : (header fmt).length = fmt.headerSize := by cases fmt <;> rfl
theorem trailer_size (fmt : Format) (data : List UInt8) : (trailer fmt data).flatten.length = fmt.trailerSize := by cases fmt <;> rfl

/-- Every session writes a header, a valid DEFLATE stream and a trailer. -/
theorem session_body (hlog : Log2Ok log2) (o : Options) (bt : BlockType) (fmt : Format) (writes : List (List UInt8)) (hfit : Fits writes) :
    ∃ stream body blocks, IsBody fmt stream body ∧ ValidStream body blocks writes.flatten ∧
      ∀ {σ : Type} {S : Sink σ} {I : σ → Prop} {log : σ → List UInt8} {patience : σ → Nat}, Reliable S I log patience →
      ∀ (calls : List Call) (ending : Ending) (s : σ), writesOf calls = writes → I s →
        ∃ s', session ⟨ieee log2, S, o, bt⟩ fmt calls ending s = some (.ok (), s') ∧ log s' = log s ++ stream := by
  obtain ⟨stream, body, blocks, h1, h2, h3⟩ := streamOf_exists (ieeeLaws hlog) o bt fmt writes hfit
  refine ⟨stream, body, blocks, ⟨_, _, h2, header_size fmt, trailer_size fmt _⟩, h3, ?_⟩
  intro σ S I log patience hS calls ending s hw hs
  subst hw
  obtain ⟨s', g1, g2, g3⟩ := session_reliable ⟨ieee log2, S, o, bt⟩ hS fmt calls ending hs h1
  exact ⟨s', g1, g2⟩

theorem Reads.each {s s' : Rfc.Bits} {blocks : List Rfc.Block} (h : Reads s blocks s') : ∀ b ∈ blocks, ∃ s1 s2, Rfc.readBlock s1 = some (b, s2) := by
  induction h with
  | nil s => simp
  | cons e _ ih =>
    intro x hx
    rw [List.mem_cons] at hx
    rcases hx with rfl | hx
    · exact ⟨_, _, e⟩
    · exact ih x hx

/-- **C06** Every dynamic block of every stream declares at most 286 literal/length codes and 30 distance codes, codes
the end-of-block symbol, and its three Huffman codes are complete (Kraft sum exactly one), use at least two symbols, and
have lengths at most 7, 15 and 15. -/
theorem C06_strict_decoders (hlog : Log2Ok log2) (hS : Reliable S I log patience) (o : Options) (bt : BlockType) (fmt : Format) (calls : List Call)
    (ending : Ending) (hfit : Fits (writesOf calls)) (s : σ) (hs : I s) :
    ∃ s' stream body blocks, session ⟨ieee log2, S, o, bt⟩ fmt calls ending s = some (.ok (), s') ∧ log s' = log s ++ stream ∧
      IsBody fmt stream body ∧ Rfc.parse body = some (blocks, []) ∧
      ∀ b ∈ blocks, ∀ h syms, b.body = .dynamic h syms →
        h.cl.length = 19 ∧ 257 ≤ h.ll.length ∧ h.ll.length ≤ 286 ∧ 1 ≤ h.d.length ∧ h.d.length ≤ 30 ∧
        (∃ l, h.ll[256]? = some l ∧ 1 ≤ l) ∧
        (∀ l ∈ h.cl, l ≤ 7) ∧ (∀ l ∈ h.ll, l ≤ 15) ∧ (∀ l ∈ h.d, l ≤ 15) ∧
        Rfc.kraftSum h.cl = 1 ∧ Rfc.kraftSum h.ll = 1 ∧ Rfc.kraftSum h.d = 1 ∧
        2 ≤ Rfc.usedSymbols h.cl ∧ 2 ≤ Rfc.usedSymbols h.ll ∧ 2 ≤ Rfc.usedSymbols h.d := by
  obtain ⟨stream, body, blocks, h1, h2, h3⟩ := session_body hlog o bt fmt (writesOf calls) hfit
  obtain ⟨s', g1, g2⟩ := h3 hS calls ending s rfl hs
  refine ⟨s', stream, body, blocks, g1, g2, h1, by simpa using h2.parse [], ?_⟩
  intro b hb h syms e
  obtain ⟨bits, pad, -, -, hr⟩ := h2.reads
  obtain ⟨s1, s2, hrb⟩ := (hr []).each b hb
  obtain ⟨f, bd⟩ := b
  dsimp only at e
  subst e
  obtain ⟨s3, s4, hd⟩ := Rfc.readBlock_dynamic hrb
  obtain ⟨a1, a2, a3, a4, a5, a6, a7, a8⟩ := Rfc.readDynHeader_ok hd
  obtain ⟨b1, b2⟩ := Rfc.kraftSum_eq_one (by decide) a5
  obtain ⟨c1, c2⟩ := Rfc.kraftSum_eq_one (by decide) a6
  obtain ⟨d1, d2⟩ := Rfc.kraftSum_eq_one (by decide) a7
  have u3 := Rfc.usedSymbols_ge d1
  refine ⟨a1, a2, a3, ?_, a4, ?_, b2, c2, d2, b1, c1, d1, Rfc.usedSymbols_ge b1, Rfc.usedSymbols_ge c1, u3⟩
  · have : Rfc.usedSymbols h.d ≤ h.d.length := List.length_filter_le _ _
    omega
  · have e : h.ll[256]? = some (h.ll[256]'(by omega)) := List.getElem?_eq_getElem _
    refine ⟨_, e, ?_⟩
    rw [e] at a8
    rw [Nat.one_le_iff_ne_zero]
    intro h0
    exact a8 (congrArg some h0)

/-- **C07** A stream's DEFLATE body consists of blocks of which exactly the last has the final flag; reading them
consumes all the bits but fewer than eight, which are zero; no byte follows. -/
theorem C07_final_block (hlog : Log2Ok log2) (hS : Reliable S I log patience) (o : Options) (bt : BlockType) (fmt : Format) (calls : List Call)
    (ending : Ending) (hfit : Fits (writesOf calls)) (s : σ) (hs : I s) :
    ∃ s' stream body init last, session ⟨ieee log2, S, o, bt⟩ fmt calls ending s = some (.ok (), s') ∧ log s' = log s ++ stream ∧
      IsBody fmt stream body ∧ Rfc.parse body = some (init ++ [last], []) ∧
      last.final = true ∧ (∀ b ∈ init, b.final = false) ∧
      ∃ bits pad, Rfc.bytesBits body = bits ++ List.replicate pad false ∧ pad < 8 ∧
        Rfc.readBlocks ⟨bits, 0⟩ = some (init ++ [last], ⟨[], bits.length⟩) := by
  obtain ⟨stream, body, blocks, h1, h2, h3⟩ := session_body hlog o bt fmt (writesOf calls) hfit
  obtain ⟨s', g1, g2⟩ := h3 hS calls ending s rfl hs
  obtain ⟨init, last, e, hl, hi⟩ := h2.fin
  obtain ⟨bits, pad, hb, hp, hr⟩ := h2.reads
  refine ⟨s', stream, body, init, last, g1, g2, h1, by rw [← e]; simpa using h2.parse [], hl, hi, bits, pad, hb, hp, ?_⟩
  have := readBlocks_of (hr []) h2.fin
  rwa [List.append_nil, e] at this

/-- **C08** Wherever a stream contains a back-reference, after blocks `bs` and the symbols `p` of its own block, the
decoder has produced a prefix `out` of the data, the length is from 3 to 258, the distance from 1 to 32767 and no more
than what has been produced, and the data has at this place the bytes found `dist` positions earlier. -/
theorem C08_back_references (hlog : Log2Ok log2) (hS : Reliable S I log patience) (o : Options) (bt : BlockType) (fmt : Format) (calls : List Call)
    (ending : Ending) (hfit : Fits (writesOf calls)) (s : σ) (hs : I s) :
    ∃ s' stream body blocks, session ⟨ieee log2, S, o, bt⟩ fmt calls ending s = some (.ok (), s') ∧ log s' = log s ++ stream ∧
      IsBody fmt stream body ∧ Rfc.parse body = some (blocks, []) ∧
      ∀ bs b bs' p len dist q, blocks = bs ++ b :: bs' → b.syms = p ++ .copy len dist :: q →
        3 ≤ len ∧ len ≤ 258 ∧ 1 ≤ dist ∧ dist ≤ 32767 ∧
        ∃ start out, Rfc.expand #[] bs = some start ∧ Rfc.expandSyms start p = some out ∧
          out.toList = (writesOf calls).flatten.take out.size ∧ dist ≤ out.size ∧ out.size + len ≤ (writesOf calls).flatten.length ∧
          ∀ i < len, (writesOf calls).flatten[out.size + i]? = (writesOf calls).flatten[out.size + i - dist]? := by
  obtain ⟨stream, body, blocks, h1, h2, h3⟩ := session_body hlog o bt fmt (writesOf calls) hfit
  obtain ⟨s', g1, g2⟩ := h3 hS calls ending s rfl hs
  refine ⟨s', stream, body, blocks, g1, g2, h1, by simpa using h2.parse [], ?_⟩
  intro bs b bs' p len dist q hb hq
  have hrefs := h2.refs b (by rw [hb]; simp) len dist (by
    have : blockSyms b = b.syms := rfl
    rw [this, hq]; simp)
  obtain ⟨A, B, k⟩ := Rfc.copy_true h2.exp hb hq (by omega)
  exact ⟨hrefs.1, hrefs.2.1, hrefs.2.2.1, hrefs.2.2.2, A, B, k⟩

/-! ## The hypotheses are met -/

/-- A session: five calls, ended by dropping the encoder, on a sink that stutters. -/
def exampleCalls : List Call := [.write [1, 2, 3, 1, 2, 3], .flush, .write [], .flush, .write [2, 3, 1, 2, 3, 1]]

theorem exampleCalls_fit : Fits (writesOf exampleCalls) := by
  intro w hw
  simp [exampleCalls, writesOf] at hw
  rcases hw with rfl | rfl | rfl <;> decide

example : ∃ s' stream body blocks, session ⟨ieee floorLog2, stutterSink, Options.default, .dynamic⟩ .zlib exampleCalls .drop ([9], 1) = some (.ok (), s') ∧
    s'.1 = [9] ++ stream ∧ IsBody .zlib stream body ∧ Rfc.parse body = some (blocks, []) ∧
    ∀ b ∈ blocks, ∀ h syms, b.body = .dynamic h syms → Rfc.kraftSum h.d = 1 := by
  obtain ⟨s', st, bd, bl, h1, h2, h3, h4, h5⟩ := C06_strict_decoders floorLog2_ok stutterSink_reliable Options.default .dynamic .zlib exampleCalls .drop
    exampleCalls_fit ([9], 1) trivial
  exact ⟨s', st, bd, bl, h1, h2, h3, h4, fun b hb h syms e => (h5 b hb h syms e).2.2.2.2.2.2.2.2.2.2.2.1⟩

example := C07_final_block floorLog2_ok stutterSink_reliable Options.default .fixed .gzip exampleCalls .finish exampleCalls_fit ([9], 1) trivial
example := C08_back_references floorLog2_ok stutterSink_reliable Options.default .fixed .gzip exampleCalls .finish exampleCalls_fit ([9], 1) trivial

/-- A complete code, and an incomplete one, for the definition of completeness. -/
example : Rfc.kraftSum [2, 1, 0, 2] = 1 ∧ Rfc.kraftSum [2, 2, 2] ≠ 1 ∧ Rfc.usedSymbols [2, 1, 0, 2] = 3 := by
  simp only [Rfc.kraftSum, Rfc.usedSymbols]
  norm_num

end Zopfli
