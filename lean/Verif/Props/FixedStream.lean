import Verif.Props.FixedOptimal
import Verif.Props.MoreIterations
import Verif.Proofs.Extend
/-!
# C59: the shortest streams with the fixed codes
-/

namespace Zopfli
open Rfc

variable {F : FloatOps}

theorem copyBytes_size' : ∀ {n dist : Nat} {out out' : Array UInt8}, copyBytes dist n out = some out' → out'.size = out.size + n ∧ (0 < n → dist ≤ out.size)
  | 0, dist, out, out', h => by cases h; simp
  | n + 1, dist, out, out', h => by
    rw [copyBytes] at h
    split at h
    · simp at h
    · rename_i hc
      simp only [Option.bind_eq_bind, Option.bind_eq_some_iff] at h
      obtain ⟨x, -, h⟩ := h
      obtain ⟨h1, -⟩ := copyBytes_size' h
      rw [Array.size_push] at h1
      omega

theorem expandSym_size {out out' : Array UInt8} : ∀ {x : LitLen}, x.InRange → expandSym out (symOf x) = some out' →
    out.size ≤ out'.size ∧ ∀ len dist, symOf x = .copy len dist → dist ≤ out.size
  | .literal b, _, h => by
    cases h
    simp [symOf]
  | .lengthDist l d, hx, h => by
    rw [symOf, expandSym] at h
    split at h
    · cases h
    · obtain ⟨h1, h2⟩ := copyBytes_size' h
      have := hx.1
      refine ⟨by omega, fun len dist e => ?_⟩
      rw [symOf] at e
      cases e
      exact h2 (by omega)

theorem expandSyms_size : ∀ {xs : List LitLen} {out out' : Array UInt8}, (∀ x ∈ xs, x.InRange) → expandSyms out (xs.map symOf) = some out' →
    out.size ≤ out'.size ∧ ∀ len dist, .copy len dist ∈ xs.map symOf → dist ≤ out'.size
  | [], out, out', _, h => by cases h; simp
  | x :: xs, out, out', hr, h => by
    rw [List.map_cons, expandSyms, Option.bind_eq_bind, Option.bind_eq_some_iff] at h
    obtain ⟨o1, e1, e2⟩ := h
    obtain ⟨h1, h2⟩ := expandSym_size (hr x (by simp)) e1
    obtain ⟨h3, h4⟩ := expandSyms_size (fun y hy => hr y (by simp [hy])) e2
    refine ⟨by omega, fun len dist hm => ?_⟩
    rw [List.map_cons, List.mem_cons] at hm
    rcases hm with hm | hm
    · have := h2 len dist hm.symm
      omega
    · exact h4 len dist hm

theorem expandSyms_append : ∀ (a b : List Sym) (out : Array UInt8), expandSyms out (a ++ b) = (expandSyms out a).bind fun o => expandSyms o b
  | [], b, out => rfl
  | x :: a, b, out => by
    rw [List.cons_append, expandSyms, expandSyms]
    cases expandSym out x with
    | none => rfl
    | some o => exact expandSyms_append a b o

/-- What any stream of blocks with the fixed codes costs. -/
theorem readBlocks_cost {s s' : Bits} {blocks : List Block} (h : readBlocks s = some (blocks, s')) : AllFixed blocks →
    ∃ xs : List LitLen, (∀ x ∈ xs, x.InRange) ∧ (∀ out, expand out blocks = expandSyms out (xs.map symOf)) ∧
      s.pos + 3 + (xs.map fcost).sum + 7 ≤ s'.pos := by
  refine readBlocks.partial_correctness (motive := fun s r => AllFixed r.1 →
    ∃ xs : List LitLen, (∀ x ∈ xs, x.InRange) ∧ (∀ out, expand out r.1 = expandSyms out (xs.map symOf)) ∧
      s.pos + 3 + (xs.map fcost).sum + 7 ≤ r.2.pos) ?_ s (blocks, s') h
  intro f ih s r hr hall
  simp only [Option.bind_eq_bind, Option.bind_eq_some_iff, Prod.exists] at hr
  obtain ⟨⟨fin, body⟩, t, h1, h2⟩ := hr
  dsimp only at h2
  split at h2
  · cases h2
    obtain ⟨syms, e⟩ := hall _ (List.mem_singleton.mpr rfl)
    dsimp only at e
    subst e
    obtain ⟨xs, x1, rfl, x3⟩ := readBlock_cost h1
    refine ⟨xs, x1, fun out => ?_, x3⟩
    simp only [expand, expandBlock]
    cases expandSyms out (xs.map symOf) <;> rfl
  · simp only [Option.bind_eq_some_iff, Prod.exists] at h2
    obtain ⟨l, t2, h3, h4⟩ := h2
    cases h4
    obtain ⟨syms, e⟩ := hall _ (List.mem_cons_self ..)
    dsimp only at e
    subst e
    obtain ⟨xs, x1, rfl, x3⟩ := readBlock_cost h1
    obtain ⟨ys, y1, y2, y3⟩ := ih t (l, t2) h3 fun b hb => hall b (List.mem_cons_of_mem _ hb)
    dsimp only at y2 y3 ⊢
    refine ⟨xs ++ ys, fun x hx => ?_, fun out => ?_, ?_⟩
    · rw [List.mem_append] at hx
      exact hx.elim (x1 x) (y1 x)
    · rw [List.map_append, expandSyms_append]
      simp only [expand, expandBlock, y2]
      rfl
    · rw [List.map_append, List.sum_append]
      omega

/-- The length of a stream is at least that of its bits. -/
theorem parse_length {bytes : List UInt8} {blocks : List Block} {rest : List UInt8} (h : parse bytes = some (blocks, rest)) :
    ∃ s', readBlocks ⟨bytesBits bytes, 0⟩ = some (blocks, s') ∧ s'.pos ≤ 8 * bytes.length := by
  unfold parse at h
  simp only [Option.bind_eq_bind, Option.bind_eq_some_iff, Prod.exists] at h
  obtain ⟨b, s', e, h⟩ := h
  cases h
  refine ⟨s', e, ?_⟩
  obtain ⟨used, h1, h2⟩ := (readBlocks_local _ _ _ e).1
  have h1 := congrArg List.length h1
  dsimp only at h1 h2
  rw [bytesBits_length, List.length_append] at h1
  omega

variable {log2 : Fp → Fp}

/-- No stream made of blocks with the fixed codes is shorter than the least cost. -/
theorem fixed_lower (hlog : Log2Ok log2) {w : List UInt8} (hw : w.length ≤ 8192)
    (hrun : ∀ pos, ¬ StartsRun w.toArray pos 257 ∧ ¬ StartsRun w.toArray pos 258) {fs : Lz77Store} {lmc : Cache}
    (es : lz77OptimalFixed (ieee log2) (.lmc (.new (w.length - 0))) w.toArray 0 w.length Lz77Store.new = some (fs, lmc))
    {other : List UInt8} {blocks : List Block} {rest : List UInt8} (h : parse other = some (blocks, rest)) (hall : AllFixed blocks)
    (he : expand #[] blocks = some w.toArray) : 3 + (fs.litlens.toList.map fcost).sum + 7 ≤ 8 * other.length := by
  obtain ⟨s', h1, h2⟩ := parse_length h
  obtain ⟨xs, x1, x2, x3⟩ := readBlocks_cost h1 hall
  rw [x2] at he
  have hsz := (expandSyms_size x1 he).2
  have e0 : (w.toArray.extract 0 0).toList = [] := by simp
  have e1 : (w.toArray.extract 0 w.length).toList = w := by simp
  have := fixed_leastCost (ieeeNat log2) (ieeeLaws hlog) (Nat.zero_le _) (by simp) es (H := []) (fun hh => absurd rfl hh) (by omega) (by
    rw [e0, e1]
    intro pos _ hpos
    simp only [List.nil_append] at hpos ⊢
    exact ⟨Nat.le_trans (C37_sharing_le _ _) (by omega), (hrun pos).1, (hrun pos).2⟩) xs x1 (by
    rw [e0, e1]
    exact he) (fun len dist hm => by
    have := hsz len dist hm
    simp at this
    omega)
  dsimp only at x3
  omega

/-- The sessions of one write. -/
theorem single_sessions (hlog : Log2Ok log2) (o : Options) (bt : BlockType) (w : List UInt8) (hw : w.length < 2 ^ 32) :
    ∃ body, StreamOf (ieee log2) o bt .deflate [w] body ∧ inflate body = some w ∧
      ∀ (fmt : Format) (σ : Type) (S : Sink σ) (I : σ → Prop) (log : σ → List UInt8) (patience : σ → Nat), Reliable S I log patience →
      ∀ (calls : List Call) (ending : Ending) (s : σ), writesOf calls = [w] → I s →
        ∃ s', session ⟨ieee log2, S, o, bt⟩ fmt calls ending s = some (.ok (), s') ∧ log s' = log s ++ framed body w fmt := by
  have hfit : Fits [w] := by
    intro x hx
    rw [List.mem_singleton] at hx
    subst hx
    omega
  obtain ⟨stream, body, blocks, h1, h2, -⟩ := streamOf_exists (ieeeLaws hlog) o bt .deflate [w] hfit
  have hs : stream = body := by rw [h2]; simp [header, trailer]
  subst hs
  refine ⟨stream, h1, by
    have := h1.decode (ieeeLaws hlog) hfit
    rw [show [w].flatten = w by simp] at this
    exact this, ?_⟩
  intro fmt σ S I log patience hS calls ending s hc hI
  have h3 : StreamOf (ieee log2) o bt fmt (writesOf calls) (framed stream w fmt) := by
    rw [hc]
    obtain ⟨cs, c, cs', e1, e2, e3⟩ := h1.core
    refine ⟨cs, c, cs', e1, e2, ?_⟩
    have := framed_eq fmt stream [w].flatten
    rw [show [w].flatten = w by simp] at this
    rw [← this, e3]
    simp [header, trailer]
  obtain ⟨s', g1, g2, -⟩ := session_reliable ⟨ieee log2, S, o, bt⟩ hS fmt calls ending hI h3
  exact ⟨s', g1, g2⟩

/-- **C59** In fixed mode, when at most 8192 bytes are written in one call and no run of exactly 257 or 258 equal bytes is among them, no
DEFLATE stream for the same bytes that uses the fixed codes only, in any number of blocks and with any choice of literals and copies, is
shorter than the one written; in every format. -/
theorem C59_shortest_fixed_stream (hlog : Log2Ok log2) (o : Options) (w : List UInt8) (hw : w.length ≤ 8192)
    (hrun : ∀ pos, ¬ StartsRun w.toArray pos 257 ∧ ¬ StartsRun w.toArray pos 258) :
    ∃ body, (∀ (fmt : Format) (σ : Type) (S : Sink σ) (I : σ → Prop) (log : σ → List UInt8) (patience : σ → Nat), Reliable S I log patience →
      ∀ (calls : List Call) (ending : Ending) (s : σ), writesOf calls = [w] → I s →
        ∃ s', session ⟨ieee log2, S, o, .fixed⟩ fmt calls ending s = some (.ok (), s') ∧ log s' = log s ++ framed body w fmt) ∧
      (∃ blocks, parse body = some (blocks, []) ∧ AllFixed blocks) ∧ inflate body = some w ∧
      ∀ (other rest : List UInt8) (blocks : List Block), parse other = some (blocks, rest) → AllFixed blocks → expand #[] blocks = some w.toArray →
        body.length ≤ other.length := by
  obtain ⟨body, h1, h2, h3⟩ := single_sessions hlog o .fixed w (by omega)
  refine ⟨body, h3, ?_, h2, ?_⟩
  · obtain ⟨stream, body', groups, bits, pad, k1, k2, -, -, -, k6, k7⟩ := streamOf_pieces (ieeeLaws hlog).lim_ge (fixed_guarantees (ieeeLaws hlog) o) .deflate [w] (by
      intro x hx
      rw [List.mem_singleton] at hx
      subst hx
      exact Nat.lt_of_lt_of_le (by omega) (ieeeLaws hlog).lim_ge)
    have hb : body' = body := by
      rw [h1.unique k1, k2]
      simp [header, trailer]
    rw [hb] at k6
    refine ⟨_, k6, ?_⟩
    match groups, k7 with
    | [g], k7 =>
      obtain ⟨⟨p, syms, f, rfl, -, q2, -⟩, -⟩ := k7
      intro b hm
      simp only [List.flatten_cons, List.flatten_nil, List.append_nil, List.flatMap_cons, List.flatMap_nil, q2, List.mem_singleton] at hm
      subst hm
      exact ⟨syms, rfl⟩
    | [], k7 => exact k7.elim
    | _ :: _ :: _, k7 => exact k7.2.elim
  · intro other rest blocks hp hall he
    obtain ⟨⟨fs, lmc⟩, ef, hf⟩ := lz77OptimalFixed_new (F := ieee log2) (data := w.toArray) (ieeeLaws hlog) (Nat.zero_le _) (show w.length ≤ w.toArray.size by simp)
    dsimp only at hf
    have hfr := hf.rangeOk (Nat.zero_le _) (Nat.le_refl fs.size)
    rw [bytePos_zero, hf.bytePos_size] at hfr
    obtain ⟨fbits, efb, hlen, -⟩ := addLz77Block_fixed hfr true
    have := fixed_lower hlog hw hrun ef hp hall he
    rw [fixedBits hf.inv.range] at hlen
    rw [single_body h1 (ops := bitOps fbits) (by
      unfold deflatePart
      dsimp only
      rw [usub_eq (Nat.zero_le _), some_bind, ef, some_bind]
      exact efb) (render_bitOps _ _)]
    omega

/-- **C59** In dynamic mode with at most one block per write, fewer than 1000 bytes written in one call never take more bytes than the
shortest such stream, and never more than stored. -/
theorem C59_dynamic (hlog : Log2Ok log2) (o : Options) (ho : o.maximumBlockSplits ≤ 1) (w : List UInt8) (hw : w.length < 1000)
    (hrun : ∀ pos, ¬ StartsRun w.toArray pos 257 ∧ ¬ StartsRun w.toArray pos 258) :
    ∃ body, (∀ (fmt : Format) (σ : Type) (S : Sink σ) (I : σ → Prop) (log : σ → List UInt8) (patience : σ → Nat), Reliable S I log patience →
      ∀ (calls : List Call) (ending : Ending) (s : σ), writesOf calls = [w] → I s →
        ∃ s', session ⟨ieee log2, S, o, .dynamic⟩ fmt calls ending s = some (.ok (), s') ∧ log s' = log s ++ framed body w fmt) ∧
      inflate body = some w ∧ body.length ≤ w.length + 5 ∧
      ∀ (other rest : List UInt8) (blocks : List Block), parse other = some (blocks, rest) → AllFixed blocks → expand #[] blocks = some w.toArray →
        body.length ≤ other.length := by
  obtain ⟨body, h1, h2, h3⟩ := single_sessions hlog o .dynamic w (by omega)
  by_cases hne : w = []
  · subst hne
    obtain ⟨ops, e1, bits, e2, e3⟩ := empty_ops (ieeeLaws hlog) (ieee_exact log2) o true
    have hl := single_body h1 e1 e2
    rw [e3] at hl
    refine ⟨body, h3, h2, by omega, ?_⟩
    intro other rest blocks hp hall he
    obtain ⟨s', g1, g2⟩ := parse_length hp
    obtain ⟨xs, x1, x2, x3⟩ := readBlocks_cost g1 hall
    dsimp only at x3
    omega
  · obtain ⟨n, ⟨fs, lmc, ef, hn⟩, hs⟩ := single_size hlog w hne hw
    obtain ⟨s, g1, g2, g3⟩ := hs o ho
    have hl := g3 body h1
    have hst : storedBits w.length ≤ 8 * w.length + 40 := by
      unfold storedBits
      omega
    refine ⟨body, h3, h2, by omega, ?_⟩
    intro other rest blocks hp hall he
    have := fixed_lower hlog (by omega) hrun ef hp hall he
    omega

/-! ## The hypotheses are met -/

theorem no_run_257 {w : List UInt8} (h : w.length < 257) (pos : Nat) : ¬ StartsRun w.toArray pos 257 ∧ ¬ StartsRun w.toArray pos 258 := by
  have : runLength w.toArray pos ≤ w.length := by
    unfold runLength
    exact Nat.le_trans (List.takeWhile_sublist _).length_le (by simp)
  exact ⟨fun h => by have := h.1; omega, fun h => by have := h.1; omega⟩

example := C59_shortest_fixed_stream floorLog2_ok Options.default (List.replicate 50 1 ++ [7, 9] ++ List.replicate 50 2) (by simp) (no_run_257 (by simp))
example := C59_dynamic floorLog2_ok ⟨5, 3, 1⟩ (by decide) (List.replicate 50 1 ++ [7, 9] ++ List.replicate 50 2) (by simp) (no_run_257 (by simp))

end Zopfli
