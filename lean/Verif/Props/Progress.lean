import Verif.Props.RoundTrip
import Verif.Proofs.Buffered
import Verif.Spec.Layout
/-!
# C50: progress of an encoder

An encoder holds back the last buffer it has been given (it does not know yet whether that is the last one) and less than
one byte of output; everything else has been compressed and is in the sink.
-/

namespace Zopfli
open Rfc

variable {log2 : Fp → Fp} {F : FloatOps}

/-- The number of input bytes an encoder holds. -/
def DeflateEncoder.held {σ : Type} (e : DeflateEncoder σ) : Nat := e.windowAndChunk.size

/-- The number of input bytes an encoder holds. -/
def Encoder.held {σ : Type} : Encoder σ → Nat
  | .gzip e => (e.deflate.map (·.held)).getD 0
  | .zlib e => (e.deflate.map (·.held)).getD 0
  | .deflate e => e.held

theorem Encoder.Is.held {σ : Type} {e : Encoder σ} {fmt : Format} {c : DCore} {data : List UInt8} {s : σ} (h : e.Is fmt c data s) : e.held = c.wac.size := by
  obtain ⟨d, ⟨len, rfl⟩, rfl⟩ := h
  cases fmt <;> rfl

/-- The pending bits come first in what is emitted next. -/
theorem DInv.emit_bits (L : FloatLaws F) (o : Options) (bt : BlockType) {c : DCore} {prev chunk out : List UInt8} (h : DInv c prev chunk out)
    (hsz : chunk.length < L.lim) (last : Bool) {cs : List (List UInt8)} {acc : UInt8 × UInt8} (he : c.emit F o bt last = some (cs, acc))
    {pb : List Bool} (hp : Pend c.acc pb) : ∃ pb', Pend acc pb' ∧ pb <+: bytesBits cs.flatten ++ pb' := by
  have hsize : c.wac.size = (lastN 32768 prev).length + chunk.length := by
    rw [← Array.length_toList, h.wac, List.length_append]
  have hl : (lastN 32768 prev).length ≤ 32768 := by rw [lastN_length]; omega
  have hlim := L.lim_ge
  obtain ⟨ops, e1, blocks, e2⟩ := deflatePart_spec L o bt last (data := c.wac) (instart := c.chunkStart) (inend := c.wac.size) (by rw [h.start]; omega)
    (Nat.le_refl _) (by omega)
  unfold DCore.emit at he
  rw [e1] at he
  obtain ⟨bits, hr, -⟩ := e2.read pb.length
  obtain ⟨pb', h1, h2⟩ := pall_bits ops c.acc pb pb.length bits hp (by have := hp.lt; omega) hr
  have hx : pall c.acc ops = (cs, acc) := Option.some.inj he
  rw [hx] at h1 h2
  exact ⟨pb', h1, by rw [h2]; exact List.prefix_append _ _⟩

theorem prefix_chain {a x b y : List Bool} (h1 : a <+: x ++ b) (h2 : b <+: y) : a <+: x ++ y := by
  obtain ⟨t, rfl⟩ := h2
  rw [← List.append_assoc]
  exact h1.trans (List.prefix_append _ _)

theorem coreWrites_bits (L : FloatLaws F) (o : Options) (bt : BlockType) : ∀ (writes : List (List UInt8)) {c c' : DCore} {prev chunk out : List UInt8}
    {cs : List (List UInt8)} {pb : List Bool}, DInv c prev chunk out → chunk.length < L.lim → (∀ w ∈ writes, w.length < L.lim) →
    coreWrites F o bt c writes = some (cs, c') → Pend c.acc pb → ∃ pb', Pend c'.acc pb' ∧ pb <+: bytesBits cs.flatten ++ pb'
  | [], c, c', prev, chunk, out, cs, pb, h, hc, hw, he, hp => by
    cases he
    exact ⟨pb, hp, by simp [bytesBits]⟩
  | buf :: l, c, c', prev, chunk, out, cs, pb, h, hc, hw, he, hp => by
    rw [coreWrites] at he
    obtain ⟨⟨cs1, c1⟩, e1, h1⟩ := h.write L o bt hc buf
    rw [e1, some_bind] at he
    dsimp only at he h1
    cases e2 : coreWrites F o bt c1 l with
    | none => rw [e2] at he; cases he
    | some x =>
      obtain ⟨cs2, c2⟩ := x
      rw [e2] at he
      cases he
      have hp1 : ∃ pb1, Pend c1.acc pb1 ∧ pb <+: bytesBits cs1.flatten ++ pb1 := by
        unfold DCore.write at e1
        by_cases hb : c.haveChunk = true
        · rw [if_pos hb] at e1
          cases e3 : c.emit F o bt false with
          | none => rw [e3] at e1; cases e1
          | some y =>
            obtain ⟨cs3, acc⟩ := y
            rw [e3] at e1
            cases e1
            exact h.emit_bits L o bt hc false e3 hp
        · rw [if_neg hb] at e1
          cases e1
          exact ⟨pb, hp, by simp [bytesBits]⟩
      obtain ⟨pb1, g1, g2⟩ := hp1
      obtain ⟨pb', g3, g4⟩ := coreWrites_bits L o bt l h1 (hw buf (by simp)) (fun w hw' => hw w (by simp [hw'])) e2 g1
      refine ⟨pb', g3, ?_⟩
      rw [List.flatten_append, bytesBits_append, List.append_assoc]
      exact prefix_chain g2 g4

theorem DInv.finish_bits (L : FloatLaws F) (o : Options) (bt : BlockType) {c : DCore} {prev chunk out : List UInt8} (h : DInv c prev chunk out)
    (hsz : chunk.length < L.lim) {cs : List (List UInt8)} (he : c.finish F o bt = some cs) {pb : List Bool} (hp : Pend c.acc pb) :
    pb <+: bytesBits cs.flatten := by
  unfold DCore.finish at he
  cases e1 : c.emit F o bt true with
  | none => rw [e1] at he; cases he
  | some x =>
    obtain ⟨cs1, acc⟩ := x
    rw [e1] at he
    cases he
    obtain ⟨pb1, g1, g2⟩ := h.emit_bits L o bt hsz true e1 hp
    rw [List.flatten_append, bytesBits_append]
    refine prefix_chain g2 ?_
    obtain ⟨pb2, g3, g4⟩ := pall_bits [.align] acc pb1 pb1.length (List.replicate (padLen pb1.length) false) g1 (by
      have := g1.lt; omega) (by simp [render])
    have hpall : (pall acc [.align]).1 = (pstep acc .align).1 := by
      show (pstep acc .align).1 ++ [] = _
      rw [List.append_nil]
    have hlen := congrArg List.length g4
    rw [List.length_append, bytesBits_length, List.length_append, List.length_replicate] at hlen
    have hmod := padLen_mod pb1.length
    have hlt := g3.lt
    have : pb2 = [] := by rw [← List.length_eq_zero_iff]; omega
    subst this
    rw [List.append_nil, hpall] at g4
    show _ <+: bytesBits (pstep acc .align).1.flatten
    rw [g4]
    exact List.prefix_append _ _

/-- The state after a sequence of writes, as far as it does not depend on the last of them. -/
theorem coreWrites_held (L : FloatLaws F) (o : Options) (bt : BlockType) (earlier : List (List UInt8)) (hw : ∀ w ∈ earlier, w.length < L.lim) :
    ∃ cs acc, (∃ blocks pb, Written acc cs.flatten blocks earlier.flatten false pb) ∧
      ∀ W : List (List UInt8), W.dropLast = earlier → ∃ c, coreWrites F o bt DCore.new W = some (cs, c) ∧ c.acc = acc ∧
        DInv c earlier.flatten (W.getLast?.getD []) cs.flatten := by
  obtain ⟨⟨cs1, c1⟩, e1, prev, chunk, h1, h2, h3⟩ := coreWrites_spec L o bt earlier DInv.new L.lim_pos hw
  rw [List.nil_append] at h2
  rw [List.nil_append] at h1
  dsimp only at h1
  have hx : ∃ cs2 acc, ∀ last, ∃ c2, c1.write F o bt last = some (cs2, c2) ∧ c2.acc = acc := by
    unfold DCore.write
    by_cases hb : c1.haveChunk = true
    · rw [if_pos hb]
      obtain ⟨⟨cs2, acc⟩, e2, -⟩ := h1.emit L o bt h3 false
      refine ⟨cs2, acc, fun last => ?_⟩
      rw [e2, some_bind]
      exact ⟨_, rfl, rfl⟩
    · rw [if_neg hb]
      exact ⟨[], c1.acc, fun last => ⟨_, rfl, rfl⟩⟩
  obtain ⟨cs2, acc, hx⟩ := hx
  have hlast : ∀ last, ∃ c, coreWrites F o bt DCore.new (earlier ++ [last]) = some (cs1 ++ cs2, c) ∧ c.acc = acc ∧
      DInv c earlier.flatten last (cs1 ++ cs2).flatten := by
    intro last
    obtain ⟨c2, e2, e3⟩ := hx last
    obtain ⟨y, e4, h4⟩ := h1.write L o bt h3 last
    rw [e2] at e4
    cases e4
    refine ⟨c2, ?_, e3, ?_⟩
    · rw [coreWrites_append, e1, Option.bind_some]
      dsimp only
      rw [coreWrites, e2, some_bind]
      simp [coreWrites]
    · rw [h2] at h4
      simpa using h4
  refine ⟨cs1 ++ cs2, acc, ?_, ?_⟩
  · obtain ⟨c, -, rfl, h5⟩ := hlast []
    exact h5.written
  · intro W hW
    rcases List.eq_nil_or_concat W with rfl | ⟨W', last, rfl⟩
    · subst hW
      cases e1
      obtain ⟨c2, e2, e3⟩ := hx []
      unfold DCore.write at e2
      rw [if_neg (by simp [DCore.new])] at e2
      cases e2
      exact ⟨DCore.new, rfl, e3, by simpa using DInv.new⟩
    · rw [List.concat_eq_append, List.dropLast_concat] at hW
      subst hW
      obtain ⟨c, g1, g2, g3⟩ := hlast last
      exact ⟨c, by rw [List.concat_eq_append]; exact g1, g2, by simpa using g3⟩

/-- **C50** After any calls on an encoder that have returned, everything written before the last buffer has been compressed,
and the compressed form is in the sink but for fewer than eight bits, which come next: the bits in the sink after the
header together with these make up whole blocks, none of them marked as the last, that expand to exactly that data.  What
the sink holds at that point does not depend on the last buffer.  The encoder holds no more of the input than the last
buffer and 32768 bytes before it. -/
theorem C50_progress (hlog : Log2Ok log2) (o : Options) (bt : BlockType) (fmt : Format) (earlier : List (List UInt8)) (hfit : Fits earlier) :
    ∃ hd body blocks pending,
      pending.length < 8 ∧ Reads ⟨bytesBits body ++ pending, 0⟩ blocks ⟨[], 8 * body.length + pending.length⟩ ∧
      expand #[] blocks = some earlier.flatten.toArray ∧ (∀ b ∈ blocks, b.final = false) ∧
      ∀ (σ : Type) (S : Sink σ) (I : σ → Prop) (log : σ → List UInt8) (patience : σ → Nat), Reliable S I log patience → ∀ s, I s →
        ∃ e s0, Encoder.new ⟨ieee log2, S, o, bt⟩ fmt s = some (.ok e, s0) ∧ log s0 = log s ++ hd ∧
          ∀ calls, (writesOf calls).dropLast = earlier →
            ∃ e' s1, e.run ⟨ieee log2, S, o, bt⟩ calls = some (.ok (), e') ∧ e'.sink? = some s1 ∧ log s1 = log s ++ hd ++ body ∧
              e'.held ≤ 32768 + ((writesOf calls).getLast?.getD []).length ∧
              ∀ more ending, Fits (writesOf (calls ++ more)) →
                ∃ s2 rest, session ⟨ieee log2, S, o, bt⟩ fmt (calls ++ more) ending s = some (.ok (), s2) ∧
                  log s2 = log s ++ hd ++ body ++ rest ∧ pending <+: bytesBits rest := by
  obtain ⟨cs, acc, ⟨blocks, pb, hw⟩, hall⟩ := coreWrites_held (ieeeLaws hlog) o bt earlier hfit
  refine ⟨header fmt, cs.flatten, blocks, pb, hw.pend.lt, ?_, hw.exp, hw.fin, ?_⟩
  · have := hw.reads []
    rw [List.append_nil, List.length_append, bytesBits_length] at this
    exact this
  intro σ S I log patience hS s hs
  have h0 := Encoder.new_outcome ⟨ieee log2, S, o, bt⟩ fmt s
  obtain ⟨s0, a1, a2, a3⟩ := hS.writeMany [header fmt] s hs
  rw [show writeMany (Env.S ⟨ieee log2, S, o, bt⟩) s [header fmt] = _ from a1] at h0
  obtain ⟨_, h0, e0, rfl, he0⟩ := h0
  refine ⟨e0, s0, h0, by simpa using a2, ?_⟩
  intro calls hcalls
  obtain ⟨c, g1, g2, g3⟩ := hall _ hcalls
  obtain ⟨e1, s1, b1, b2, b3, b4⟩ := run_reliable ⟨ieee log2, S, o, bt⟩ hS calls he0 a3 g1
  refine ⟨e1, s1, b1, b2.sink, by rw [b3, a2]; simp, ?_, ?_⟩
  · rw [b2.held, ← Array.length_toList, g3.wac, List.length_append, lastN_length]
    omega
  intro more ending hfit2
  obtain ⟨stream, -, -, h1, -, -⟩ := streamOf_exists (ieeeLaws hlog) o bt fmt _ hfit2
  obtain ⟨s2, i1, i2, -⟩ := session_reliable ⟨ieee log2, S, o, bt⟩ hS fmt (calls ++ more) ending hs h1
  obtain ⟨ds, d, ds', j1, j2, rfl⟩ := h1.core
  rw [writesOf_append, coreWrites_append, g1, Option.bind_some] at j1
  dsimp only at j1
  obtain ⟨⟨ds1, d1⟩, k1, k2⟩ := Option.map_eq_some_iff.1 j1
  cases k2
  have hlast : ((writesOf calls).getLast?.getD []).length < (ieeeLaws hlog).lim := by
    cases hl : (writesOf calls).getLast? with
    | none => exact (ieeeLaws hlog).lim_pos
    | some w =>
      refine hfit2 w ?_
      rw [writesOf_append, List.mem_append]
      exact .inl (List.mem_of_getLast? hl)
  have hmore : ∀ w ∈ writesOf more, w.length < (ieeeLaws hlog).lim := fun w hw => hfit2 w (by rw [writesOf_append, List.mem_append]; exact .inr hw)
  obtain ⟨pb', l1, l2⟩ := coreWrites_bits (ieeeLaws hlog) o bt _ g3 hlast hmore k1 (by rw [g2]; exact hw.pend)
  obtain ⟨y, m1, prev, chunk, m2, -, m3⟩ := coreWrites_spec (ieeeLaws hlog) o bt _ g3 hlast hmore
  rw [k1] at m1
  cases m1
  have n1 := m2.finish_bits (ieeeLaws hlog) o bt m3 j2 l1
  refine ⟨s2, ds1.flatten ++ (ds' ++ trailer fmt (writesOf (calls ++ more)).flatten).flatten, i1, ?_, ?_⟩
  · rw [i2]
    simp [List.append_assoc]
  · rw [bytesBits_append, List.flatten_append, bytesBits_append]
    exact prefix_chain l2 (n1.trans (List.prefix_append _ _))

/-! ## The hypotheses are met -/

/-- Two buffers of which the first is in the sink, while the second, with or without a flush, is not. -/
example : ∃ body blocks pending, pending.length < 8 ∧ Reads ⟨bytesBits body ++ pending, 0⟩ blocks ⟨[], 8 * body.length + pending.length⟩ ∧
    expand #[] blocks = some #[1, 2, 3] ∧
    ∃ e s0 e' s1 e'' s2, Encoder.new ⟨ieee floorLog2, stutterSink, Options.default, .dynamic⟩ .deflate ([], 1) = some (.ok e, s0) ∧
      e.run ⟨ieee floorLog2, stutterSink, Options.default, .dynamic⟩ [.write [1, 2, 3], .write [4, 5], .flush] = some (.ok (), e') ∧ e'.sink? = some s1 ∧
      e.run ⟨ieee floorLog2, stutterSink, Options.default, .dynamic⟩ [.write [1, 2, 3], .flush, .write [6]] = some (.ok (), e'') ∧ e''.sink? = some s2 ∧
      s1.1 = s2.1 ∧ ∃ hd, s1.1 = hd ++ body ∧ s0.1 = hd := by
  obtain ⟨hd, body, blocks, pending, h1, h2, h3, -, h⟩ := C50_progress (log2 := floorLog2) floorLog2_ok Options.default .dynamic .deflate [[1, 2, 3]]
    (by intro w hw; rw [List.mem_singleton] at hw; subst hw; decide)
  obtain ⟨e, s0, a1, a2, a3⟩ := h _ _ _ _ _ stutterSink_reliable ([], 1) trivial
  obtain ⟨e', s1, b1, b2, b3, -⟩ := a3 [.write [1, 2, 3], .write [4, 5], .flush] rfl
  obtain ⟨e'', s2, c1, c2, c3, -⟩ := a3 [.write [1, 2, 3], .flush, .write [6]] rfl
  exact ⟨body, blocks, pending, h1, h2, h3, e, s0, e', s1, e'', s2, a1, b1, b2, c1, c2, by rw [b3, c3], hd, by simpa using b3, by simpa using a2⟩

end Zopfli
