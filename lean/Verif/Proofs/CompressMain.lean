import Verif.Proofs.SessionMain
/-! # `compress` -/

namespace Zopfli
open Rfc

variable {σ ρ : Type}

/-- One buffer flushed into an encoder with a reliable sink. -/
theorem flushBuf_reliable (env : Env σ) {I : σ → Prop} {log : σ → List UInt8} {μ : σ → Nat} (hS : Reliable env.S I log μ) {fmt : Format}
    {e : Encoder σ} {c c' : DCore} {data buf : List UInt8} {s : σ} {cs : List (List UInt8)} (he : e.Is fmt c data s) (hI : I s) (hb : buf ≠ [])
    (hc : c.write env.F env.options env.btype buf = some (cs, c')) :
    ∃ e' s', flushBuf env e buf = some (.ok (), e', []) ∧ e'.Is fmt c' (data ++ buf) s' ∧ log s' = log s ++ cs.flatten ∧ I s' := by
  have := Encoder.write_outcome env he hc
  obtain ⟨s1, g1, g2, g3⟩ := hS.writeMany cs s hI
  rw [g1] at this
  obtain ⟨⟨r, e1⟩, h1, h2, h3⟩ := this
  dsimp only at h2 h3
  subst h2
  refine ⟨e1, s1, ?_, h3, g2, g3⟩
  have hl : buf.length ≠ 0 := by simpa using hb
  obtain ⟨n, hn⟩ : ∃ n, buf.length = n + 1 := ⟨buf.length - 1, by omega⟩
  rw [flushBuf, if_neg hb, h1, some_bind, hn]
  dsimp only
  rw [← hn, List.drop_length, flushBuf, if_pos rfl]

theorem flushBuf_nil [Checks] (env : Env σ) (e : Encoder σ) : flushBuf env e [] = some (.ok (), e, []) := by rw [flushBuf, if_pos rfl]

theorem coreWrites_append (F : FloatOps) (o : Options) (bt : BlockType) : ∀ (a b : List (List UInt8)) (c : DCore),
    coreWrites F o bt c (a ++ b) = (coreWrites F o bt c a).bind fun (cs, c) => (coreWrites F o bt c b).map fun (cs', c) => (cs ++ cs', c)
  | [], b, c => by
    rw [List.nil_append]
    show _ = (coreWrites F o bt c b).map _
    cases coreWrites F o bt c b <;> rfl
  | w :: a, b, c => by
    rw [List.cons_append, coreWrites, coreWrites]
    cases c.write F o bt w with
    | none => rfl
    | some p =>
      obtain ⟨cs, c1⟩ := p
      rw [some_bind, some_bind]
      dsimp only
      rw [coreWrites_append F o bt a b c1]
      cases coreWrites F o bt c1 a with
      | none => rfl
      | some p =>
        obtain ⟨cs1, c2⟩ := p
        show ((coreWrites F o bt c2 b).map _ >>= _) = (coreWrites F o bt c2 b).map _
        cases coreWrites F o bt c2 b with
        | none => rfl
        | some p => simp [List.append_assoc]

/-- The state of the copy: what has been written to the encoder, and what waits in the buffer. -/
structure Copied (lim : Nat) (env : Env σ) (I : σ → Prop) (log : σ → List UInt8) (fmt : Format) (l0 : List UInt8) (e : Encoder σ) (buf data : List UInt8) : Prop where
  is : ∃ W cs c s prev chunk, (∀ w ∈ W, w.length < lim) ∧ coreWrites env.F env.options env.btype DCore.new W = some (cs, c) ∧ e.Is fmt c W.flatten s ∧
    I s ∧ log s = l0 ++ (header fmt ++ cs.flatten) ∧ DInv c prev chunk cs.flatten ∧ chunk.length < lim ∧ W.flatten ++ buf = data

theorem Copied.flush (env : Env σ) (L : FloatLaws env.F) {I : σ → Prop} {log : σ → List UInt8} {μ : σ → Nat} (hS : Reliable env.S I log μ) {fmt : Format}
    {l0 : List UInt8} {e : Encoder σ} {buf data : List UInt8} (h : Copied L.lim env I log fmt l0 e buf data) (hb : buf.length < L.lim) :
    ∃ e', flushBuf env e buf = some (.ok (), e', []) ∧ Copied L.lim env I log fmt l0 e' [] data := by
  by_cases h0 : buf = []
  · subst h0
    exact ⟨e, flushBuf_nil env e, h⟩
  · obtain ⟨W, cs, c, s, prev, chunk, h1, h2, h3, h4, h5, h6, h7, h8⟩ := h.is
    obtain ⟨⟨cs1, c1⟩, hw, hd⟩ := h6.write L env.options env.btype h7 buf
    obtain ⟨e', s', g1, g2, g3, g4⟩ := flushBuf_reliable env hS h3 h4 h0 hw
    refine ⟨e', g1, ⟨W ++ [buf], cs ++ cs1, c1, s', prev ++ chunk, buf, ?_, ?_, ?_, g4, ?_, ?_, hb, ?_⟩⟩
    · intro w hw
      rw [List.mem_append, List.mem_singleton] at hw
      rcases hw with hw | rfl
      · exact h1 w hw
      · exact hb
    · rw [coreWrites_append, h2, Option.bind_some]
      dsimp only
      rw [coreWrites, hw, some_bind]
      dsimp only
      rw [coreWrites, some_bind]
      simp
    · rw [List.flatten_append, List.flatten_cons, List.flatten_nil, List.append_nil]
      exact g2
    · rw [g3, h5, List.flatten_append]; simp [List.append_assoc]
    · rw [List.flatten_append]
      exact hd
    · rw [List.flatten_append, List.flatten_cons, List.flatten_nil, List.append_nil, List.append_nil]
      exact h8

theorem copyLoop_reliable (env : Env σ) (L : FloatLaws env.F) {I : σ → Prop} {log : σ → List UInt8} {μ : σ → Nat} (hS : Reliable env.S I log μ)
    {R : Reader ρ} {J : ρ → Prop} {rest : ρ → List UInt8} {res : Except ErrKind Unit} {ν : ρ → Nat} (hR : Delivers R J rest res ν) {fmt : Format}
    {l0 data : List UInt8} : ∀ (n m k : Nat) (r : ρ) (e : Encoder σ) (buf done : List UInt8), (rest r).length = n → ν r = m → buf.length = k → J r →
      buf.length ≤ MASTER_BLOCK_SIZE → Copied L.lim env I log fmt l0 e buf done → data = done ++ rest r →
      ∃ e' buf', copyLoop env R r e buf = some (res, e', buf') ∧ buf'.length ≤ MASTER_BLOCK_SIZE ∧ Copied L.lim env I log fmt l0 e' buf' data := by
  intro n
  induction n using Nat.strong_induction_on with
  | _ n ihn =>
    intro m
    induction m using Nat.strong_induction_on with
    | _ m ihm =>
      intro k
      induction k using Nat.strong_induction_on with
      | _ k ihk =>
        intro r e buf done hn hm hk hJ hlen hC hdata
        rw [copyLoop]
        by_cases hroom : DEFAULT_BUF_SIZE ≤ MASTER_BLOCK_SIZE - buf.length
        · dsimp only [DEFAULT_BUF_SIZE, MASTER_BLOCK_SIZE] at hroom hlen ⊢
          rw [if_pos hroom]
          rcases hR.read r (1000000 - buf.length) hJ (by omega) with ⟨l, r', e1, h1, h2, h3, h4⟩ | ⟨r', e1, h1, h2, h3⟩ | ⟨r', e1, h1⟩
          · rw [e1]
            cases l with
            | nil => exact absurd rfl h1
            | cons b bs =>
              dsimp only
              rw [if_pos h2]
              have hl : (rest r).length = (b :: bs).length + (rest r').length := by rw [h3, List.length_append]
              rw [List.length_cons] at hl
              refine ihn (rest r').length (by omega) _ _ r' e (buf ++ b :: bs) (done ++ b :: bs) rfl rfl rfl h4 ?_ ⟨?_⟩ ?_
              · dsimp only [MASTER_BLOCK_SIZE]
                rw [List.length_append]
                omega
              · obtain ⟨W, cs, c, s, prev, chunk, h1, h2, h3, h4, h5, h6, h7, h8⟩ := hC.is
                exact ⟨W, cs, c, s, prev, chunk, h1, h2, h3, h4, h5, h6, h7, by rw [← List.append_assoc, h8]⟩
              · rw [hdata, h3, List.append_assoc]
          · rw [e1]
            dsimp only
            exact ihm (ν r') (by omega) _ r' e buf done (by rw [h1, hn]) rfl rfl h3 hlen hC (by rw [h1, hdata])
          · rw [e1]
            have hd : done = data := by rw [hdata, h1, List.append_nil]
            subst hd
            cases res with
            | ok u => exact ⟨e, buf, rfl, hlen, hC⟩
            | error kd =>
              refine ⟨e, buf, ?_, hlen, hC⟩
              cases kd with
              | interrupted => exact absurd rfl hR.not_interrupted
              | writeZero => rfl
              | other n => rfl
        · dsimp only [DEFAULT_BUF_SIZE, MASTER_BLOCK_SIZE] at hroom hlen ⊢
          rw [if_neg hroom]
          obtain ⟨e', g1, g2⟩ := hC.flush env L hS (by have := L.lim_ge; omega)
          rw [g1]
          dsimp only
          exact ihk 0 (by omega) r e' [] done hn hm rfl hJ (by dsimp only [MASTER_BLOCK_SIZE]; simp) g2 hdata

theorem Copied.end (env : Env σ) (L : FloatLaws env.F) {I : σ → Prop} {log : σ → List UInt8} {μ : σ → Nat} (hS : Reliable env.S I log μ) {fmt : Format}
    {l0 : List UInt8} {e : Encoder σ} {data : List UInt8} (h : Copied L.lim env I log fmt l0 e [] data) :
    ∃ s' W stream, e.finish env = some (.ok (), s') ∧ e.drop env = some s' ∧ log s' = l0 ++ stream ∧ I s' ∧
      StreamOf env.F env.options env.btype fmt W stream ∧ (∀ w ∈ W, w.length < L.lim) ∧ W.flatten = data := by
  obtain ⟨W, cs, c, s, prev, chunk, h1, h2, h3, h4, h5, h6, h7, h8⟩ := h.is
  obtain ⟨cs', e2, blocks, hv⟩ := h6.finish L env.options env.btype h7
  obtain ⟨s2, d1, d2, d3⟩ := hS.writeMany (cs' ++ trailer fmt W.flatten) s h4
  refine ⟨s2, W, _, ?_, ?_, ?_, d3, ⟨cs, c, cs', h2, e2, rfl⟩, h1, by simpa using h8⟩
  · have := Encoder.finish_outcome env h3 e2
    rw [d1] at this
    obtain ⟨_, this, rfl⟩ := this
    exact this
  · have := Encoder.drop_outcome env h3 e2
    rw [d1] at this
    obtain ⟨_, this, rfl⟩ := this
    exact this
  · rw [d2, h5]; simp [List.append_assoc]

/-- The stream of a session decodes to what was written. -/
theorem StreamOf.decode {F : FloatOps} (L : FloatLaws F) {o : Options} {bt : BlockType} {fmt : Format} {writes : List (List UInt8)}
    {stream : List UInt8} (h : StreamOf F o bt fmt writes stream) (hw : ∀ w ∈ writes, w.length < L.lim) :
    decode fmt stream = some writes.flatten := by
  obtain ⟨stream', body, blocks, h', rfl, hv⟩ := streamOf_exists L o bt fmt writes hw
  obtain ⟨cs, c, cs', a1, a2, rfl⟩ := h.core
  obtain ⟨ds, d, ds', b1, b2, e⟩ := h'.core
  rw [a1] at b1
  cases b1
  rw [a2] at b2
  cases b2
  rw [← e]
  exact decode_container hv

theorem compress_reliable {F : FloatOps} (L : FloatLaws F) (S : Sink σ) {I : σ → Prop} {log : σ → List UInt8} {μ : σ → Nat} (hS : Reliable S I log μ)
    (R : Reader ρ) {J : ρ → Prop} {rest : ρ → List UInt8} {res : Except ErrKind Unit} {ν : ρ → Nat} (hR : Delivers R J rest res ν)
    (o : Options) (fmt : Format) {r : ρ} {s : σ} (hJ : J r) (hI : I s) :
    ∃ s' W stream, compress F S R o fmt r s = some (res, s') ∧ log s' = log s ++ stream ∧ I s' ∧
      StreamOf F o .dynamic fmt W stream ∧ (∀ w ∈ W, w.length < L.lim) ∧ W.flatten = rest r := by
  unfold compress
  have h0 := Encoder.new_outcome ⟨F, S, o, .dynamic⟩ fmt s
  obtain ⟨s0, a1, a2, a3⟩ := hS.writeMany [header fmt] s hI
  dsimp only at h0
  rw [a1] at h0
  obtain ⟨_, h0, e0, rfl, he0⟩ := h0
  dsimp only
  rw [h0, some_bind]
  dsimp only
  obtain ⟨e1, buf, g1, g2, g3⟩ := copyLoop_reliable ⟨F, S, o, .dynamic⟩ L hS hR (fmt := fmt) (l0 := log s) (data := rest r) _ _ _ r e0 [] [] rfl rfl rfl hJ
    (by simp) ⟨[], [], DCore.new, s0, [], [], by simp, rfl, he0, a3, by rw [a2]; simp, DInv.new, L.lim_pos, rfl⟩ rfl
  rw [g1, some_bind]
  dsimp only [MASTER_BLOCK_SIZE] at g2
  obtain ⟨e2, f1, f2⟩ := g3.flush ⟨F, S, o, .dynamic⟩ L hS (by have := L.lim_ge; omega)
  obtain ⟨s', W, stream, k1, k2, k3, k4, k5, k6, k7⟩ := f2.end ⟨F, S, o, .dynamic⟩ L hS
  refine ⟨s', W, stream, ?_, k3, k4, k5, k6, k7⟩
  cases res with
  | ok u =>
    dsimp only
    rw [f1, some_bind]
    exact k1
  | error k =>
    dsimp only
    unfold dropBuffered
    rw [f1, some_bind]
    dsimp only
    rw [k2]
    rfl

end Zopfli
