import Verif.Proofs.Session
import Mathlib.Tactic.IntervalCases
/-! # The stream of a session -/

namespace Zopfli
open Rfc

variable {σ : Type}

/-! ## Containers -/

theorem crcUpdate_eq : crcUpdate = crcByte := by
  funext c b
  rfl

theorem crc_eq (data : List UInt8) : crcFinalize (data.foldl crcUpdate 0xFFFFFFFF) = crc32 data := by
  rw [crcUpdate_eq]; rfl

theorem le32_toLeBytes (x : UInt32) : le32? (toLeBytes x) = some x.toNat := by
  have h := x.toNat_lt
  simp only [toLeBytes, le32?, UInt32.toNat_toUInt8, UInt32.toNat_shiftRight]
  congr 1
  have e8 : (8 : UInt32).toNat % 32 = 8 := by decide
  have e16 : (16 : UInt32).toNat % 32 = 16 := by decide
  have e24 : (24 : UInt32).toNat % 32 = 24 := by decide
  rw [e8, e16, e24, Nat.shiftRight_eq_div_pow, Nat.shiftRight_eq_div_pow, Nat.shiftRight_eq_div_pow]
  omega

theorem be32_toBeBytes (x : UInt32) : be32? (toBeBytes x) = some x.toNat := by
  rw [be32?, toBeBytes, List.reverse_reverse, le32_toLeBytes]

theorem toLeBytes_length (x : UInt32) : (toLeBytes x).length = 4 := rfl

theorem adlerFold (data : List UInt8) : ∀ (st : Adler) (p : Nat × Nat), st.a = p.1 → st.b = p.2 → p.1 < 65521 → p.2 < 65521 →
    (data.foldl Adler.update st).a = (data.foldl adlerStep p).1 ∧ (data.foldl Adler.update st).b = (data.foldl adlerStep p).2 ∧
    (data.foldl adlerStep p).1 < 65521 ∧ (data.foldl adlerStep p).2 < 65521 := by
  induction data with
  | nil => intro st p h1 h2 h3 h4; exact ⟨h1, h2, h3, h4⟩
  | cons x data ih =>
    intro st p h1 h2 h3 h4
    rw [List.foldl_cons, List.foldl_cons]
    apply ih
    · simp only [Adler.update, adlerStep, h1]
    · simp only [Adler.update, adlerStep, h1, h2]
    · exact Nat.mod_lt _ (by decide)
    · exact Nat.mod_lt _ (by decide)

theorem adler_eq (data : List UInt8) : (data.foldl Adler.update .new).finish.toNat = adler32 data := by
  obtain ⟨h1, h2, h3, h4⟩ := adlerFold data .new (1, 0) rfl rfl (by decide) (by decide)
  simp only [Adler.finish, adler32, h1, h2, UInt32.toNat_ofNat']
  omega

theorem decode_container {fmt : Format} {stream : List UInt8} {blocks : List Block} {data : List UInt8} (h : ValidStream stream blocks data) :
    decode fmt (header fmt ++ stream ++ (trailer fmt data).flatten) = some data := by
  cases fmt with
  | gzip =>
    show gunzip (31 :: 139 :: 8 :: 0 :: 0 :: 0 :: 0 :: 0 :: 2 :: 3 :: (stream ++ (trailer .gzip data).flatten)) = _
    unfold gunzip
    simp only
    rw [h.inflatePrefix, some_bind]
    simp only [trailer, List.flatten_cons, List.flatten_nil, List.append_nil]
    have e1 : ∀ a b : UInt32, (toLeBytes a ++ toLeBytes b).take 4 = toLeBytes a := fun a b => List.take_left' rfl
    have e2 : ∀ a b : UInt32, (toLeBytes a ++ toLeBytes b).drop 4 = toLeBytes b := fun a b => List.drop_left' rfl
    rw [e1, e2, le32_toLeBytes, le32_toLeBytes, some_bind, some_bind, crc_eq]
    rw [if_pos ⟨rfl, UInt32.toNat_ofNat'⟩]
  | zlib =>
    have e : zlibHeader = [120, 218] := by decide
    show zlibDecode ((zlibHeader ++ stream) ++ (trailer .zlib data).flatten) = _
    rw [e, List.append_assoc]
    show zlibDecode (120 :: 218 :: (stream ++ (trailer .zlib data).flatten)) = _
    unfold zlibDecode
    dsimp only
    rw [if_neg (by decide), if_neg (by decide), if_neg (by decide), h.inflatePrefix, some_bind]
    simp only [trailer, List.flatten_cons, List.flatten_nil, List.append_nil, be32_toBeBytes, adler_eq]
    rw [some_bind, if_pos rfl]
  | deflate =>
    show inflate (([] ++ stream) ++ []) = _
    rw [List.nil_append, List.append_nil, h.inflate]

/-! ## Invariants of the sink -/

theorem finish_inv (env : Env σ) {I : σ → Prop} (hI : SinkInv env.S I) {d : DeflateEncoder σ} {r : Except ErrKind Unit × σ}
    (h : d.finish env = some r) (hs : EncInv I d) : I r.2 := by
  unfold DeflateEncoder.finish at h
  cases hf : d.finishInner env with
  | none => rw [hf] at h; cases h
  | some p =>
    obtain ⟨q, d', so⟩ := p
    obtain ⟨h1, h2⟩ := finishInner_inv env hI hf hs
    rw [hf, some_bind] at h
    have key : ∀ {q : Except ErrKind Unit}, ((do return (q, ← d'.dropWith env (← so))) : Option (Except ErrKind Unit × σ)) = some r → I r.2 := by
      intro q h
      cases so with
      | none => cases h
      | some s0 =>
        rw [some_bind] at h
        cases hd : d'.dropWith env s0 with
        | none => rw [hd] at h; cases h
        | some s1 =>
          rw [hd, some_bind] at h
          cases h
          exact dropWith_inv env hI hd h1 (h2 _ rfl)
    rcases q with k | (_ | s0)
    · exact key h
    · cases h
    · exact key h

theorem Encoder.drop_inv (env : Env σ) {I : σ → Prop} (hI : SinkInv env.S I) {e : Encoder σ} {s s' : σ}
    (h : e.drop env = some s') (hs : e.sink? = some s) (hI0 : I s) : I s' := by
  cases e with
  | deflate d =>
    refine Zopfli.drop_inv env hI h ?_
    intro s1 h1
    rw [show d.sink? = some s from hs] at h1
    cases h1
    exact hI0
  | gzip g =>
    obtain ⟨d, crc, sz⟩ := g
    cases d with
    | none => cases hs
    | some d =>
      have hd : EncInv I d := by
        intro s1 h1
        rw [show d.sink? = some s from hs] at h1
        cases h1
        exact hI0
      simp only [Encoder.drop, GzipEncoder.drop, some_bind, GzipEncoder.finishInner] at h
      cases hf : d.finish env with
      | none => rw [hf] at h; cases h
      | some p =>
        have hp := finish_inv env hI hf hd
        obtain ⟨r, s1⟩ := p
        rw [hf, some_bind] at h
        cases r with
        | error k => cases h; exact hp
        | ok u =>
          dsimp only at h
          cases hw : env.S.writeAll s1 (toLeBytes (crcFinalize crc)) with
          | none => rw [hw] at h; cases h
          | some p =>
            have hp := writeAll_inv hI hw hp
            obtain ⟨r, s2⟩ := p
            rw [hw, some_bind] at h
            cases r with
            | error k => cases h; exact hp
            | ok u =>
              dsimp only at h
              cases hw : env.S.writeAll s2 (toLeBytes sz) with
              | none => rw [hw] at h; cases h
              | some p =>
                have hp := writeAll_inv hI hw hp
                rw [hw, some_bind] at h
                cases h
                exact hp
  | zlib g =>
    obtain ⟨d, ad⟩ := g
    cases d with
    | none => cases hs
    | some d =>
      have hd : EncInv I d := by
        intro s1 h1
        rw [show d.sink? = some s from hs] at h1
        cases h1
        exact hI0
      simp only [Encoder.drop, ZlibEncoder.drop, some_bind, ZlibEncoder.finishInner] at h
      cases hf : d.finish env with
      | none => rw [hf] at h; cases h
      | some p =>
        have hp := finish_inv env hI hf hd
        obtain ⟨r, s1⟩ := p
        rw [hf, some_bind] at h
        cases r with
        | error k => cases h; exact hp
        | ok u =>
          dsimp only at h
          cases hw : env.S.writeAll s1 (toBeBytes ad.finish) with
          | none => rw [hw] at h; cases h
          | some p =>
            have hp := writeAll_inv hI hw hp
            rw [hw, some_bind] at h
            cases h
            exact hp

/-! ## Runs -/

theorem run_reliable (env : Env σ) {I : σ → Prop} {log : σ → List UInt8} {μ : σ → Nat} (hS : Reliable env.S I log μ) {fmt : Format} :
    ∀ (calls : List Call) {e : Encoder σ} {c c' : DCore} {data : List UInt8} {s : σ} {cs : List (List UInt8)}, e.Is fmt c data s → I s →
    coreWrites env.F env.options env.btype c (writesOf calls) = some (cs, c') →
    ∃ e' s', e.run env calls = some (.ok (), e') ∧ e'.Is fmt c' (data ++ (writesOf calls).flatten) s' ∧ log s' = log s ++ cs.flatten ∧ I s'
  | [], e, c, c', data, s, cs, he, hI, hc => by
    cases hc
    exact ⟨e, s, rfl, by simpa [writesOf] using he, by simp, hI⟩
  | .flush :: l, e, c, c', data, s, cs, he, hI, hc => by
    obtain ⟨e1, h1, h2⟩ := Encoder.flush_outcome env he
    obtain ⟨s1, g1, g2, g3⟩ := hS.flush s hI
    rw [g1] at h1 h2
    obtain ⟨e2, s2, i1, i2, i3, i4⟩ := run_reliable env hS l h2 g3 hc
    refine ⟨e2, s2, ?_, i2, by rw [i3, g2], i4⟩
    rw [Encoder.run, h1, some_bind]
    exact i1
  | .write buf :: l, e, c, c', data, s, cs, he, hI, hc => by
    rw [writesOf, coreWrites] at hc
    cases hw : c.write env.F env.options env.btype buf with
    | none => rw [hw] at hc; cases hc
    | some p =>
      obtain ⟨cs1, c1⟩ := p
      rw [hw, some_bind] at hc
      dsimp only at hc
      cases hw2 : coreWrites env.F env.options env.btype c1 (writesOf l) with
      | none => rw [hw2] at hc; cases hc
      | some p =>
        obtain ⟨cs2, c2⟩ := p
        rw [hw2, some_bind] at hc
        cases hc
        have := Encoder.write_outcome env he hw
        obtain ⟨s1, g1, g2, g3⟩ := hS.writeMany cs1 s hI
        rw [g1] at this
        obtain ⟨⟨r, e1⟩, h1, h2, h3⟩ := this
        dsimp only at h2 h3
        subst h2
        obtain ⟨e2, s2, i1, i2, i3, i4⟩ := run_reliable env hS l h3 g3 hw2
        refine ⟨e2, s2, ?_, ?_, ?_, i4⟩
        · rw [Encoder.run, h1, some_bind]
          exact i1
        · rw [writesOf, List.flatten_cons, ← List.append_assoc]
          exact i2
        · rw [i3, g2, List.flatten_append, List.append_assoc]

theorem take_append_flatten {α : Type} (a b : List α) {n : Nat} (h : n < a.length) : a.take n = (a ++ b).take n := by
  rw [List.take_append_of_le_length (by omega)]

/-- In some state, `flush` fails. -/
def FlushFails (S : Sink σ) (k : ErrKind) : Prop := ∃ s s', S.flush s = (.error k, s')

theorem run_recorded (env : Env σ) {log : σ → List UInt8} {failed : σ → Option ErrKind} (hS : Recorded env.S log failed) {fmt : Format} :
    ∀ (calls : List Call) {e e' : Encoder σ} {c c' : DCore} {data : List UInt8} {s : σ} {cs : List (List UInt8)} {r : Except ErrKind Unit},
    e.Is fmt c data s → failed s = none →
    coreWrites env.F env.options env.btype c (writesOf calls) = some (cs, c') → e.run env calls = some (r, e') →
    (∀ u, r = .ok u → ∃ s', e'.Is fmt c' (data ++ (writesOf calls).flatten) s' ∧ failed s' = none ∧ log s' = log s ++ cs.flatten) ∧
    (∀ k, r = .error k → ∃ s', e'.sink? = some s' ∧ failed s' = some k ∧ ∃ n, (n < cs.flatten.length ∨ FlushFails env.S k ∧ n ≤ cs.flatten.length) ∧ log s' = log s ++ cs.flatten.take n)
  | [], e, e', c, c', data, s, cs, r, he, hI, hc, hr => by
    cases hc
    cases hr
    exact ⟨fun u _ => ⟨s, by simpa [writesOf] using he, hI, by simp⟩, by intro k hk; cases hk⟩
  | .flush :: l, e, e', c, c', data, s, cs, r, he, hI, hc, hr => by
    obtain ⟨e1, h1, h2⟩ := Encoder.flush_outcome env he
    rw [Encoder.run, h1, some_bind] at hr
    rcases hq : env.S.flush s with ⟨q, s1⟩
    rw [hq] at h2 hr
    dsimp only at h2 hr
    cases q with
    | error k =>
      cases hr
      refine ⟨(by intro u hu; cases hu), ?_⟩
      intro k' hk
      cases hk
      obtain ⟨g1, g2⟩ := hS.flush_error s k s1 hI hq
      exact ⟨s1, h2.sink, g1, 0, .inr ⟨⟨s, s1, hq⟩, by omega⟩, by simp [g2]⟩
    | ok u =>
      obtain ⟨g1, g2⟩ := hS.flush_ok s s1 hI hq
      have := run_recorded env hS l h2 g1 hc hr
      rw [g2] at this
      exact this
  | .write buf :: l, e, e', c, c', data, s, cs, r, he, hI, hc, hr => by
    rw [writesOf, coreWrites] at hc
    cases hw : c.write env.F env.options env.btype buf with
    | none => rw [hw] at hc; cases hc
    | some p =>
      obtain ⟨cs1, c1⟩ := p
      rw [hw, some_bind] at hc
      dsimp only at hc
      cases hw2 : coreWrites env.F env.options env.btype c1 (writesOf l) with
      | none => rw [hw2] at hc; cases hc
      | some p =>
        obtain ⟨cs2, c2⟩ := p
        rw [hw2, some_bind] at hc
        cases hc
        have := Encoder.write_outcome env he hw
        rw [Encoder.run] at hr
        cases hm : writeMany env.S s cs1 with
        | none =>
          rw [hm] at this
          have this : _ = none := this
          rw [this] at hr
          cases hr
        | some p =>
          obtain ⟨q, s1⟩ := p
          rw [hm] at this
          obtain ⟨g1, g2⟩ := hS.writeMany cs1 hm hI
          cases q with
          | error k =>
            obtain ⟨e1, h1, h2⟩ := this
            rw [h1, some_bind] at hr
            cases hr
            refine ⟨(by intro u hu; cases hu), ?_⟩
            intro k' hk
            cases hk
            obtain ⟨i1, n, hl, i2⟩ := g2 _ rfl
            refine ⟨s1, h2, i1, n, .inl (by rw [List.flatten_append, List.length_append]; omega), ?_⟩
            rw [i2, List.flatten_append, take_append_flatten _ _ hl]
          | ok u =>
            obtain ⟨⟨r1, e1⟩, h1, h2, h3⟩ := this
            dsimp only at h2 h3
            subst h2
            rw [h1, some_bind] at hr
            obtain ⟨i1, i2⟩ := g1 u rfl
            obtain ⟨j1, j2⟩ := run_recorded env hS l h3 i1 hw2 hr
            dsimp only at i2
            refine ⟨fun u hu => ?_, fun k hk => ?_⟩
            · obtain ⟨s2, k1, k2, k3⟩ := j1 u hu
              refine ⟨s2, ?_, k2, ?_⟩
              · rw [writesOf, List.flatten_cons, ← List.append_assoc]
                exact k1
              · rw [k3, i2, List.flatten_append, List.append_assoc]
            · obtain ⟨s2, k1, k2, n, hl, k3⟩ := j2 k hk
              refine ⟨s2, k1, k2, cs1.flatten.length + n, ?_, ?_⟩
              · rw [List.flatten_append, List.length_append]
                dsimp only
                exact hl.imp (by omega) (And.imp_right (by omega))
              rw [k3, i2, List.flatten_append, List.append_assoc, List.take_length_add_append]

/-! ## Sessions -/

/-- The stream of a session with the given writes. -/
structure StreamOf (F : FloatOps) (o : Options) (bt : BlockType) (fmt : Format) (writes : List (List UInt8)) (stream : List UInt8) : Prop where
  core : ∃ cs c cs', coreWrites F o bt DCore.new writes = some (cs, c) ∧ c.finish F o bt = some cs' ∧
    stream = header fmt ++ (cs.flatten ++ (cs' ++ trailer fmt writes.flatten).flatten)

theorem StreamOf.unique {F : FloatOps} {o : Options} {bt : BlockType} {fmt : Format} {writes : List (List UInt8)} {s1 s2 : List UInt8}
    (h1 : StreamOf F o bt fmt writes s1) (h2 : StreamOf F o bt fmt writes s2) : s1 = s2 := by
  obtain ⟨cs, c, cs', a1, a2, rfl⟩ := h1.core
  obtain ⟨ds, d, ds', b1, b2, rfl⟩ := h2.core
  rw [a1] at b1
  cases b1
  rw [a2] at b2
  cases b2
  rfl

theorem streamOf_exists {F : FloatOps} (L : FloatLaws F) (o : Options) (bt : BlockType) (fmt : Format) (writes : List (List UInt8))
    (hw : ∀ w ∈ writes, w.length < L.lim) :
    ∃ stream body blocks, StreamOf F o bt fmt writes stream ∧ stream = header fmt ++ body ++ (trailer fmt writes.flatten).flatten ∧
      ValidStream body blocks writes.flatten := by
  obtain ⟨⟨cs, c⟩, e1, prev, chunk, h1, h2, h3⟩ := coreWrites_spec L o bt writes DInv.new L.lim_pos hw
  obtain ⟨cs', e2, blocks, h4⟩ := h1.finish L o bt h3
  rw [h2] at h4
  dsimp only at h4
  refine ⟨_, cs.flatten ++ cs'.flatten, blocks, ⟨cs, c, cs', e1, e2, rfl⟩, ?_, ?_⟩
  · simp [List.append_assoc]
  · simpa using h4

theorem session_reliable (env : Env σ) {I : σ → Prop} {log : σ → List UInt8} {μ : σ → Nat} (hS : Reliable env.S I log μ) (fmt : Format)
    (calls : List Call) (ending : Ending) {s : σ} (hI : I s) {stream : List UInt8}
    (h : StreamOf env.F env.options env.btype fmt (writesOf calls) stream) :
    ∃ s', session env fmt calls ending s = some (.ok (), s') ∧ log s' = log s ++ stream ∧ I s' := by
  obtain ⟨cs, c, cs', hc1, hc2, rfl⟩ := h.core
  have h0 := Encoder.new_outcome env fmt s
  obtain ⟨s0, a1, a2, a3⟩ := hS.writeMany [header fmt] s hI
  rw [a1] at h0
  obtain ⟨_, h0, e0, rfl, he0⟩ := h0
  obtain ⟨e1, s1, b1, b2, b3, b4⟩ := run_reliable env hS calls he0 a3 hc1
  rw [List.nil_append] at b2
  obtain ⟨s2, d1, d2, d3⟩ := hS.writeMany (cs' ++ trailer fmt (writesOf calls).flatten) s1 b4
  have hlog : log s2 = log s ++ (header fmt ++ (cs.flatten ++ (cs' ++ trailer fmt (writesOf calls).flatten).flatten)) := by
    rw [d2, b3, a2]; simp [List.append_assoc]
  refine ⟨s2, ?_, hlog, d3⟩
  unfold session
  rw [h0, some_bind]
  dsimp only
  rw [b1, some_bind]
  dsimp only
  cases ending with
  | finish =>
    have := Encoder.finish_outcome env b2 hc2
    rw [d1] at this
    obtain ⟨_, this, rfl⟩ := this
    exact this
  | drop =>
    have := Encoder.drop_outcome env b2 hc2
    rw [d1] at this
    obtain ⟨_, this, rfl⟩ := this
    dsimp only
    rw [this]
    rfl

theorem session_recorded (env : Env σ) {log : σ → List UInt8} {failed : σ → Option ErrKind} (hS : Recorded env.S log failed) (fmt : Format)
    (calls : List Call) {s s' : σ} (hI : failed s = none) {stream : List UInt8} {r : Except ErrKind Unit}
    (h : StreamOf env.F env.options env.btype fmt (writesOf calls) stream) (hr : session env fmt calls .finish s = some (r, s')) :
    (∀ u, r = .ok u → failed s' = none ∧ log s' = log s ++ stream) ∧
    (∀ k, r = .error k → failed s' = some k ∧ ∃ n, (n < stream.length ∨ FlushFails env.S k) ∧ log s' = log s ++ stream.take n) := by
  obtain ⟨cs, c, cs', hc1, hc2, rfl⟩ := h.core
  have h0 := Encoder.new_outcome env fmt s
  unfold session at hr
  cases hm : writeMany env.S s [header fmt] with
  | none =>
    rw [hm] at h0
    have h0 : _ = none := h0
    rw [h0] at hr
    cases hr
  | some p =>
    obtain ⟨q, s0⟩ := p
    rw [hm] at h0
    obtain ⟨g1, g2⟩ := hS.writeMany _ hm hI
    rw [List.flatten_cons, List.flatten_nil, List.append_nil] at g1 g2
    cases q with
    | error k =>
      have h0 : _ = some _ := h0
      rw [h0, some_bind] at hr
      cases hr
      refine ⟨(by intro u hu; cases hu), ?_⟩
      intro k' hk
      cases hk
      obtain ⟨i1, n, hl, i2⟩ := g2 _ rfl
      refine ⟨i1, n, .inl (by rw [List.length_append]; omega), ?_⟩
      rw [i2, take_append_flatten _ _ hl]
    | ok u =>
      obtain ⟨_, h0, e0, rfl, he0⟩ := h0
      obtain ⟨i1, i2⟩ := g1 u rfl
      dsimp only at i1 i2
      rw [h0, some_bind] at hr
      dsimp only at hr
      cases hrun : e0.run env calls with
      | none => rw [hrun] at hr; cases hr
      | some p =>
        obtain ⟨q, e1⟩ := p
        rw [hrun, some_bind] at hr
        obtain ⟨j1, j2⟩ := run_recorded env hS calls he0 i1 hc1 hrun
        cases q with
        | error k =>
          obtain ⟨s1, k1, k2, n, hl, k3⟩ := j2 k rfl
          dsimp only at hr
          cases hd : e1.drop env with
          | none => rw [hd] at hr; cases hr
          | some s2 =>
            rw [hd, some_bind] at hr
            cases hr
            refine ⟨(by intro u hu; cases hu), ?_⟩
            intro k' hk
            cases hk
            obtain ⟨l1, l2⟩ := Encoder.drop_inv env (hS.inv k (log s1)) hd k1 ⟨k2, rfl⟩
            refine ⟨l1, (header fmt).length + n, ?_, ?_⟩
            · simp only [List.length_append]
              exact hl.imp (by omega) And.left
            · rw [l2, k3, i2, List.take_length_add_append, List.take_append_of_le_length (by rcases hl with hl | hl <;> omega), List.append_assoc]
        | ok u =>
          obtain ⟨s1, k1, k2, k3⟩ := j1 u rfl
          dsimp only at hr
          have := Encoder.finish_outcome env k1 hc2
          rw [List.nil_append] at this
          cases hm2 : writeMany env.S s1 (cs' ++ trailer fmt (writesOf calls).flatten) with
          | none =>
            rw [hm2] at this
            have this : _ = none := this
            rw [this] at hr
            cases hr
          | some p =>
            obtain ⟨q, s2⟩ := p
            rw [hm2] at this
            obtain ⟨l1, l2⟩ := hS.writeMany _ hm2 k2
            cases q with
            | ok u =>
              obtain ⟨_, this, rfl⟩ := this
              rw [this] at hr
              cases hr
              refine ⟨?_, (by intro k hk; cases hk)⟩
              intro u hu
              obtain ⟨m1, m2⟩ := l1 u hu
              dsimp only at m1 m2
              exact ⟨m1, by rw [m2, k3, i2]; simp [List.append_assoc]⟩
            | error k =>
              obtain ⟨m1, n, hl, m2⟩ := l2 k rfl
              dsimp only at m1 m2
              have this : Left _ _ _ _ := this
              obtain ⟨n1, n2⟩ := this _ hr
              dsimp only at n1 n2
              subst n1
              refine ⟨(by intro u hu; cases hu), ?_⟩
              intro k' hk
              cases hk
              obtain ⟨l1, l2⟩ := n2 _ (hS.inv k (log s2)) ⟨m1, rfl⟩
              refine ⟨l1, (header fmt).length + (cs.flatten.length + n), .inl (by rw [List.length_append, List.length_append]; omega), ?_⟩
              rw [l2, m2, k3, i2, List.take_length_add_append, List.take_length_add_append, List.append_assoc, List.append_assoc]

end Zopfli
