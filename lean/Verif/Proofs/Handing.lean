import Verif.Spec.Handing
import Verif.Proofs.Buffered
import Verif.Proofs.Main
/-! # Handing data to an encoder in other ways -/

namespace Zopfli

variable {σ : Type}

/-- `write_all` is one `write`. -/
theorem Encoder.writeAll_eq [Checks] (env : Env σ) (e : Encoder σ) (buf : List UInt8) :
    e.writeAll env buf = e.run env (Hand.writeAll buf).plain := by
  rw [Encoder.writeAll]
  unfold Hand.plain
  by_cases hp : buf = []
  · rw [if_pos hp]
    dsimp only
    rw [if_pos hp]
    rfl
  · rw [if_neg hp]
    dsimp only
    rw [if_neg hp, Encoder.run]
    cases hw : e.write env buf with
    | none => rfl
    | some x =>
      have := Encoder.write_result env hw
      obtain ⟨r, e'⟩ := x
      rw [some_bind, some_bind]
      dsimp only at this ⊢
      have hl : buf.length ≠ 0 := by simpa using hp
      obtain ⟨n, hn⟩ : ∃ n, buf.length = n + 1 := ⟨buf.length - 1, by omega⟩
      rcases this with rfl | ⟨k, h1, rfl⟩
      · rw [hn]
        dsimp only
        rw [← hn, if_pos (Nat.le_refl _), List.drop_length, Encoder.writeAll, if_pos rfl]
        rfl
      · cases k with
        | interrupted => exact absurd rfl h1
        | writeZero => rfl
        | other j => rfl

theorem Encoder.writeFmt_eq [Checks] (env : Env σ) : ∀ (pieces : List (List UInt8)) (e : Encoder σ),
    Encoder.writeFmt env pieces e = e.run env (Hand.writeFmt pieces).plain
  | [], e => rfl
  | p :: l, e => by
    have hpl : (Hand.writeFmt (p :: l)).plain = (Hand.writeAll p).plain ++ (Hand.writeFmt l).plain := by
      unfold Hand.plain
      dsimp only
      cases p <;> simp
    rw [hpl, Encoder.run_append, ← Encoder.writeAll_eq]
    rw [Encoder.writeFmt]
    cases e.writeAll env p with
    | none => rfl
    | some x =>
      obtain ⟨r, e'⟩ := x
      cases r with
      | ok u => exact Encoder.writeFmt_eq env l e'
      | error k => rfl

/-- The buffers that are left when `n` bytes are consumed. -/
theorem advanceSlices_zero : ∀ (bufs : List (List UInt8)), ∃ l, advanceSlices bufs 0 = some l ∧
    (l.filter fun b => !b.isEmpty) = bufs.filter (fun b => !b.isEmpty) ∧ l.length ≤ bufs.length ∧ ∀ b t, l = b :: t → b ≠ []
  | [] => ⟨[], rfl, rfl, Nat.le_refl _, by intro b t h; cases h⟩
  | [] :: bs => by
    obtain ⟨l, h1, h2, h3, h4⟩ := advanceSlices_zero bs
    refine ⟨l, ?_, ?_, ?_, h4⟩
    · rw [advanceSlices]
      exact h1
    · rw [h2]
      rfl
    · rw [List.length_cons]
      omega
  | (x :: b) :: bs => by
    refine ⟨(x :: b) :: bs, ?_, rfl, Nat.le_refl _, ?_⟩
    · rw [advanceSlices, if_neg (by simp)]
      rfl
    · intro b' t h
      cases h
      simp

theorem Encoder.writeAllVectoredLoop_eq [Checks] (env : Env σ) : ∀ (n : Nat) (bufs : List (List UInt8)), bufs.length ≤ n → (∀ b t, bufs = b :: t → b ≠ []) →
    ∀ (e : Encoder σ), e.writeAllVectoredLoop env bufs = e.run env (Hand.writeAllVectored bufs).plain
  | _, [], _, _, e => by
    rw [Encoder.writeAllVectoredLoop, if_pos rfl]
    rfl
  | 0, _ :: _, h, _, _ => by simp at h
  | n + 1, b :: bs, hl, hb, e => by
    have hbne := hb b bs rfl
    have hf : ((b :: bs).find? fun b => !b.isEmpty) = some b := by
      rw [List.find?_cons_of_pos]
      cases b with
      | nil => exact absurd rfl hbne
      | cons x b => rfl
    have hfilter : (Hand.writeAllVectored (b :: bs)).plain = .write b :: (Hand.writeAllVectored bs).plain := by
      unfold Hand.plain
      dsimp only
      cases b with
      | nil => exact absurd rfl hbne
      | cons x b => simp
    rw [hfilter, Encoder.run, Encoder.writeAllVectoredLoop, if_neg (by simp)]
    unfold Encoder.writeVectored
    rw [hf, Option.getD_some]
    cases hw : e.write env b with
    | none => rfl
    | some x =>
      have := Encoder.write_result env hw
      obtain ⟨r, e'⟩ := x
      rw [some_bind, some_bind]
      dsimp only at this ⊢
      have hlen : b.length ≠ 0 := by simpa using hbne
      obtain ⟨m, hm⟩ : ∃ m, b.length = m + 1 := ⟨b.length - 1, by omega⟩
      rcases this with rfl | ⟨k, h1, rfl⟩
      · rw [hm]
        dsimp only
        rw [← hm, advanceSlices, if_pos (Nat.le_refl _), Nat.sub_self]
        obtain ⟨l, h1, h2, h3, h4⟩ := advanceSlices_zero bs
        rw [h1, some_bind, Encoder.writeAllVectoredLoop_eq env n l (by rw [List.length_cons] at hl; omega) h4]
        unfold Hand.plain
        dsimp only
        rw [h2]
      · cases k with
        | interrupted => exact absurd rfl h1
        | writeZero => rfl
        | other j => rfl

theorem Encoder.writeAllVectored_eq [Checks] (env : Env σ) (e : Encoder σ) (bufs : List (List UInt8)) :
    e.writeAllVectored env bufs = e.run env (Hand.writeAllVectored bufs).plain := by
  unfold Encoder.writeAllVectored
  obtain ⟨l, h1, h2, h3, h4⟩ := advanceSlices_zero bufs
  rw [h1, some_bind, Encoder.writeAllVectoredLoop_eq env _ l (Nat.le_refl _) h4]
  unfold Hand.plain
  dsimp only
  rw [h2]

theorem Encoder.run_one [Checks] (env : Env σ) (e : Encoder σ) (buf : List UInt8) :
    e.run env [.write buf] = do let (r, e) ← e.write env buf; return (r.map fun _ => (), e) := by
  rw [Encoder.run]
  cases e.write env buf with
  | none => rfl
  | some x =>
    obtain ⟨r, e'⟩ := x
    cases r <;> rfl

/-- Every call amounts to plain calls. -/
theorem Encoder.hand_eq [Checks] (env : Env σ) (e : Encoder σ) (h : Hand) : e.hand env h = e.run env h.plain := by
  cases h with
  | write buf => exact (Encoder.run_one env e buf).symm
  | writeAll buf => exact Encoder.writeAll_eq env e buf
  | writeVectored bufs => exact (Encoder.run_one env e _).symm
  | writeAllVectored bufs => exact Encoder.writeAllVectored_eq env e bufs
  | writeFmt pieces => exact Encoder.writeFmt_eq env pieces e
  | flush =>
    show e.flush env = e.run env [.flush]
    rw [Encoder.run]
    cases e.flush env with
    | none => rfl
    | some x =>
      obtain ⟨r, e'⟩ := x
      cases r <;> rfl

theorem Encoder.hands_eq [Checks] (env : Env σ) : ∀ (hs : List Hand) (e : Encoder σ), Encoder.hands env hs e = e.run env (hs.flatMap Hand.plain)
  | [], e => rfl
  | h :: hs, e => by
    rw [List.flatMap_cons, Encoder.run_append, ← Encoder.hand_eq]
    rw [Encoder.hands]
    cases e.hand env h with
    | none => rfl
    | some x =>
      obtain ⟨r, e'⟩ := x
      cases r with
      | ok u => exact Encoder.hands_eq env hs e'
      | error k => rfl

theorem handSession_eq [Checks] (env : Env σ) (fmt : Format) (hs : List Hand) (ending : Ending) (s : σ) :
    handSession env fmt hs ending s = session env fmt (hs.flatMap Hand.plain) ending s := by
  unfold handSession session
  simp only [Encoder.hands_eq]
  cases Encoder.new env fmt s with
  | none => rfl
  | some x =>
    obtain ⟨r, s'⟩ := x
    cases r with
    | error k => rfl
    | ok e =>
      rw [some_bind, some_bind]
      dsimp only
      cases e.run env (hs.flatMap Hand.plain) with
      | none => rfl
      | some x =>
        obtain ⟨r, e'⟩ := x
        cases r with
        | error k => rfl
        | ok u => cases ending <;> rfl

theorem writesOf_map_write (l : List (List UInt8)) : writesOf (l.map .write) = l := by
  induction l with
  | nil => rfl
  | cons x l ih => rw [List.map_cons, writesOf, ih]

theorem filter_flatten (l : List (List UInt8)) : (l.filter fun b => !b.isEmpty).flatten = l.flatten := by
  induction l with
  | nil => rfl
  | cons x l ih =>
    cases x with
    | nil => simpa using ih
    | cons y x => simpa using ih

theorem Hand.plain_data (h : Hand) : (writesOf h.plain).flatten = h.data := by
  cases h with
  | write buf => simp [Hand.plain, Hand.data, writesOf]
  | writeAll buf =>
    unfold Hand.plain Hand.data
    dsimp only
    split
    · rename_i h; rw [h]; rfl
    · simp [writesOf]
  | writeVectored bufs => simp [Hand.plain, Hand.data, writesOf]
  | writeAllVectored bufs => simp only [Hand.plain, Hand.data, writesOf_map_write, filter_flatten]
  | writeFmt bufs => simp only [Hand.plain, Hand.data, writesOf_map_write, filter_flatten]
  | flush => rfl

theorem plain_data (hs : List Hand) : (writesOf (hs.flatMap Hand.plain)).flatten = (hs.map Hand.data).flatten := by
  induction hs with
  | nil => rfl
  | cons h hs ih => rw [List.flatMap_cons, writesOf_append, List.flatten_append, Hand.plain_data, ih]; rfl

/-! ## Copying -/

/-- The result of copying, from the results of the writes and of the reader. -/
def endCopy (res : Except ErrKind Unit) (x : Except ErrKind Unit × Encoder σ) : Except ErrKind Unit × Encoder σ :=
  (match x.1 with | .ok () => res | .error k => .error k, x.2)

theorem copyInto_eq [Checks] {ρ : Type} {R : Reader ρ} {J : ρ → Prop} {data : ρ → List UInt8} {res : Except ErrKind Unit} {μ : ρ → Nat}
    (hR : Delivers R J data res μ) : ∀ (n m : Nat) (r : ρ), J r → (data r).length ≤ n → μ r ≤ m →
    ∃ pieces : List (List UInt8), pieces.flatten = data r ∧ (∀ p ∈ pieces, p ≠ [] ∧ p.length ≤ DEFAULT_BUF_SIZE) ∧
      ∀ (σ : Type) (env : Env σ) (e : Encoder σ), copyInto env R r e = (e.run env (pieces.map .write)).map (endCopy res) := by
  intro n
  induction n using Nat.strongRecOn with
  | ind n ihn =>
    intro m
    induction m using Nat.strongRecOn with
    | ind m ihm =>
      intro r hr hn hm
      rcases hR.read r DEFAULT_BUF_SIZE hr (by decide) with ⟨l, r', h1, h2, h3, h4, h5⟩ | ⟨r', h1, h2, h3, h4⟩ | ⟨r', h1, h2⟩
      · have hl : 0 < l.length := List.length_pos_of_ne_nil h2
        have hlen : (data r).length = l.length + (data r').length := by rw [h4, List.length_append]
        obtain ⟨pieces, i1, i2, i3⟩ := ihn (data r').length (by omega) (μ r') r' h5 (Nat.le_refl _) (Nat.le_refl _)
        refine ⟨l :: pieces, by rw [List.flatten_cons, i1, h4], ?_, ?_⟩
        · intro p hp
          rcases List.mem_cons.mp hp with rfl | hp
          · exact ⟨h2, h3⟩
          · exact i2 p hp
        · intro σ env e
          rw [copyInto, h1]
          obtain ⟨b, bs, rfl⟩ : ∃ b bs, l = b :: bs := by
            cases l with
            | nil => exact absurd rfl h2
            | cons b bs => exact ⟨b, bs, rfl⟩
          dsimp only
          rw [if_pos h3, Encoder.writeAll_eq]
          have : (Hand.writeAll (b :: bs)).plain = [.write (b :: bs)] := by
            unfold Hand.plain
            dsimp only
            rw [if_neg (by simp)]
          rw [this, Encoder.run_one, List.map_cons, Encoder.run]
          cases e.write env (b :: bs) with
          | none => rfl
          | some x =>
            obtain ⟨q, e'⟩ := x
            cases q with
            | ok k => exact i3 σ env e'
            | error k => rfl
      · obtain ⟨pieces, i1, i2, i3⟩ := ihm (μ r') (by omega) r' h4 (by rw [h2]; exact hn) (Nat.le_refl _)
        refine ⟨pieces, by rw [i1, h2], i2, ?_⟩
        intro σ env e
        rw [copyInto, h1]
        exact i3 σ env e
      · refine ⟨[], by rw [h2]; rfl, (by intro p hp; cases hp), ?_⟩
        intro σ env e
        rw [copyInto, h1]
        cases res with
        | ok u => rfl
        | error k =>
          have := hR.not_interrupted
          cases k with
          | interrupted => exact absurd rfl this
          | writeZero => rfl
          | other j => rfl

/-! ## Encoders as sinks -/

/-- An encoder that has only seen successful calls, with a record of the data. -/
def Fed [Checks] (env : Env σ) (e0 : Encoder σ) (t : Spy (Option (Encoder σ))) : Prop :=
  ∃ e calls, t.sink = some e ∧ Fits (writesOf calls) ∧ e0.run env calls = some (.ok (), e) ∧ t.log = (writesOf calls).flatten

theorem Fed.start [Checks] (env : Env σ) (e : Encoder σ) : Fed env e ⟨some e, [], none⟩ :=
  ⟨e, [], rfl, (by intro w hw; cases hw), rfl, rfl⟩

theorem Fed.write [Checks] {env : Env σ} {e0 : Encoder σ} {t : Spy (Option (Encoder σ))} (h : t.failed = none → Fed env e0 t) (buf : List UInt8) :
    ((spy (encoderSink env)).write t buf).2.failed = none → Fed env e0 ((spy (encoderSink env)).write t buf).2 := by
  obtain ⟨es, log, failed⟩ := t
  dsimp only at h
  cases failed with
  | some k =>
    intro hf
    simp only [spy] at hf
    cases hf
  | none =>
    obtain ⟨e, calls, rfl, h2, h3, h4⟩ := h rfl
    dsimp only at h4
    cases hw : e.write env (buf.take (2 ^ 47 - 1)) with
    | none =>
      intro hf
      simp only [spy, encoderSink, Option.bind_some, hw] at hf
      cases hf
    | some x =>
      have hres := Encoder.write_result env hw
      obtain ⟨r, e'⟩ := x
      dsimp only at hres
      rcases hres with rfl | ⟨k, h1, rfl⟩
      · intro hf
        simp only [spy, encoderSink, Option.bind_some, hw] at hf ⊢
        split at hf
        · cases hf
        · rename_i hc
          rw [if_neg hc]
          refine ⟨e', calls ++ [.write (buf.take (2 ^ 47 - 1))], rfl, ?_, ?_, ?_⟩
          · intro w hw'
            rw [writesOf_append] at hw'
            rcases List.mem_append.mp hw' with hw' | hw'
            · exact h2 w hw'
            · simp only [writesOf, List.mem_singleton] at hw'
              rw [hw', List.length_take]
              omega
          · rw [Encoder.run_append, h3, some_bind]
            dsimp only
            rw [Encoder.run_one, hw]
            rfl
          · dsimp only
            rw [writesOf_append, List.flatten_append, h4, List.length_take]
            simp only [writesOf, List.flatten_cons, List.flatten_nil, List.append_nil]
            congr 1
            rcases Nat.le_total buf.length (2 ^ 47 - 1) with hl | hl
            · rw [Nat.min_eq_right hl, List.take_of_length_le hl, List.take_length]
            · rw [Nat.min_eq_left hl]
      · intro hf
        simp only [spy, encoderSink, Option.bind_some, hw] at hf
        cases k with
        | interrupted => exact absurd rfl h1
        | writeZero => cases hf
        | other j => cases hf

theorem Fed.flush [Checks] {env : Env σ} {e0 : Encoder σ} {t : Spy (Option (Encoder σ))} (h : t.failed = none → Fed env e0 t) :
    ((spy (encoderSink env)).flush t).2.failed = none → Fed env e0 ((spy (encoderSink env)).flush t).2 := by
  obtain ⟨es, log, failed⟩ := t
  dsimp only at h
  cases failed with
  | some k =>
    intro hf
    simp only [spy] at hf
    cases hf
  | none =>
    obtain ⟨e, calls, rfl, h2, h3, h4⟩ := h rfl
    dsimp only at h4
    cases hw : e.flush env with
    | none =>
      intro hf
      simp only [spy, encoderSink, Option.bind_some, hw] at hf
      cases hf
    | some x =>
      obtain ⟨r, e'⟩ := x
      cases r with
      | ok u =>
        intro hf
        simp only [spy, encoderSink, Option.bind_some, hw] at hf ⊢
        refine ⟨e', calls ++ [.flush], rfl, ?_, ?_, ?_⟩
        · rw [writesOf_append]
          simpa [writesOf] using h2
        · rw [Encoder.run_append, h3, some_bind]
          dsimp only
          rw [Encoder.run, hw]
          rfl
        · dsimp only
          rw [writesOf_append, h4]
          simp [writesOf]
      | error k =>
        intro hf
        simp only [spy, encoderSink, Option.bind_some, hw] at hf
        cases hf

/-- What every call of the sink preserves, a session preserves. -/
theorem session_inv {F : FloatOps} {S : Sink σ} {o : Options} {bt : BlockType} {fmt : Format} {calls : List Call} {ending : Ending} {s s' : σ}
    {x : Except ErrKind Unit} (P : σ → Prop) (hw : ∀ s b, P s → P (S.write s b).2) (hf : ∀ s, P s → P (S.flush s).2) (hs : P s)
    (h : session ⟨F, S, o, bt⟩ fmt calls ending s = some (x, s')) : P s' := by
  have hc := (S.sub_hom P hw hf).session (F := F) (o := o) (bt := bt) fmt calls ending ⟨s, hs⟩
  rw [show (Subtype.val (⟨s, hs⟩ : { s // P s })) = s from rfl, h] at hc
  cases hy : session ⟨F, S.sub P hw hf, o, bt⟩ fmt calls ending ⟨s, hs⟩ with
  | none => rw [hy] at hc; cases hc
  | some y =>
    rw [hy] at hc
    obtain ⟨x', t⟩ := y
    cases hc
    exact t.2
/-- A new encoder on a sink that does not fail, and any calls on it. -/
theorem fed_ok (env : Env σ) (L : FloatLaws env.F) {I : σ → Prop} {log : σ → List UInt8} {μ : σ → Nat} (hS : Reliable env.S I log μ) (fmt : Format)
    {s : σ} (hI : I s) : ∃ e s1, Encoder.new env fmt s = some (.ok e, s1) ∧
      ∀ calls, (∀ w ∈ writesOf calls, w.length < L.lim) → ∃ e', e.run env calls = some (.ok (), e') := by
  have h0 := Encoder.new_outcome env fmt s
  obtain ⟨s0, a1, a2, a3⟩ := hS.writeMany [header fmt] s hI
  rw [a1] at h0
  obtain ⟨_, h0, e0, rfl, he0⟩ := h0
  refine ⟨e0, _, h0, ?_⟩
  intro calls hw
  obtain ⟨stream, body, blocks, h1, -, -⟩ := streamOf_exists L env.options env.btype fmt (writesOf calls) hw
  obtain ⟨cs, c, cs', hc1, hc2, -⟩ := h1.core
  obtain ⟨e1, s1, b1, -⟩ := run_reliable env hS calls he0 a3 hc1
  exact ⟨e1, b1⟩

theorem fed_reliable (env : Env σ) {e0 : Encoder σ}
    (hrun : ∀ calls, Fits (writesOf calls) → ∃ e', e0.run env calls = some (.ok (), e')) :
    Reliable (spy (encoderSink env)) (fun t => t.failed = none ∧ Fed env e0 t) Spy.log (fun _ => 0) where
  write t buf ht hb := by
    have hnext := Fed.write (env := env) (e0 := e0) (t := t) (fun _ => ht.2) buf
    obtain ⟨es, log, failed⟩ := t
    obtain ⟨hf, e, calls, h1, h2, h3, h4⟩ := ht
    dsimp only at hf h1 h4
    subst hf h1
    have hlen : (buf.take (2 ^ 47 - 1)).length ≤ 2 ^ 47 - 1 := by rw [List.length_take]; omega
    have hlen' : 1 ≤ (buf.take (2 ^ 47 - 1)).length := by
      have := List.length_pos_of_ne_nil hb
      rw [List.length_take]
      omega
    have hlen2 : (buf.take (2 ^ 47 - 1)).length ≤ buf.length := by rw [List.length_take]; omega
    obtain ⟨e', hr⟩ := hrun (calls ++ [.write (buf.take (2 ^ 47 - 1))]) (by
      intro w hw'
      rw [writesOf_append] at hw'
      rcases List.mem_append.mp hw' with hw' | hw'
      · exact h2 w hw'
      · simp only [writesOf, List.mem_singleton] at hw'
        rw [hw']
        omega)
    rw [Encoder.run_append, h3, some_bind] at hr
    dsimp only at hr
    rw [Encoder.run_one] at hr
    cases hw : e.write env (buf.take (2 ^ 47 - 1)) with
    | none => rw [hw] at hr; cases hr
    | some x =>
      have hres := Encoder.write_result env hw
      obtain ⟨r, e''⟩ := x
      rw [hw] at hr
      dsimp only at hres
      rcases hres with rfl | ⟨k, -, rfl⟩
      · left
        have hval : (spy (encoderSink env)).write ⟨some e, log, none⟩ buf =
            (.ok (buf.take (2 ^ 47 - 1)).length, ⟨some e'', log ++ buf.take (buf.take (2 ^ 47 - 1)).length, none⟩) := by
          simp only [spy, encoderSink, Option.bind_some, hw]
          rw [if_neg (by rintro ⟨h, -⟩; omega)]
        rw [hval] at hnext
        exact ⟨_, _, hval, hlen', hlen2, rfl, rfl, hnext rfl⟩
      · cases hr
  flush t ht := by
    have hnext := Fed.flush (env := env) (e0 := e0) (t := t) (fun _ => ht.2)
    obtain ⟨es, log, failed⟩ := t
    obtain ⟨hf, e, calls, h1, h2, h3, h4⟩ := ht
    dsimp only at hf h1 h4
    subst hf h1
    obtain ⟨e', hr⟩ := hrun (calls ++ [.flush]) (by rw [writesOf_append]; simpa [writesOf] using h2)
    rw [Encoder.run_append, h3, some_bind] at hr
    dsimp only at hr
    rw [Encoder.run] at hr
    cases hw : e.flush env with
    | none => rw [hw] at hr; cases hr
    | some x =>
      obtain ⟨r, e''⟩ := x
      rw [hw] at hr
      cases r with
      | error k => cases hr
      | ok u =>
        have hval : (spy (encoderSink env)).flush ⟨some e, log, none⟩ = (.ok (), ⟨some e'', log, none⟩) := by
          simp only [spy, encoderSink, Option.bind_some, hw]
        rw [hval] at hnext
        exact ⟨_, hval, rfl, rfl, hnext rfl⟩

/-- Ending an encoder after known calls is ending a session. -/
theorem session_of_run [Checks] (env : Env σ) {fmt : Format} {s s1 : σ} {e e' : Encoder σ} {calls : List Call}
    (h1 : Encoder.new env fmt s = some (.ok e, s1)) (h2 : e.run env calls = some (.ok (), e')) :
    session env fmt calls .finish s = e'.finish env := by
  unfold session
  rw [h1, some_bind]
  dsimp only
  rw [h2, some_bind]

/-- An encoder is an honest sink over an honest sink. -/
theorem encoderSink_honest {env : Env σ} (L : FloatLaws env.F) (hlim : 2 ^ 47 ≤ L.lim) {I : σ → Prop} {μ : σ → Nat} (hS : Honest env.S I μ) :
    Honest (encoderSink env) (fun o => ∃ e, o = some e ∧ ESane L.lim I e) (fun _ => 0) where
  write := by
    rintro s buf ⟨e, rfl, he⟩
    obtain ⟨⟨r, e'⟩, hw, h1, h2⟩ := he.write L hS (buf := buf.take (2 ^ 47 - 1)) (by rw [List.length_take]; omega)
    simp only [encoderSink, Option.bind_some, hw]
    exact ⟨e', rfl, h1⟩
  flush := by
    rintro s ⟨e, rfl, he⟩
    obtain ⟨⟨r, e'⟩, hw, h1⟩ := he.flush hS
    simp only [encoderSink, Option.bind_some, hw]
    exact ⟨e', rfl, h1⟩
  count := by
    rintro s buf n ⟨e, rfl, he⟩ hn
    obtain ⟨⟨r, e'⟩, hw, h1, h2⟩ := he.write L hS (buf := buf.take (2 ^ 47 - 1)) (by rw [List.length_take]; omega)
    simp only [encoderSink, Option.bind_some, hw] at hn
    dsimp only at h2
    rcases h2 with rfl | ⟨k, rfl, -⟩
    · cases hn
      rw [List.length_take]
      omega
    · cases hn
  interrupt := by
    rintro s buf ⟨e, rfl, he⟩ hn
    obtain ⟨⟨r, e'⟩, hw, h1, h2⟩ := he.write L hS (buf := buf.take (2 ^ 47 - 1)) (by rw [List.length_take]; omega)
    simp only [encoderSink, Option.bind_some, hw] at hn
    dsimp only at h2
    rcases h2 with rfl | ⟨k, rfl, h⟩
    · cases hn
    · cases hn
      exact absurd rfl h

end Zopfli
