import Verif.Proofs.Faults
import Verif.Props.RoundTrip
/-!
# C05, C21, C22, C24, C25, C33: sinks that fail

A sink of which nothing is assumed is observed through `spy` (Verif/Spec/Session.lean), which passes every call on and
records the bytes accepted until the first failure, and that failure.
-/

namespace Zopfli

variable {log2 : Fp → Fp} {σ : Type} {S : Sink σ} {I : σ → Prop} {log : σ → List UInt8} {patience : σ → Nat}

/-- Observing a sink changes nothing: a session on the instrumented sink is the session on the sink itself. -/
theorem spy_transparent (F : FloatOps) (S : Sink σ) (o : Options) (bt : BlockType) (fmt : Format) (calls : List Call) (ending : Ending)
    (t : Spy σ) :
    session ⟨F, S, o, bt⟩ fmt calls ending t.sink =
      (session ⟨F, spy S, o, bt⟩ fmt calls ending t).map fun x => (x.1, x.2.sink) :=
  (spy_hom S).session fmt calls ending t

/-- The same for `compress`. -/
theorem spy_transparent_compress {ρ : Type} (F : FloatOps) (S : Sink σ) (R : Reader ρ) (o : Options) (fmt : Format) (r : ρ) (t : Spy σ) :
    compress F S R o fmt r t.sink = (compress F (spy S) R o fmt r t).map fun x => (x.1, x.2.sink) :=
  (spy_hom S).compress R fmt r t

/-- What any sink receives of the stream of a session. -/
theorem StreamOf.sink_errors {o : Options} {bt : BlockType} {fmt : Format} {calls : List Call} {stream : List UInt8}
    (h1 : StreamOf (ieee log2) o bt fmt (writesOf calls) stream) (σ : Type) (S : Sink σ) (s s' : σ) (r : Except ErrKind Unit)
    (hr : session ⟨ieee log2, S, o, bt⟩ fmt calls .finish s = some (r, s')) :
    ∃ accepted failed, session ⟨ieee log2, spy S, o, bt⟩ fmt calls .finish ⟨s, [], none⟩ = some (r, ⟨s', accepted, failed⟩) ∧
      (r = .ok () → failed = none ∧ accepted = stream) ∧
      ∀ k, r = .error k → failed = some k ∧ accepted <+: stream ∧
        ((∀ t t', S.flush t ≠ (.error k, t')) → accepted.length < stream.length) := by
  rw [spy_transparent (ieee log2) S o bt fmt calls .finish ⟨s, [], none⟩] at hr
  cases hx : session ⟨ieee log2, spy S, o, bt⟩ fmt calls .finish ⟨s, [], none⟩ with
  | none => rw [hx] at hr; cases hr
  | some x =>
    obtain ⟨r', t⟩ := x
    rw [hx] at hr
    cases hr
    obtain ⟨g1, g2⟩ := session_recorded ⟨ieee log2, spy S, o, bt⟩ (spy_recorded S) fmt calls (s := ⟨s, [], none⟩) rfl h1 hx
    refine ⟨t.log, t.failed, rfl, ?_, ?_⟩
    · intro hr
      obtain ⟨i1, i2⟩ := g1 () hr
      exact ⟨i1, by simpa using i2⟩
    · intro k hk
      obtain ⟨i1, n, i2, i3⟩ := g2 k hk
      have i3 : t.log = stream.take n := by simpa using i3
      refine ⟨i1, by rw [i3]; exact List.take_prefix n stream, fun hf => ?_⟩
      rcases i2 with i2 | ⟨u, u', i2⟩
      · rw [i3, List.length_take]; omega
      · have := (spy_hom S).fl u
        rw [i2] at this
        exact absurd this (hf _ _)

/-- **C21** There is one stream for the written buffers.  A sink that does not fail receives it.  With any other sink, if
the session reports success then the sink has not failed and has accepted exactly that stream; if it reports an error
then that is the sink's first failure, and what the sink had accepted by then is a prefix of the stream — a proper
prefix, unless it is `flush` that can fail that way. -/
theorem C21_sink_errors (hlog : Log2Ok log2) (o : Options) (bt : BlockType) (fmt : Format) (calls : List Call) (hfit : Fits (writesOf calls)) :
    ∃ stream, decode fmt stream = some (writesOf calls).flatten ∧
      (∀ (σ : Type) (S : Sink σ) (I : σ → Prop) (log : σ → List UInt8) (patience : σ → Nat), Reliable S I log patience → ∀ s, I s →
        ∃ s', session ⟨ieee log2, S, o, bt⟩ fmt calls .finish s = some (.ok (), s') ∧ log s' = log s ++ stream) ∧
      ∀ (σ : Type) (S : Sink σ) (s s' : σ) (r : Except ErrKind Unit), session ⟨ieee log2, S, o, bt⟩ fmt calls .finish s = some (r, s') →
        ∃ accepted failed, session ⟨ieee log2, spy S, o, bt⟩ fmt calls .finish ⟨s, [], none⟩ = some (r, ⟨s', accepted, failed⟩) ∧
          (r = .ok () → failed = none ∧ accepted = stream) ∧
          ∀ k, r = .error k → failed = some k ∧ accepted <+: stream ∧
            ((∀ t t', S.flush t ≠ (.error k, t')) → accepted.length < stream.length) := by
  obtain ⟨stream, body, blocks, h1, h2, h3⟩ := streamOf_exists (ieeeLaws hlog) o bt fmt (writesOf calls) hfit
  refine ⟨stream, h1.decode (ieeeLaws hlog) hfit, ?_, ?_⟩
  · intro σ S I log patience hS s hs
    obtain ⟨s', g1, g2, g3⟩ := session_reliable ⟨ieee log2, S, o, bt⟩ hS fmt calls .finish hs h1
    exact ⟨s', g1, g2⟩
  · exact h1.sink_errors

/-- **C21** The error is reported by the very call during which the sink fails: as long as the calls return `Ok` the sink
has not failed, and when a call returns an error, the sink has failed with that error. -/
theorem C21_reported_at_once (hlog : Log2Ok log2) (S : Sink σ) (o : Options) (bt : BlockType) (fmt : Format) (calls : List Call)
    (hfit : Fits (writesOf calls)) (s : σ) (e e' : Encoder (Spy σ)) (t : Spy σ) (r : Except ErrKind Unit)
    (hnew : Encoder.new ⟨ieee log2, spy S, o, bt⟩ fmt ⟨s, [], none⟩ = some (.ok e, t))
    (hrun : e.run ⟨ieee log2, spy S, o, bt⟩ calls = some (r, e')) :
    ∃ t', e'.sink? = some t' ∧ (r = .ok () → t'.failed = none) ∧ ∀ k, r = .error k → t'.failed = some k := by
  obtain ⟨⟨cs, c⟩, e1, -⟩ := coreWrites_spec (ieeeLaws hlog) o bt (writesOf calls) DInv.new (ieeeLaws hlog).lim_pos hfit
  have h0 := Encoder.new_outcome ⟨ieee log2, spy S, o, bt⟩ fmt (⟨s, [], none⟩ : Spy σ)
  cases hm : writeMany (spy S) ⟨s, [], none⟩ [header fmt] with
  | none =>
    dsimp only at h0
    rw [hm] at h0
    have h0 : _ = none := h0
    rw [h0] at hnew
    cases hnew
  | some p =>
    obtain ⟨q, s0⟩ := p
    dsimp only at h0
    rw [hm] at h0
    cases q with
    | error k =>
      have h0 : _ = some _ := h0
      rw [h0] at hnew
      cases hnew
    | ok u =>
      obtain ⟨_, h0, e0, rfl, he0⟩ := h0
      rw [h0] at hnew
      cases hnew
      obtain ⟨i1, i2⟩ := ((spy_recorded S).writeMany _ hm rfl).1 u rfl
      obtain ⟨j1, j2⟩ := run_recorded ⟨ieee log2, spy S, o, bt⟩ (spy_recorded S) calls he0 i1 e1 hrun
      cases r with
      | ok u =>
        obtain ⟨t', k1, k2, k3⟩ := j1 u rfl
        exact ⟨t', k1.sink, fun _ => k2, by intro k hk; cases hk⟩
      | error k =>
        obtain ⟨t', k1, k2, n, -, k3⟩ := j2 k rfl
        exact ⟨t', k1, (by intro hk; cases hk), (by intro k' hk; cases hk; exact k2)⟩

/-- **C21, C23** A session that ends by dropping the encoder: whatever the sink does, it has accepted a prefix of the
stream before its first failure, and all of the stream if it does not fail. -/
theorem C21_drop (hlog : Log2Ok log2) (o : Options) (bt : BlockType) (fmt : Format) (calls : List Call) (hfit : Fits (writesOf calls)) :
    ∃ stream, decode fmt stream = some (writesOf calls).flatten ∧
      (∀ (σ : Type) (S : Sink σ) (I : σ → Prop) (log : σ → List UInt8) (patience : σ → Nat), Reliable S I log patience → ∀ s, I s →
        ∃ s', session ⟨ieee log2, S, o, bt⟩ fmt calls .finish s = some (.ok (), s') ∧ log s' = log s ++ stream) ∧
      ∀ (σ : Type) (S : Sink σ) (s s' : σ) (r : Except ErrKind Unit), session ⟨ieee log2, S, o, bt⟩ fmt calls .drop s = some (r, s') →
        ∃ accepted failed, session ⟨ieee log2, spy S, o, bt⟩ fmt calls .drop ⟨s, [], none⟩ = some (r, ⟨s', accepted, failed⟩) ∧
          (failed = none → r = .ok () ∧ accepted = stream) ∧
          ∀ k, failed = some k → (r = .ok () ∨ r = .error k) ∧ accepted <+: stream := by
  obtain ⟨stream, body, blocks, h1, h2, h3⟩ := streamOf_exists (ieeeLaws hlog) o bt fmt (writesOf calls) hfit
  refine ⟨stream, h1.decode (ieeeLaws hlog) hfit, ?_, ?_⟩
  · intro σ S I log patience hS s hs
    obtain ⟨s', g1, g2, g3⟩ := session_reliable ⟨ieee log2, S, o, bt⟩ hS fmt calls .finish hs h1
    exact ⟨s', g1, g2⟩
  · intro σ S s s' r hr
    rw [spy_transparent (ieee log2) S o bt fmt calls .drop ⟨s, [], none⟩] at hr
    cases hx : session ⟨ieee log2, spy S, o, bt⟩ fmt calls .drop ⟨s, [], none⟩ with
    | none => rw [hx] at hr; cases hr
    | some x =>
      obtain ⟨r', t⟩ := x
      rw [hx] at hr
      cases hr
      obtain ⟨g1, g2⟩ := session_drop_recorded ⟨ieee log2, spy S, o, bt⟩ (spy_recorded S) fmt calls (s := ⟨s, [], none⟩) rfl h1 hx
      refine ⟨t.log, t.failed, rfl, ?_, ?_⟩
      · intro hr
        obtain ⟨i1, i2⟩ := g1 hr
        exact ⟨i1, by simpa using i2⟩
      · intro k hk
        obtain ⟨i1, n, i2, i3⟩ := g2 k hk
        have i3 : t.log = stream.take n := by simpa using i3
        exact ⟨i1, by rw [i3]; exact List.take_prefix n stream⟩

/-- **C21, C34** `compress` with any sink.  There is one stream for what the reader delivers.  If the sink does not fail
it receives exactly that stream and `compress` returns what the reader ended with; if it fails, what it had accepted by
then is a proper prefix of the stream, and `compress` returns an error: the sink's, or the reader's. -/
theorem C21_compress (hlog : Log2Ok log2) {ρ : Type} {R : Reader ρ} {J : ρ → Prop} {data : ρ → List UInt8} {res : Except ErrKind Unit}
    {patienceR : ρ → Nat} (hR : Delivers R J data res patienceR) (o : Options) (fmt : Format) (r : ρ) (hr : J r) :
    ∃ stream, decode fmt stream = some (data r) ∧
      ∀ (σ : Type) (S : Sink σ) (s s' : σ) (x : Except ErrKind Unit), compress (ieee log2) S R o fmt r s = some (x, s') →
        ∃ accepted failed, compress (ieee log2) (spy S) R o fmt r ⟨s, [], none⟩ = some (x, ⟨s', accepted, failed⟩) ∧
          (failed = none → x = res ∧ accepted = stream) ∧
          ∀ k, failed = some k → (x = .error k ∨ ∃ k', res = .error k' ∧ x = .error k') ∧ accepted <+: stream ∧ accepted.length < stream.length := by
  obtain ⟨W, stream, h1, h2, h3, -, h4⟩ := compress_plan (ieeeLaws hlog) R hR o fmt hr
  refine ⟨stream, by rw [h1.decode (ieeeLaws hlog) h2, h3], ?_⟩
  intro σ S s s' x hx
  rw [spy_transparent_compress (ieee log2) S R o fmt r ⟨s, [], none⟩] at hx
  cases hy : compress (ieee log2) (spy S) R o fmt r ⟨s, [], none⟩ with
  | none => rw [hy] at hx; cases hx
  | some y =>
    obtain ⟨x', t⟩ := y
    rw [hy] at hx
    cases hx
    obtain ⟨g1, g2⟩ := (h4 _ (spy S) ⟨s, [], none⟩).2 Spy.log Spy.failed (spy_recorded S) rfl _ hy
    refine ⟨t.log, t.failed, rfl, ?_, ?_⟩
    · intro hr
      obtain ⟨i1, i2⟩ := g1 hr
      exact ⟨i1, by simpa using i2⟩
    · intro k hk
      obtain ⟨i1, n, i2, i3⟩ := g2 k hk
      have i3 : t.log = stream.take n := by simpa using i3
      exact ⟨i1, by rw [i3]; exact List.take_prefix n stream, by rw [i3, List.length_take]; omega⟩

/-- **C05** No session panics or hangs, even if the sink fails again and again, as long as it is honest about how much it
accepts and does not interrupt the same buffer for ever. -/
theorem C05_no_panic_failing (hlog : Log2Ok log2) (hS : Honest S I patience) (o : Options) (bt : BlockType) (fmt : Format) (calls : List Call)
    (ending : Ending) (hfit : Fits (writesOf calls)) (s : σ) (hs : I s) :
    ∃ r s', session ⟨ieee log2, S, o, bt⟩ fmt calls ending s = some (r, s') := by
  obtain ⟨⟨r, s'⟩, h, -⟩ := session_total ⟨ieee log2, S, o, bt⟩ (ieeeLaws hlog) hS fmt calls ending hs hfit
  exact ⟨r, s', h⟩

/-- **C05** The same for `compress`. -/
theorem C05_compress_no_panic_failing (hlog : Log2Ok log2) (hS : Honest S I patience) {ρ : Type} {R : Reader ρ} {J : ρ → Prop}
    {data : ρ → List UInt8} {res : Except ErrKind Unit} {patienceR : ρ → Nat} (hR : Delivers R J data res patienceR)
    (o : Options) (fmt : Format) (r : ρ) (hr : J r) (s : σ) (hs : I s) :
    ∃ x s', compress (ieee log2) S R o fmt r s = some (x, s') := by
  obtain ⟨⟨x, s'⟩, h, -⟩ := compress_total (ieeeLaws hlog) S hS R hR o fmt hr hs
  exact ⟨x, s', h⟩

/-! ## C33: in-memory sinks -/

/-- **C33** The specialised `write_all` of a byte slice is the general one. -/
theorem C33_slice_write_all (s : SliceState) (buf : List UInt8) : sliceSink.writeAll s buf = some (sliceWriteAll s buf) := by
  obtain ⟨w, room⟩ := s
  rw [Sink.writeAll, sliceWriteAll]
  by_cases hb : buf = []
  · subst hb
    simp [sliceSink]
  · have hl : 0 < buf.length := List.length_pos_iff.2 hb
    rw [if_neg hb]
    simp only [sliceSink]
    rcases Nat.lt_or_ge room buf.length with h | h
    · rw [Nat.min_eq_right (by omega)]
      cases room with
      | zero => simp; omega
      | succ n =>
        dsimp only
        rw [if_pos (by omega), if_neg (by omega), Sink.writeAll, if_neg]
        · simp
        · intro h0
          have := congrArg List.length h0
          simp at this
          omega
    · rw [Nat.min_eq_left h]
      obtain ⟨n, hn⟩ : ∃ n, buf.length = n + 1 := ⟨buf.length - 1, by omega⟩
      rw [hn]
      dsimp only
      rw [← hn, if_pos (Nat.le_refl _), List.drop_length, Sink.writeAll]
      simp

/-- **C33** The specialised `write_all` of a vector is the general one, and never fails. -/
theorem C33_vec_write_all (s buf : List UInt8) : vecSink.writeAll s buf = some (vecWriteAll s buf) ∧ vecWriteAll s buf = (.ok (), s ++ buf) := by
  refine ⟨?_, rfl⟩
  rw [Sink.writeAll, vecWriteAll]
  by_cases hb : buf = []
  · subst hb; simp
  · have hl : 0 < buf.length := List.length_pos_iff.2 hb
    obtain ⟨n, hn⟩ : ∃ n, buf.length = n + 1 := ⟨buf.length - 1, by omega⟩
    rw [if_neg hb]
    simp only [vecSink]
    rw [hn]
    dsimp only
    rw [← hn, if_pos (Nat.le_refl _), List.drop_length, Sink.writeAll, if_pos rfl]

/-- What is known of a slice under observation, `w0` being what lies before it and `cap` its length. -/
def SliceSpy (w0 : List UInt8) (cap : Nat) (t : Spy SliceState) : Prop :=
  t.sink.written = w0 ++ t.log ∧ t.log.length + t.sink.room = cap ∧ (t.failed = none ∨ t.failed = some .writeZero ∧ t.sink.room = 0)

theorem sliceSpy_honest (w0 : List UInt8) (cap : Nat) : Honest (spy sliceSink) (SliceSpy w0 cap) (fun _ => 0) where
  write t buf h := by
    obtain ⟨⟨w, room⟩, l, f⟩ := t
    obtain ⟨h1, h2, h3⟩ := h
    dsimp only at h1 h2 h3
    rcases h3 with rfl | ⟨rfl, rfl⟩
    · simp only [spy, sliceSink]
      split
      · rename_i h0
        obtain ⟨h0, hb⟩ := h0
        have hl : 0 < buf.length := List.length_pos_iff.2 hb
        have : room = 0 := by omega
        subst this
        refine ⟨?_, ?_, .inr ⟨rfl, ?_⟩⟩ <;> simp [h1]
        exact h2
      · refine ⟨?_, ?_, .inl rfl⟩
        · simp [h1]
        · simp only [List.length_append, List.length_take]
          omega
    · simp only [spy, sliceSink]
      refine ⟨?_, ?_, .inr ⟨rfl, ?_⟩⟩ <;> simp [h1]
      exact h2
  flush t h := by
    obtain ⟨⟨w, room⟩, l, f⟩ := t
    obtain ⟨h1, h2, h3⟩ := h
    cases f with
    | none => exact ⟨h1, h2, h3⟩
    | some k => exact ⟨h1, h2, h3⟩
  count t buf n _ h := by
    simp only [spy, sliceSink] at h
    cases h
    omega
  interrupt t buf _ h := by
    simp only [spy, sliceSink] at h
    cases h

theorem StreamOf.slice (hlog : Log2Ok log2) {o : Options} {bt : BlockType} {fmt : Format} {calls : List Call} (hfit : Fits (writesOf calls))
    {stream : List UInt8} (h1 : StreamOf (ieee log2) o bt fmt (writesOf calls) stream) (w0 : List UInt8) (cap : Nat) :
      session ⟨ieee log2, sliceSink, o, bt⟩ fmt calls .finish ⟨w0, cap⟩ =
        if stream.length ≤ cap then some (.ok (), ⟨w0 ++ stream, cap - stream.length⟩)
        else some (.error .writeZero, ⟨w0 ++ stream.take cap, 0⟩) := by
  have h2 := h1.sink_errors
  obtain ⟨⟨r, t⟩, g1, g2, g3, g4⟩ := session_total ⟨ieee log2, spy sliceSink, o, bt⟩ (ieeeLaws hlog) (sliceSpy_honest w0 cap) fmt calls .finish
    (s := ⟨⟨w0, cap⟩, [], none⟩) ⟨by simp, by simp, .inl rfl⟩ hfit
  have hs := spy_transparent (ieee log2) sliceSink o bt fmt calls .finish ⟨⟨w0, cap⟩, [], none⟩
  rw [g1] at hs
  obtain ⟨acc, failed, i1, i2, i3⟩ := h2 _ sliceSink _ _ _ hs
  rw [g1] at i1
  obtain ⟨⟨w, room⟩, l, f⟩ := t
  cases i1
  dsimp only at g2 g3 g4 hs i2 i3
  rw [hs]
  cases r with
  | ok u =>
    obtain ⟨j1, j2⟩ := i2 rfl
    subst j2 g2
    rw [if_pos (by omega)]
    show some (_, SliceState.mk _ room) = _
    congr 4
    omega
  | error k =>
    obtain ⟨j1, j2, j3⟩ := i3 k rfl
    have j3 := j3 (by intro t t' h; cases h)
    rcases g4 with g4 | ⟨g4, g5⟩
    · rw [g4] at j1; cases j1
    · rw [g4] at j1
      cases j1
      subst g5 g2
      rw [if_neg (by omega)]
      congr 4
      obtain ⟨rest, rfl⟩ := j2
      rw [show cap = acc.length by omega, List.take_left]
      rfl

/-- **C33** A session on a byte slice of length `cap`: it reports success exactly when the stream fits, and then the stream
is at the start of the slice and the rest is untouched; otherwise it reports `WriteZero` and the slice is full of a prefix
of the stream. -/
theorem C33_slice_session (hlog : Log2Ok log2) (o : Options) (bt : BlockType) (fmt : Format) (calls : List Call) (hfit : Fits (writesOf calls)) :
    ∃ stream, decode fmt stream = some (writesOf calls).flatten ∧ ∀ (w0 : List UInt8) (cap : Nat),
      session ⟨ieee log2, sliceSink, o, bt⟩ fmt calls .finish ⟨w0, cap⟩ =
        if stream.length ≤ cap then some (.ok (), ⟨w0 ++ stream, cap - stream.length⟩)
        else some (.error .writeZero, ⟨w0 ++ stream.take cap, 0⟩) := by
  obtain ⟨stream, -, -, h1, -, -⟩ := streamOf_exists (ieeeLaws hlog) o bt fmt (writesOf calls) hfit
  exact ⟨stream, h1.decode (ieeeLaws hlog) hfit, h1.slice hlog hfit⟩

/-- **C33** A session on a vector appends the stream. -/
theorem C33_vec_session (hlog : Log2Ok log2) (o : Options) (bt : BlockType) (fmt : Format) (calls : List Call) (hfit : Fits (writesOf calls)) :
    ∃ stream, decode fmt stream = some (writesOf calls).flatten ∧ ∀ v : List UInt8,
      session ⟨ieee log2, vecSink, o, bt⟩ fmt calls .finish v = some (.ok (), v ++ stream) := by
  obtain ⟨stream, h1, h2⟩ := C22_C23_C26_same_stream hlog o bt fmt (writesOf calls) hfit
  refine ⟨stream, h1, fun v => ?_⟩
  obtain ⟨s', g1, g2⟩ := h2 _ vecSink _ _ _ vecSink_reliable calls .finish v rfl trivial
  have g2 : s' = v ++ stream := g2
  rw [g1, g2]

/-! ## C24, C25: what goes wrong after a failure -/

/-- A vector whose `n`-th call of `write` (counting from 0) fails, once. -/
def glitchSink (n : Nat) : Sink (List UInt8 × Nat) where
  write s buf := if s.2 = n then (.error (.other 0), (s.1, s.2 + 1)) else (.ok buf.length, (s.1 ++ buf, s.2 + 1))
  flush s := (.ok (), s)

theorem glitch_writeAll (n : Nat) (l : List UInt8) (i : Nat) (b : UInt8) (bs : List UInt8) :
    (glitchSink n).writeAll (l, i) (b :: bs) = if i = n then some (.error (.other 0), (l, i + 1)) else some (.ok (), (l ++ b :: bs, i + 1)) := by
  rw [Sink.writeAll, if_neg (by simp)]
  by_cases h : i = n
  · simp only [glitchSink, if_pos h]
  · simp only [glitchSink, if_neg h]
    simp
    rw [Sink.writeAll, if_pos rfl]

theorem glitch_honest (n : Nat) : Honest (glitchSink n) (fun _ => True) (fun _ => 0) where
  write _ _ _ := trivial
  flush _ _ := trivial
  count s buf m _ h := by
    simp only [glitchSink] at h
    split at h <;> cases h
    exact Nat.le_refl _
  interrupt s buf _ h := by
    simp only [glitchSink] at h
    split at h <;> cases h

/-- One byte stored. -/
theorem deflatePart_one (F : FloatOps) (o : Options) (final : Bool) (arr : Array UInt8) (a b : Nat) (x : UInt8)
    (hab : a ≤ b) (hb : b ≤ arr.size) (hx : (arr.extract a b).toList = [x]) :
    deflatePart F o .uncompressed final arr a b =
      some [.bit final, .bit false, .bit false, .align, .bytes [1], .bytes [0], .bytes [254], .bytes [255], .bytes [x]] := by
  unfold deflatePart
  dsimp only
  rw [addNonCompressedBlock_eq hab hb, hx]
  have h1 : storedItems final [x] = [([x], true)] := by
    unfold storedItems
    rw [if_neg (by simp), chunksOf_cons (by omega) (by simp)]
    simp [chunksOf_nil, flagLast]
  rw [h1]
  simp [storedBlock, addByte]

/-- **C24, violated** A caller writes one byte and calls `finish`; the sink fails once, on the data byte, and `finish`
reports the error.  Nevertheless the sink then receives the whole block a second time: when the call returns, it holds
the partial block followed by a complete one. -/
theorem C24_violated (F : FloatOps) (o : Options) :
    session ⟨F, glitchSink 5, o, .uncompressed⟩ .deflate [.write [7]] .finish ([], 0) =
      some (.error (.other 0), ([1, 1, 0, 254, 255] ++ [1, 1, 0, 254, 255, 7], 12)) := by
  have h1 : ∀ final, deflatePart F o .uncompressed final #[7] 0 1 = _ := fun final =>
    deflatePart_one F o final #[7] 0 1 7 (by decide) (by decide) (by decide)
  simp [session, Encoder.new, Encoder.run, Encoder.write, Encoder.finish, DeflateEncoder.new, DeflateEncoder.write, DeflateEncoder.setChunk,
    DeflateEncoder.finish, DeflateEncoder.finishInner, DeflateEncoder.compressChunk, DeflateEncoder.dropWith, BitwiseWriter.new, h1,
    BitwiseWriter.execAll, BitwiseWriter.exec, BitwiseWriter.addBit, BitwiseWriter.finishPartialBits, BitwiseWriter.addBytes, glitch_writeAll]

set_option maxRecDepth 20000 in
theorem inflate_corrupt : Rfc.inflate ([0, 1, 0, 254, 255] ++ [0, 1, 0, 254, 255, 7] ++ [1, 1, 0, 254, 255, 8]) = none := by
  have h : Rfc.readBlocks ⟨Rfc.bytesBits ([0, 1, 0, 254, 255] ++ [0, 1, 0, 254, 255, 7] ++ [1, 1, 0, 254, 255, 8]), 0⟩ = none := by
    rw [Rfc.readBlocks]
    have h1 : Rfc.readBlock ⟨Rfc.bytesBits ([0, 1, 0, 254, 255] ++ [0, 1, 0, 254, 255, 7] ++ [1, 1, 0, 254, 255, 8]), 0⟩ =
      some (⟨false, .stored [0]⟩, ⟨Rfc.bytesBits [1, 0, 254, 255, 7, 1, 1, 0, 254, 255, 8], 48⟩) := by decide
    rw [h1, some_bind]
    dsimp only
    rw [if_neg (by decide), Rfc.readBlocks]
    have h2 : Rfc.readBlock ⟨Rfc.bytesBits [1, 0, 254, 255, 7, 1, 1, 0, 254, 255, 8], 48⟩ = none := by decide
    rw [h2]
    rfl
  simp only [Rfc.inflate, Rfc.inflatePrefix, Rfc.parse, h]
  rfl

/-- **C25, violated** The sink fails once, while the chunk `[7]` is being sent; `write` reports the error, the caller
retries, and everything after that succeeds.  The stream received is not a DEFLATE stream, let alone one for `[7, 8]`. -/
theorem C25_violated (F : FloatOps) (o : Options) :
    ∃ e0 e1 e2 e3 n stream, Encoder.new ⟨F, glitchSink 5, o, .uncompressed⟩ .deflate ([], 0) = some (.ok e0, ([], 0)) ∧
      e0.write ⟨F, glitchSink 5, o, .uncompressed⟩ [7] = some (.ok 1, e1) ∧
      e1.write ⟨F, glitchSink 5, o, .uncompressed⟩ [8] = some (.error (.other 0), e2) ∧
      e2.write ⟨F, glitchSink 5, o, .uncompressed⟩ [8] = some (.ok 1, e3) ∧
      e3.finish ⟨F, glitchSink 5, o, .uncompressed⟩ = some (.ok (), (stream, n)) ∧
      stream = [0, 1, 0, 254, 255] ++ [0, 1, 0, 254, 255, 7] ++ [1, 1, 0, 254, 255, 8] ∧
      Rfc.inflate stream = none := by
  have h1 : ∀ final, deflatePart F o .uncompressed final #[7] 0 1 = _ := fun final =>
    deflatePart_one F o final #[7] 0 1 7 (by decide) (by decide) (by decide)
  have h2 : ∀ final, deflatePart F o .uncompressed final #[7, 8] 1 2 = _ := fun final =>
    deflatePart_one F o final #[7, 8] 1 2 8 (by decide) (by decide) (by decide)
  refine ⟨.deflate ⟨false, 0, #[], some ⟨0, 0, 0, ([], 0)⟩⟩, .deflate ⟨true, 0, #[7], some ⟨0, 0, 0, ([], 0)⟩⟩,
    .deflate ⟨true, 0, #[7], some ⟨0, 0, 6, ([0, 1, 0, 254, 255], 6)⟩⟩,
    .deflate ⟨true, 1, #[7, 8], some ⟨0, 0, 12, ([0, 1, 0, 254, 255] ++ [0, 1, 0, 254, 255, 7], 12)⟩⟩, 18, _, rfl, ?_, ?_, ?_, ?_, rfl, inflate_corrupt⟩
  · simp [Encoder.write, DeflateEncoder.write, DeflateEncoder.setChunk]
  · simp [Encoder.write, DeflateEncoder.write, DeflateEncoder.compressChunk, h1,
      BitwiseWriter.execAll, BitwiseWriter.exec, BitwiseWriter.addBit, BitwiseWriter.finishPartialBits, BitwiseWriter.addBytes, glitch_writeAll]
  · simp [Encoder.write, DeflateEncoder.write, DeflateEncoder.setChunk, DeflateEncoder.compressChunk, h1,
      BitwiseWriter.execAll, BitwiseWriter.exec, BitwiseWriter.addBit, BitwiseWriter.finishPartialBits, BitwiseWriter.addBytes, glitch_writeAll]
  · simp [Encoder.finish, DeflateEncoder.finish, DeflateEncoder.finishInner, DeflateEncoder.dropWith, DeflateEncoder.compressChunk, h2,
      BitwiseWriter.execAll, BitwiseWriter.exec, BitwiseWriter.addBit, BitwiseWriter.finishPartialBits, BitwiseWriter.addBytes, glitch_writeAll]

/-! ## The hypotheses are met -/

example : ∃ r s', session ⟨ieee floorLog2, glitchSink 3, Options.default, .dynamic⟩ .gzip [.write [1, 2, 3], .flush, .write [4]] .drop ([], 0) = some (r, s') :=
  C05_no_panic_failing floorLog2_ok (glitch_honest 3) Options.default .dynamic .gzip _ .drop (by
    intro w hw; simp [writesOf] at hw; rcases hw with rfl | rfl <;> decide) _ trivial

/-- A slice of three bytes is too small for any gzip stream: `WriteZero`, and the slice holds the first bytes of the header. -/
example : ∃ l, session ⟨ieee floorLog2, sliceSink, Options.default, .dynamic⟩ .gzip [.write [1, 2, 3]] .finish ⟨[], 3⟩ =
    some (.error .writeZero, ⟨l, 0⟩) := by
  obtain ⟨stream, h1, h2⟩ := C33_slice_session (log2 := floorLog2) floorLog2_ok Options.default .dynamic .gzip [.write [1, 2, 3]] (by
    intro w hw; simp [writesOf] at hw; subst hw; decide)
  rw [h2, if_neg]
  · exact ⟨_, rfl⟩
  · intro hl
    have : Rfc.gunzip stream = some _ := h1
    match stream, hl, this with
    | [], _, h => simp [Rfc.gunzip] at h
    | [_], _, h => simp [Rfc.gunzip] at h
    | [_, _], _, h => simp [Rfc.gunzip] at h
    | [_, _, _], _, h => simp [Rfc.gunzip] at h

end Zopfli
