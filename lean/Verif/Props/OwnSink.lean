import Verif.Proofs.OwnSink
import Verif.Spec.OwnSink
import Verif.Props.Buffered
import Verif.Props.Lending
/-!
# C77: sinks with a `write_all` of their own

The encoders hand everything to `write_all` of the sink, which a sink may implement itself: the byte slice and the vector do so in
src/io.rs, and most sinks of std do.  `Own.session`, `Own.bufferedSession`, `Own.compress` and `Own.compressFrom` (Verif/Model/OwnSink.lean)
use the sink's own.
-/

namespace Zopfli

variable {log2 : Fp → Fp} {σ ρ : Type}

/-- The four things a user does with a sink do the same with these two. -/
def SameUse [Checks] (W : OwnSink σ) (S : Sink σ) : Prop :=
  (∀ F o bt fmt calls ending s, Own.session ⟨F, W, o, bt⟩ fmt calls ending s = session ⟨F, S, o, bt⟩ fmt calls ending s) ∧
  (∀ F o bt fmt calls ending s, Own.bufferedSession ⟨F, W, o, bt⟩ fmt calls ending s = bufferedSession ⟨F, S, o, bt⟩ fmt calls ending s) ∧
  (∀ (ρ : Type) F (R : Reader ρ) o fmt r s, Own.compress F W R o fmt r s = compress F S R o fmt r s) ∧
  ∀ (ρ : Type) F (src : Source ρ) o fmt r s, Own.compressFrom F W src o fmt r s = compressFrom F S src o fmt r s

theorem Own.Like.use [Checks] {W : OwnSink σ} {S : Sink σ} (h : Own.Like W S) : SameUse W S :=
  ⟨fun F o bt => (h.env F o bt).session, fun F o bt => (h.env F o bt).bufferedSession, fun _ => h.compress, fun _ => h.compressFrom⟩

/-- **C77** A sink that does not implement `write_all` gets the provided loop over its `write`; and a `write_all` of its own that does what
the provided one does makes no difference to anything, in either build.  (All theorems about `session`, `bufferedSession`, `compress` and `compressFrom`
hold for such sinks.) -/
theorem C77_same_as_provided [Checks] (W : OwnSink σ) (h : ∀ s buf, W.writeAll s buf = Sink.writeAll ⟨W.write, W.flush⟩ s buf) :
    SameUse W ⟨W.write, W.flush⟩ :=
  Own.Like.use ⟨h, fun _ => rfl⟩

/-- src/io.rs:96-121 `impl Write for &mut [u8]`, with its own `write_all` -/
def ownSlice : OwnSink SliceState := ⟨sliceSink.write, sliceSink.flush, fun s buf => some (sliceWriteAll s buf)⟩

/-- src/io.rs:123-142 `impl Write for Vec<u8>`, with its own `write_all` -/
def ownVec : OwnSink (List UInt8) := ⟨vecSink.write, vecSink.flush, fun s buf => some (vecWriteAll s buf)⟩

/-- **C33, C77** Everything that is proved for sessions on a byte slice and on a vector holds for them with their own `write_all`. -/
theorem C77_slice_and_vec [Checks] : SameUse ownSlice sliceSink ∧ SameUse ownVec vecSink :=
  ⟨C77_same_as_provided ownSlice fun s buf => (C33_slice_write_all s buf).symm,
    C77_same_as_provided ownVec fun s buf => (C33_vec_write_all s buf).1.symm⟩

/-- **C33, C77** A session on a byte slice that has its own `write_all`: success exactly when the stream fits. -/
theorem C77_slice_session (hlog : Log2Ok log2) (o : Options) (bt : BlockType) (fmt : Format) (calls : List Call) (hfit : Fits (writesOf calls)) :
    ∃ stream, decode fmt stream = some (writesOf calls).flatten ∧ ∀ (w0 : List UInt8) (cap : Nat),
      Own.session ⟨ieee log2, ownSlice, o, bt⟩ fmt calls .finish ⟨w0, cap⟩ =
        if stream.length ≤ cap then some (.ok (), ⟨w0 ++ stream, cap - stream.length⟩)
        else some (.error .writeZero, ⟨w0 ++ stream.take cap, 0⟩) := by
  obtain ⟨stream, h1, h2⟩ := C33_slice_session hlog o bt fmt calls hfit
  refine ⟨stream, h1, fun w0 cap => ?_⟩
  rw [C77_slice_and_vec.1.1]
  exact h2 w0 cap

/-! ## Any `write_all` that keeps the contract -/

/-- The sink whose `write` takes the whole buffer or fails, as the `write_all` of `W` does. -/
def OwnSink.asSink (W : OwnSink σ) : Sink σ where
  write s buf :=
    match W.writeAll s buf with
    | some (.ok (), t) => (.ok buf.length, t)
    | some (.error k, t) => (.error k, t)
    | none => (.ok (buf.length + 1), s)
  flush := W.flush

theorem OwnSink.Lawful.like {W : OwnSink σ} (h : W.Lawful) : Own.Like W W.asSink where
  fl _ := rfl
  all s buf := by
    rw [Sink.writeAll]
    by_cases hb : buf = []
    · subst hb
      rw [if_pos rfl]
      exact h.empty s
    · obtain ⟨n, hn⟩ : ∃ n, buf.length = n + 1 := ⟨buf.length - 1, by have := List.length_pos_iff.2 hb; omega⟩
      rw [if_neg hb]
      rcases hq : W.writeAll s buf with _ | ⟨k | u, t⟩
      · have e : W.asSink.write s buf = (.ok (buf.length + 1), s) := by simp only [OwnSink.asSink, hq]
        rw [e]
        dsimp only
        rw [if_neg (by omega)]
      · have e : W.asSink.write s buf = (.error k, t) := by simp only [OwnSink.asSink, hq]
        rw [e]
        cases k with
        | interrupted => exact absurd hq (h.kind s buf t)
        | writeZero => rfl
        | other k => rfl
      · have e : W.asSink.write s buf = (.ok buf.length, t) := by simp only [OwnSink.asSink, hq]
        rw [e, hn]
        dsimp only
        rw [← hn, if_pos (Nat.le_refl _), List.drop_length, Sink.writeAll, if_pos rfl]

/-- **C77** For any `write_all` that keeps the contract there is an ordinary sink with the same `flush` that does the same in every session, of either
kind, in every `compress` and in either build: one whose `write` fails or takes all it is given.  So nothing is assumed by considering the provided `write_all` only. -/
theorem C77_any_write_all [Checks] (W : OwnSink σ) (h : W.Lawful) :
    ∃ S : Sink σ, SameUse W S ∧ S.flush = W.flush ∧ (∀ s buf, S.writeAll s buf = W.writeAll s buf) :=
  ⟨W.asSink, h.like.use, rfl, fun s buf => (h.like.all s buf).symm⟩

/-- **C77** No encoder calls `write` of its sink: two sinks with the same `write_all` and the same `flush` cannot be told apart. -/
theorem C77_write_is_not_called [Checks] (W W' : OwnSink σ) (h : W.Lawful) (ha : W'.writeAll = W.writeAll) (hf : W'.flush = W.flush) :
    ∃ S : Sink σ, SameUse W S ∧ SameUse W' S := by
  refine ⟨W.asSink, h.like.use, Own.Like.use ⟨fun s buf => ?_, fun s => ?_⟩⟩
  · rw [ha]; exact h.like.all s buf
  · rw [hf]; rfl

/-- **C77** A mutable reference to a sink (src/io.rs:144-157) does what the sink does. -/
theorem C77_by_ref [Checks] (W : OwnSink σ) (S : Sink σ) (h : SameUse W S) : SameUse W.byRef S := h

theorem OwnSink.Dependable.reliable {W : OwnSink σ} {I : σ → Prop} {log : σ → List UInt8} (h : W.Dependable I log) :
    Reliable W.asSink I log (fun _ => 0) where
  write s buf hs hb := by
    obtain ⟨s', h1, h2, h3⟩ := h.writeAll s buf hs
    refine Or.inl ⟨buf.length, s', ?_, List.length_pos_iff.2 hb, Nat.le_refl _, ?_, h3⟩
    · unfold OwnSink.asSink
      dsimp only
      rw [h1]
    · rw [List.take_length]; exact h2
  flush s hs := h.flush s hs

/-- **C01–C04, C22, C23, C26, C77** The stream of the written buffers does not depend on the sink's `write_all` as long as it works: a sink with a
`write_all` of its own that does not fail receives the same bytes as any other sink that does not fail, and they decode to the data. -/
theorem C77_same_stream (hlog : Log2Ok log2) (o : Options) (bt : BlockType) (fmt : Format) (writes : List (List UInt8)) (hfit : Fits writes) :
    ∃ stream, decode fmt stream = some writes.flatten ∧
      (∀ (σ : Type) (W : OwnSink σ) (I : σ → Prop) (log : σ → List UInt8), W.Lawful → W.Dependable I log →
        ∀ (calls : List Call) (ending : Ending) (s : σ), writesOf calls = writes → I s →
          ∃ s', Own.session ⟨ieee log2, W, o, bt⟩ fmt calls ending s = some (.ok (), s') ∧ log s' = log s ++ stream) ∧
      ∀ (σ : Type) (S : Sink σ) (I : σ → Prop) (log : σ → List UInt8) (patience : σ → Nat), Reliable S I log patience →
        ∀ (calls : List Call) (ending : Ending) (s : σ), writesOf calls = writes → I s →
          ∃ s', session ⟨ieee log2, S, o, bt⟩ fmt calls ending s = some (.ok (), s') ∧ log s' = log s ++ stream := by
  obtain ⟨stream, h1, h2⟩ := C22_C23_C26_same_stream hlog o bt fmt writes hfit
  refine ⟨stream, h1, ?_, h2⟩
  intro σ W I log hl hd calls ending s hw hs
  rw [hl.like.use.1]
  exact h2 σ W.asSink I log _ hd.reliable calls ending s hw hs

/-- **C43, C77** The same for buffered encoders. -/
theorem C77_buffered_stream (hlog : Log2Ok log2) (o : Options) (bt : BlockType) (fmt : Format) (calls : List Call) (hfit : Fits (writesOf calls)) :
    ∃ stream, decode fmt stream = some (writesOf calls).flatten ∧
      (∀ (σ : Type) (W : OwnSink σ) (I : σ → Prop) (log : σ → List UInt8), W.Lawful → W.Dependable I log → ∀ (ending : Ending) (s : σ), I s →
        ∃ s', Own.bufferedSession ⟨ieee log2, W, o, bt⟩ fmt calls ending s = some (.ok (), s') ∧ log s' = log s ++ stream) ∧
      ∀ (σ : Type) (S : Sink σ) (I : σ → Prop) (log : σ → List UInt8) (patience : σ → Nat), Reliable S I log patience → ∀ (ending : Ending) (s : σ), I s →
        ∃ s', bufferedSession ⟨ieee log2, S, o, bt⟩ fmt calls ending s = some (.ok (), s') ∧ log s' = log s ++ stream := by
  obtain ⟨stream, h1, h2⟩ := C43_buffered_stream hlog o bt fmt calls hfit
  refine ⟨stream, h1, ?_, fun σ S I log p hS ending s hs => (h2 σ S I log p hS ending s hs).1⟩
  intro σ W I log hl hd ending s hs
  rw [hl.like.use.2.1]
  exact (h2 σ W.asSink I log _ hd.reliable ending s hs).1

/-- **C04, C34, C77** `compress` into a sink with a `write_all` of its own that does not fail. -/
theorem C77_compress (hlog : Log2Ok log2) {W : OwnSink σ} {I : σ → Prop} {log : σ → List UInt8} (hl : W.Lawful) (hd : W.Dependable I log)
    {R : Reader ρ} {J : ρ → Prop} {data : ρ → List UInt8} {res : Except ErrKind Unit} {patienceR : ρ → Nat} (hR : Delivers R J data res patienceR)
    (o : Options) (fmt : Format) (r : ρ) (hr : J r) (s : σ) (hs : I s) :
    ∃ s' stream, Own.compress (ieee log2) W R o fmt r s = some (res, s') ∧ log s' = log s ++ stream ∧ decode fmt stream = some (data r) := by
  rw [hl.like.use.2.2.1]
  exact C04_C34_compress hlog hd.reliable hR o fmt r hr s hs

/-! ## A `write_all` that fails -/

theorem OwnSink.Lawful.spy_like {W : OwnSink σ} (h : W.Lawful) : Own.Like W.spy (Zopfli.spy W.asSink) where
  fl s := by
    obtain ⟨t, l, f⟩ := s
    rcases hq : W.flush t with ⟨_ | _, t'⟩ <;> simp only [OwnSink.spy, Zopfli.spy, OwnSink.asSink, hq] <;> cases f <;> rfl
  all s buf := by
    rw [Sink.writeAll]
    by_cases hb : buf = []
    · subst hb
      rw [if_pos rfl]
      unfold OwnSink.spy
      dsimp only
      rw [h.empty]
      rcases s with ⟨t, l, _ | k⟩
      · simp
      · rfl
    · obtain ⟨n, hn⟩ : ∃ n, buf.length = n + 1 := ⟨buf.length - 1, by have := List.length_pos_iff.2 hb; omega⟩
      rw [if_neg hb]
      unfold OwnSink.spy
      rcases hq : W.writeAll s.sink buf with _ | ⟨k | u, t⟩
      · have e : (Zopfli.spy W.asSink).write s buf = (.ok (buf.length + 1), ((Zopfli.spy W.asSink).write s buf).2) := by
          simp only [Zopfli.spy, OwnSink.asSink, hq]
        rw [e]
        dsimp only
        rw [if_neg (by omega), hq]
      · have hk : k ≠ .interrupted := by
          intro hk
          subst hk
          exact h.kind _ _ _ hq
        have e : (Zopfli.spy W.asSink).write s buf = (.error k, match s.failed with | some k' => ⟨t, s.log, some k'⟩ | none => ⟨t, s.log, some k⟩) := by
          simp only [Zopfli.spy, OwnSink.asSink, hq]
          rcases s with ⟨t, l, _ | k⟩ <;> dsimp only <;> cases k <;> first | rfl | exact absurd rfl hk
        rw [e]
        dsimp only
        rw [hq]
        rcases s with ⟨t, l, _ | k'⟩ <;> cases k <;> first | rfl | exact absurd rfl hk
      · have e : (Zopfli.spy W.asSink).write s buf
            = (.ok buf.length, match s.failed with | some k' => ⟨t, s.log, some k'⟩ | none => ⟨t, s.log ++ buf, none⟩) := by
          simp only [Zopfli.spy, OwnSink.asSink, hq]
          rcases s with ⟨t, l, _ | k⟩ <;> dsimp only
          rw [if_neg (by omega), List.take_length]
        rw [e, hn]
        dsimp only
        rw [← hn, if_pos (Nat.le_refl _), List.drop_length, Sink.writeAll, if_pos rfl, hq]
        rcases s with ⟨t, l, _ | k⟩ <;> rfl

/-- **C21, C77** A sink with any `write_all` that keeps the contract.  If the session reports success then no call on the sink has failed and the buffers it was given
make up exactly the stream; if it reports an error, that is what the first failing call on the sink reported, and the buffers taken before that call make up a prefix of the stream — a
proper prefix, unless it is `flush` that can fail that way. -/
theorem C77_sink_errors (hlog : Log2Ok log2) (o : Options) (bt : BlockType) (fmt : Format) (calls : List Call) (hfit : Fits (writesOf calls)) :
    ∃ stream, decode fmt stream = some (writesOf calls).flatten ∧
      ∀ (σ : Type) (W : OwnSink σ) (s s' : σ) (r : Except ErrKind Unit), W.Lawful →
        Own.session ⟨ieee log2, W, o, bt⟩ fmt calls .finish s = some (r, s') →
        ∃ accepted failed, Own.session ⟨ieee log2, W.spy, o, bt⟩ fmt calls .finish ⟨s, [], none⟩ = some (r, ⟨s', accepted, failed⟩) ∧
          (r = .ok () → failed = none ∧ accepted = stream) ∧
          ∀ k, r = .error k → failed = some k ∧ accepted <+: stream ∧
            ((∀ t t', W.flush t ≠ (.error k, t')) → accepted.length < stream.length) := by
  obtain ⟨stream, h1, -, h2⟩ := C21_sink_errors hlog o bt fmt calls hfit
  refine ⟨stream, h1, ?_⟩
  intro σ W s s' r hl hr
  rw [hl.like.use.1] at hr
  rw [hl.spy_like.use.1]
  exact h2 σ W.asSink s s' r hr

/-- **C43, C77** The same for buffered encoders, whichever way they end. -/
theorem C77_buffered_errors (hlog : Log2Ok log2) (o : Options) (bt : BlockType) (fmt : Format) (calls : List Call) (hfit : Fits (writesOf calls)) :
    ∃ stream, decode fmt stream = some (writesOf calls).flatten ∧
      ∀ (σ : Type) (W : OwnSink σ) (ending : Ending) (s s' : σ) (r : Except ErrKind Unit), W.Lawful →
        Own.bufferedSession ⟨ieee log2, W, o, bt⟩ fmt calls ending s = some (r, s') →
        ∃ accepted failed, Own.bufferedSession ⟨ieee log2, W.spy, o, bt⟩ fmt calls ending ⟨s, [], none⟩ = some (r, ⟨s', accepted, failed⟩) ∧
          (failed = none → r = .ok () ∧ accepted = stream) ∧
          ∀ k, failed = some k → (r = .error k ∨ ending = .drop ∧ r = .ok ()) ∧ accepted <+: stream ∧
            ((∀ t t', W.flush t ≠ (.error k, t')) → accepted.length < stream.length) := by
  obtain ⟨stream, h1, -, h2⟩ := C43_sink_errors hlog o bt fmt calls hfit
  refine ⟨stream, h1, ?_⟩
  intro σ W ending s s' r hl hr
  rw [hl.like.use.2.1] at hr
  rw [hl.spy_like.use.2.1]
  exact h2 σ W.asSink ending s s' r hr

/-- **C05, C77** Nothing panics or hangs unless `write_all` of the sink does. -/
theorem C77_no_panic (hlog : Log2Ok log2) {W : OwnSink σ} (hl : W.Lawful) (ht : ∀ s buf, W.writeAll s buf ≠ none) (o : Options) (bt : BlockType) (fmt : Format)
    (calls : List Call) (ending : Ending) (hfit : Fits (writesOf calls)) (s : σ) :
    (∃ r s', Own.session ⟨ieee log2, W, o, bt⟩ fmt calls ending s = some (r, s')) ∧
    (∃ r s', Own.bufferedSession ⟨ieee log2, W, o, bt⟩ fmt calls ending s = some (r, s')) := by
  have hh : Honest W.asSink (fun _ => True) (fun _ => 0) := by
    refine ⟨fun _ _ _ => trivial, fun _ _ => trivial, ?_, ?_⟩
    · intro s buf n _ h
      unfold OwnSink.asSink at h
      dsimp only at h
      rcases hq : W.writeAll s buf with _ | ⟨k | u, t⟩
      · exact absurd hq (ht s buf)
      · rw [hq] at h; cases h
      · rw [hq] at h; cases h; exact Nat.le_refl _
    · intro s buf _ h
      unfold OwnSink.asSink at h
      dsimp only at h
      rcases hq : W.writeAll s buf with _ | ⟨k | u, t⟩
      · exact absurd hq (ht s buf)
      · rw [hq] at h; cases h; exact absurd hq (hl.kind _ _ _)
      · rw [hq] at h; cases h
  rw [hl.like.use.1, hl.like.use.2.1]
  exact ⟨C05_no_panic_failing hlog hh o bt fmt calls ending hfit s trivial, C43_no_panic hlog hh o bt fmt calls ending hfit s trivial⟩

/-! ## The hypotheses are met -/

/-- A vector that counts its calls: `write_all` takes the buffer whole, `write` only one byte at a time. -/
def tallySink : OwnSink (List UInt8 × Nat) where
  write s buf := (.ok (min 1 buf.length), (s.1 ++ buf.take 1, s.2 + 1))
  flush s := (.ok (), s)
  writeAll s buf := if buf = [] then some (.ok (), s) else some (.ok (), (s.1 ++ buf, s.2 + 1))

theorem tallySink_lawful : tallySink.Lawful where
  empty s := rfl
  kind s buf s' h := by
    unfold tallySink at h
    dsimp only at h
    split at h <;> cases h

theorem tallySink_dependable : tallySink.Dependable (fun _ => True) Prod.fst where
  writeAll s buf _ := by
    unfold tallySink
    dsimp only
    by_cases hb : buf = []
    · subst hb
      exact ⟨s, by rw [if_pos rfl], by simp, trivial⟩
    · exact ⟨_, by rw [if_neg hb], rfl, trivial⟩
  flush s _ := ⟨s, rfl, rfl, trivial⟩

/-- Its `write_all` is not the provided one: the count of calls differs. -/
example : tallySink.writeAll ([], 0) [1, 2] ≠ Sink.writeAll ⟨tallySink.write, tallySink.flush⟩ ([], 0) [1, 2] := by
  have e : Sink.writeAll ⟨tallySink.write, tallySink.flush⟩ ([], 0) [1, 2] = some (.ok (), ([1, 2], 2)) := by
    rw [Sink.writeAll, if_neg (by decide)]
    show (if 0 + 1 ≤ 2 then Sink.writeAll ⟨tallySink.write, tallySink.flush⟩ ([1], 1) [2] else none) = _
    rw [if_pos (by decide), Sink.writeAll, if_neg (by decide)]
    show (if 0 + 1 ≤ 1 then Sink.writeAll ⟨tallySink.write, tallySink.flush⟩ ([1, 2], 2) [] else none) = _
    rw [if_pos (by decide), Sink.writeAll, if_pos rfl]
  rw [e]
  intro h
  exact absurd h (by decide)

example (hlog : Log2Ok log2) : ∃ s' stream, Own.session ⟨ieee log2, tallySink, .default, .dynamic⟩ .gzip [.write [1, 2], .flush, .write [3]] .finish ([], 0)
    = some (.ok (), s') ∧ s'.1 = stream ∧ decode .gzip stream = some [1, 2, 3] := by
  obtain ⟨stream, h1, h2, -⟩ := C77_same_stream hlog .default .dynamic .gzip [[1, 2], [3]] (by unfold Fits; simp)
  obtain ⟨s', h3, h4⟩ := h2 _ tallySink _ _ tallySink_lawful tallySink_dependable [.write [1, 2], .flush, .write [3]] .finish ([], 0) rfl trivial
  exact ⟨s', stream, h3, by simpa using h4, h1⟩

/-- A sink that takes three buffers and then fails, having lost part of the fourth. -/
def lossySink : OwnSink (List UInt8 × Nat) where
  write s buf := (.ok buf.length, s)
  flush s := (.ok (), s)
  writeAll s buf :=
    if buf = [] then some (.ok (), s) else if s.2 < 3 then some (.ok (), (s.1 ++ buf, s.2 + 1)) else some (.error (.other 5), (s.1 ++ buf.take 1, s.2 + 1))

theorem lossySink_lawful : lossySink.Lawful where
  empty s := rfl
  kind s buf s' h := by
    unfold lossySink at h
    dsimp only at h
    split at h
    · cases h
    · split at h <;> cases h

example (hlog : Log2Ok log2) : ∃ r s', Own.session ⟨ieee log2, lossySink, .default, .dynamic⟩ .gzip [.write [1, 2]] .finish ([], 0) = some (r, s') := by
  refine (C77_no_panic hlog lossySink_lawful ?_ .default .dynamic .gzip [.write [1, 2]] .finish (by unfold Fits; simp [writesOf]) ([], 0)).1
  intro s buf h
  unfold lossySink at h
  dsimp only at h
  split at h
  · cases h
  · split at h <;> cases h

end Zopfli
