import Verif.Proofs.UnwindLending
import Verif.Props.UnwindBuffered
/-!
# C68 for `compress` with a byte slice, or another reader that lends its buffer

`Unwind.compressFrom` (Verif/Model/UnwindBuffered.lean) is `compress` for such readers, with a sink that may panic.
-/

namespace Zopfli

variable {log2 : Fp → Fp} {σ ρ : Type} {src : Source ρ} {J : ρ → Prop} {data : ρ → List UInt8} {res : Except ErrKind Unit} {patienceR : ρ → Nat}

/-- **C68** A panic of the sink leaves the sink in the state it would be in if it had returned an error at that point, whatever the kind of this error,
to `compress`; or, if it panics while the buffer is being handed on, to an encoder without a buffer that is given the same data in the same portions.
If `compress` returns normally, it returns the same. -/
theorem C68_lent_as_error (hR : Supplies src J data res patienceR) (r : ρ) (hr : J r) :
    ∃ calls : List Call, (writesOf calls).flatten = data r ∧
      ∀ (F : FloatOps) (σ : Type) (S : WildSink σ) (o : Options) (fmt : Format) (s s' : σ) (fate : Fate),
        Unwind.compressFrom F S src o fmt r s = some (fate, s') → fate ≠ .aborted → ∀ k : ErrKind, k ≠ .interrupted →
        (∃ x, compressFrom F (tame k S) src o fmt r s = some (x, s') ∧ (∀ x', fate = .returned x' → x = x') ∧
          (fate = .panicked → ∃ k', x = .error k')) ∨
        (fate = .panicked ∧ session ⟨F, tame k S, o, .dynamic⟩ fmt calls (endingOf res) s = some (.error k, s')) := by
  obtain ⟨fs, g1, g2, g3⟩ := hR.lends r hr
  refine ⟨coalesce MASTER_BLOCK_SIZE [] (fs.map .write), by rw [(C43_joined _).1, writesOf_map, g1], ?_⟩
  intro F σ S o fmt s s' fate h hf k hk
  rw [Unwind.Lends.compressFrom hR.not_interrupted g3] at h
  rcases hx : Unwind.bufferedSession ⟨F, S, o, .dynamic⟩ fmt (fs.map .write) (endingOf res) s with _ | ⟨fate', t⟩
  · rw [hx] at h; cases h
  · rw [hx] at h
    have h : some (Unwind.answerFate res fate', t) = some (fate, s') := h
    cases h
    have hf' : fate' ≠ .aborted := by rintro rfl; exact hf rfl
    rcases C73_as_error F S o .dynamic fmt (fs.map .write) (endingOf res) s s' fate' hx hf' k hk with ⟨x, h1, h2, h3⟩ | ⟨rfl, h1⟩
    · left
      refine ⟨answer res x, ?_, ?_, ?_⟩
      · rw [g3.compressFrom hR.not_interrupted, h1]; rfl
      · intro x' hx'
        rcases fate' with y | _ | _
        · have hx' : Fate.returned (answer res y) = .returned x' := hx'
          cases hx'
          rw [h2 y rfl]
        · cases hx'
        · cases hx'
      · intro hp
        have hp' : fate' = .panicked := by
          rcases fate' with y | _ | _
          · cases hp
          · rfl
          · cases hp
        rcases h3 hp' with ⟨k', rfl⟩ | h3
        · exact ⟨k', rfl⟩
        · cases res with
          | ok u => cases h3
          | error k' =>
            cases x with
            | ok u => exact ⟨k', rfl⟩
            | error k'' => exact ⟨k'', rfl⟩
    · exact .inr ⟨rfl, h1⟩

/-- **C68** A sink that panics at most once does not abort the process. -/
theorem C68_lent_no_abort (hlog : Log2Ok log2) (hR : Supplies src J data res patienceR) {S : WildSink σ} {I quiet : σ → Prop} (hS : PanicsAtMostOnce S I quiet)
    {patience : σ → Nat} (hp : ∀ s buf, I s → (S.write s buf).1 = .error (.error .interrupted) → patience (S.write s buf).2 < patience s)
    (o : Options) (fmt : Format) (r : ρ) (hr : J r) (s : σ) (hs : I s) :
    ∃ fate s', Unwind.compressFrom (ieee log2) S src o fmt r s = some (fate, s') ∧ fate ≠ .aborted ∧ (quiet s → ∃ q, fate = .returned q) ∧
      (fate = .panicked → quiet s') := by
  obtain ⟨fs, g1, g2, g3⟩ := hR.lends r hr
  obtain ⟨fate, s', h1, h2, h3, h4⟩ := C73_no_abort hlog hS hp o .dynamic fmt (fs.map .write) (by rw [writesOf_map]; exact g2) (endingOf res) s hs
  refine ⟨Unwind.answerFate res fate, s', ?_, ?_, ?_, ?_⟩
  · rw [Unwind.Lends.compressFrom hR.not_interrupted g3, h1]; rfl
  · rcases fate with _ | _ | _
    · nofun
    · nofun
    · exact absurd rfl h2
  · intro hq
    obtain ⟨x, rfl⟩ := h3 hq
    exact ⟨_, rfl⟩
  · intro hq
    rcases fate with _ | _ | _
    · cases hq
    · exact h4 rfl
    · cases hq

/-- **C68** There is one stream for what the reader lends.  What a sink has accepted before it panics or fails for the first time is a prefix of it; a sink that does
neither has received all of it.  `compress` returns success if and only if the sink did neither, unless the reader fails. -/
theorem C68_lent_prefix (hlog : Log2Ok log2) (hR : Supplies src J data res patienceR) (o : Options) (fmt : Format) (r : ρ) (hr : J r) :
    ∃ stream, decode fmt stream = some (data r) ∧
      (∀ (σ : Type) (S : Sink σ) (I : σ → Prop) (log : σ → List UInt8) (patience : σ → Nat), Reliable S I log patience → ∀ s, I s →
        ∃ s', compressFrom (ieee log2) S src o fmt r s = some (res, s') ∧ log s' = log s ++ stream) ∧
      ∀ (σ : Type) (S : WildSink σ) (s : σ) (t : WildSpy σ) (fate : Fate),
        Unwind.compressFrom (ieee log2) (wildSpy S) src o fmt r ⟨s, [], none⟩ = some (fate, t) → fate ≠ .aborted →
          t.log <+: stream ∧ (t.failed = none → t.log = stream) ∧ (fate = .returned (.ok ()) → t.failed = none) ∧
          (res = .ok () → t.failed = none → fate = .returned (.ok ())) := by
  obtain ⟨fs, g1, g2, g3⟩ := hR.lends r hr
  have hfit : Fits (writesOf (fs.map Call.write)) := by rw [writesOf_map]; exact g2
  obtain ⟨stream, h1, h2, h3⟩ := C73_prefix hlog o .dynamic fmt (fs.map .write) hfit
  refine ⟨stream, by rw [h1, writesOf_map, g1], ?_, ?_⟩
  · intro σ S I log patience hS s hs
    obtain ⟨stream', k1, k2⟩ := C43_buffered_stream hlog o .dynamic fmt (fs.map .write) hfit
    obtain ⟨⟨s1, k3, k4⟩, -⟩ := k2 σ S I log patience hS .finish s hs
    obtain ⟨⟨s2, k5, k6⟩, -⟩ := k2 σ S I log patience hS (endingOf res) s hs
    obtain ⟨s3, k7, k8⟩ := h2 σ S I log patience hS s hs
    rw [k3] at k7
    cases k7
    have : stream' = stream := List.append_cancel_left (k4.symm.trans k8)
    subst this
    exact ⟨s2, by rw [g3.compressFrom hR.not_interrupted, k5]; rfl, k6⟩
  · intro σ S s t fate h hf
    rw [Unwind.Lends.compressFrom hR.not_interrupted g3] at h
    rcases hx : Unwind.bufferedSession ⟨ieee log2, wildSpy S, o, .dynamic⟩ fmt (fs.map .write) (endingOf res) ⟨s, [], none⟩ with _ | ⟨fate', t'⟩
    · rw [hx] at h; cases h
    · rw [hx] at h
      have h : some (Unwind.answerFate res fate', t') = some (fate, t) := h
      cases h
      have hf' : fate' ≠ .aborted := by rintro rfl; exact hf rfl
      obtain ⟨k1, k2, k3⟩ := h3 σ S s t (endingOf res) fate' hx hf'
      refine ⟨k1, k2, ?_, ?_⟩
      · intro hq
        rcases fate' with x | _ | _
        · have hq : Fate.returned (answer res x) = .returned (.ok ()) := hq
          cases res with
          | ok u =>
            cases x with
            | ok u => exact (k3 rfl).1 rfl
            | error k => cases hq
          | error k => cases x <;> cases hq
        · cases hq
        · cases hq
      · rintro rfl hq
        rw [(k3 rfl).2 hq]
        rfl

/-- **C68** As `C68_prefix`, for such readers: a sink that panics at most once.  If it neither panics nor fails, `compress` returns what the reader ended with. -/
theorem C68_lent_complete (hlog : Log2Ok log2) (hR : Supplies src J data res patienceR) (o : Options) (fmt : Format) (r : ρ) (hr : J r) :
    ∃ stream, decode fmt stream = some (data r) ∧
      ∀ (σ : Type) (S : WildSink σ) (I quiet : σ → Prop) (patience : σ → Nat), PanicsAtMostOnce S I quiet →
        (∀ s buf, I s → (S.write s buf).1 = .error (.error .interrupted) → patience (S.write s buf).2 < patience s) → ∀ s, I s →
        ∃ fate t, Unwind.compressFrom (ieee log2) (wildSpy S) src o fmt r ⟨s, [], none⟩ = some (fate, t) ∧ fate ≠ .aborted ∧
          t.log <+: stream ∧ (t.failed = none → t.log = stream ∧ fate = .returned res) ∧ (fate = .returned (.ok ()) → t.failed = none) := by
  obtain ⟨stream, k1, -, k2⟩ := C68_lent_prefix hlog hR o fmt r hr
  refine ⟨stream, k1, ?_⟩
  intro σ S I quiet patience hS hp s hs
  have hp2 : ∀ (t : WildSpy σ) buf, I t.sink → ((wildSpy S).write t buf).1 = .error (.error .interrupted) →
      patience ((wildSpy S).write t buf).2.sink < patience t.sink := by
    intro t buf h1 h2
    rw [wildSpy_write_sink]
    exact hp _ _ h1 h2
  obtain ⟨fate, t, e1, e2, -, e3⟩ := C68_lent_no_abort hlog hR (wildSpy_once hS) (patience := fun t => patience t.sink) hp2 o fmt r hr ⟨s, [], none⟩ hs
  obtain ⟨j1, j2, j3, -⟩ := k2 σ S s t fate e1 e2
  refine ⟨fate, t, e1, e2, j1, fun hf => ⟨j2 hf, ?_⟩, j3⟩
  obtain ⟨fs, g1, g2, g3⟩ := hR.lends r hr
  have hfit : Fits (writesOf (fs.map Call.write)) := by rw [writesOf_map]; exact g2
  rw [Unwind.Lends.compressFrom hR.not_interrupted g3] at e1
  rcases hx : Unwind.bufferedSession ⟨ieee log2, wildSpy S, o, .dynamic⟩ fmt (fs.map .write) (endingOf res) ⟨s, [], none⟩ with _ | ⟨fate', t'⟩
  · rw [hx] at e1; cases e1
  · rw [hx] at e1
    have e1 : some (Unwind.answerFate res fate', t') = some (fate, t) := e1
    cases e1
    rcases fate' with x | _ | _
    · have hk : ErrKind.other 0 ≠ .interrupted := by nofun
      obtain ⟨stream', body, blocks, h1, -, -⟩ := streamOf_exists (ieeeLaws hlog) o .dynamic fmt _ (coalesce_fit hfit)
      rcases C73_as_error (ieee log2) (wildSpy S) o .dynamic fmt (fs.map .write) (endingOf res) _ _ _ hx (by nofun) (.other 0) hk with ⟨y, l1, l2, -⟩ | ⟨l1, -⟩
      · obtain ⟨i1, -⟩ := bufferedSession_recorded ⟨ieee log2, tame (.other 0) (wildSpy S), o, .dynamic⟩ (wildSpy_recorded S hk) fmt (fs.map .write) (endingOf res)
          (s := ⟨s, [], none⟩) rfl h1 l1
        obtain ⟨i2, -⟩ := i1 (by simp [hf])
        have := l2 x rfl
        subst this
        rw [i2]
        rfl
      · cases l1
    · exact absurd hf (e3 rfl).2
    · exact absurd rfl e2

/-- **C68** For sinks that do not panic this is the model of `compress` for such readers. -/
theorem C68_lent_refines (F : FloatOps) (S : Sink σ) (hS : ∀ s buf n, (S.write s buf).1 = .ok n → n ≤ buf.length)
    (hR : Supplies src J data res patienceR) (o : Options) (fmt : Format) (r : ρ) (hr : J r) (s : σ) :
    Unwind.compressFrom F S.wild src o fmt r s = (compressFrom F S src o fmt r s).map fun x => (.returned x.1, x.2) := by
  obtain ⟨fs, g1, g2, g3⟩ := hR.lends r hr
  rw [Unwind.Lends.compressFrom hR.not_interrupted g3, C73_refines F S hS, g3.compressFrom hR.not_interrupted]
  rcases bufferedSession ⟨F, S, o, .dynamic⟩ fmt (fs.map .write) (endingOf res) s with _ | ⟨_ | _, t⟩ <;> rfl

/-! ## The hypotheses are met -/

/-- A byte slice and a sink that panics once. -/
example : ∃ fate s', Unwind.compressFrom (ieee floorLog2) (panicSink 3) sliceSource Options.default .gzip [1, 2, 3] ([], 0) = some (fate, s') ∧ fate ≠ .aborted := by
  obtain ⟨fate, s', h1, h2, -⟩ := C68_lent_no_abort floorLog2_ok sliceSource_supplies (panicSink_once 3) (patience := fun _ => 0) (by
    intro s buf _ h
    simp only [panicSink] at h
    split at h <;> cases h) Options.default .gzip [1, 2, 3] (by decide) ([], 0) trivial
  exact ⟨fate, s', h1, h2⟩

end Zopfli
