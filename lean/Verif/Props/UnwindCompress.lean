import Verif.Proofs.UnwindCompress
import Verif.Props.Unwind
/-!
# C68: `compress` with a reader or a sink that panics
-/

namespace Zopfli

variable {log2 : Fp → Fp} {σ ρ : Type}

/-- A sink that panics at most once, seen as a sink that returns errors, is honest. -/
theorem PanicsAtMostOnce.honest {S : WildSink σ} {I quiet : σ → Prop} (hS : PanicsAtMostOnce S I quiet) {patience : σ → Nat}
    (hp : ∀ s buf, I s → (S.write s buf).1 = .error (.error .interrupted) → patience (S.write s buf).2 < patience s) {k : ErrKind} (hk : k ≠ .interrupted) :
    Honest (tame k S) I patience := by
  have hw : ∀ s buf, ((tame k S).write s buf).2 = (S.write s buf).2 := by
    intro s buf
    simp only [tame]
    rcases S.write s buf with ⟨f | n, t⟩
    · rfl
    · dsimp only; split <;> rfl
  refine ⟨?_, ?_, ?_, ?_⟩
  · intro s buf h
    rw [hw]
    exact (hS.write s buf h).1
  · intro s h
    exact (hS.flush s h).1
  · intro s buf n h h1
    simp only [tame] at h1
    rcases hx : S.write s buf with ⟨f | m, t⟩
    · rw [hx] at h1; cases h1
    · rw [hx] at h1
      dsimp only at h1
      split at h1
      · cases h1; assumption
      · cases h1
  · intro s buf h h1
    rw [hw]
    refine hp s buf h ?_
    simp only [tame] at h1
    rcases hx : S.write s buf with ⟨(f | _) | m, t⟩
    · rw [hx] at h1; cases h1; rfl
    · rw [hx] at h1
      injection h1 with h1
      exact absurd h1 hk
    · rw [hx] at h1
      dsimp only at h1
      split at h1
      · cases h1
      · injection h1 with h1
        exact absurd h1 hk

theorem tame_wild_write (k : ErrKind) (S : Sink σ) (s : σ) (buf : List UInt8) (h : ∀ n, (S.write s buf).1 = .ok n → n ≤ buf.length) :
    (tame k S.wild).write s buf = S.write s buf := by
  simp only [tame, Sink.wild]
  rcases hx : S.write s buf with ⟨e | n, t⟩ <;> rw [hx] at h
  · rfl
  · exact if_pos (h n rfl)

theorem tame_wild_flush (k : ErrKind) (S : Sink σ) (s : σ) : (tame k S.wild).flush s = S.flush s := by
  simp only [tame, Sink.wild]
  rcases S.flush s with ⟨e | n, t⟩ <;> rfl

/-- The same for readers. -/
theorem tame_wild_reader {R : Reader ρ} {J : ρ → Prop} {data : ρ → List UInt8} {res : Except ErrKind Unit} {ν : ρ → Nat} (hR : Delivers R J data res ν)
    (k : ErrKind) : Delivers (tameReader k R.wild) J data res ν := by
  refine ⟨hR.not_interrupted, fun r room hJ h0 => ?_⟩
  rcases hR.read r room hJ h0 with ⟨l, r', e1, h1, h2, h3, h4⟩ | ⟨r', e1, h1, h2, h3⟩ | ⟨r', e1, h1⟩
  · refine .inl ⟨l, r', ?_, h1, h2, h3, h4⟩
    simp only [tameReader, Reader.wild, e1, Except.mapError, if_pos h2]
  · refine .inr (.inl ⟨r', ?_, h1, h2, h3⟩)
    simp only [tameReader, Reader.wild, e1]
    rfl
  · refine .inr (.inr ⟨r', ?_, h1⟩)
    simp only [tameReader, Reader.wild, e1]
    rcases res with e | _
    · rfl
    · exact if_pos (Nat.zero_le _)

/-- A reader that panics after `data`, seen as a reader that returns an error. -/
theorem DeliversAndPanics.tame {R : WildReader ρ} {J : ρ → Prop} {data : ρ → List UInt8} {ν : ρ → Nat} (hR : DeliversAndPanics R J data ν)
    {k : ErrKind} (hk : k ≠ .interrupted) : Delivers (tameReader k R) J data (.error k) ν := by
  refine ⟨fun h => hk (by injection h), fun r room hJ h0 => ?_⟩
  rcases hR.read r room hJ h0 with ⟨l, r', e1, h1, h2, h3, h4⟩ | ⟨r', e1, h1, h2, h3⟩ | ⟨r', e1, h1⟩
  · refine .inl ⟨l, r', ?_, h1, h2, h3, h4⟩
    simp only [tameReader, e1, if_pos h2]
  · refine .inr (.inl ⟨r', ?_, h1, h2, h3⟩)
    simp only [tameReader, e1]
    rfl
  · refine .inr (.inr ⟨r', ?_, h1⟩)
    simp only [tameReader, e1]
    rfl

/-- **C68** A reader that panics in the middle of the input makes `compress` write a complete, valid stream of what has been read so far,
before the panic reaches the caller: a reader of the output cannot see that something is missing. -/
theorem C68_reader_panics (hlog : Log2Ok log2) {S : Sink σ} {I : σ → Prop} {log : σ → List UInt8} {patience : σ → Nat} (hS : Reliable S I log patience)
    {R : WildReader ρ} {J : ρ → Prop} {data : ρ → List UInt8} {patienceR : ρ → Nat} (hR : DeliversAndPanics R J data patienceR)
    (o : Options) (fmt : Format) (r : ρ) (hr : J r) (s : σ) (hs : I s) :
    ∃ s' stream, Unwind.compress (ieee log2) S.wild R o fmt r s = some (.panicked, s') ∧ log s' = log s ++ stream ∧
      decode fmt stream = some (data r) := by
  have hcount : ∀ s buf n, buf ≠ [] → I s → (S.write s buf).1 = .ok n → n ≤ buf.length := by
    intro s buf n hb h h1
    rcases hS.write s buf h hb with ⟨m, s', e1, -, h2, -⟩ | ⟨s', e1, -⟩
    · rw [e1] at h1; cases h1; exact h2
    · rw [e1] at h1; cases h1
  have hq : PanicsAtMostOnce S.wild (fun _ => False) I := by
    refine ⟨nofun, nofun, fun s buf hb h => ?_, fun s h => ?_⟩
    · rcases hS.write s buf h hb with ⟨m, s', e1, -, h2, -, h3⟩ | ⟨s', e1, -, -, h3⟩
      · simp only [Sink.wild, e1]
        refine ⟨h3, ?_⟩
        rintro (h | ⟨n, h, h4⟩)
        · cases h
        · cases h; omega
      · simp only [Sink.wild, e1]
        refine ⟨h3, ?_⟩
        rintro (h | ⟨n, h, h4⟩) <;> cases h
    · obtain ⟨s', e1, -, h3⟩ := hS.flush s h
      simp only [Sink.wild, e1]
      exact ⟨h3, nofun⟩
  have hrel : ∀ k, Reliable (tame k S.wild) I log patience := by
    intro k
    refine ⟨fun s buf h hb => ?_, fun s h => ?_⟩
    · rw [tame_wild_write k S s buf fun n hn => hcount s buf n hb h hn]
      exact hS.write s buf h hb
    · rw [tame_wild_flush]
      exact hS.flush s h
  have run : ∀ m, ∃ s' stream, compress (ieee log2) (tame (.other m) S.wild) (tameReader (.other m) R) o fmt r s = some (.error (.other m), s') ∧
      log s' = log s ++ stream ∧ decode fmt stream = some (data r) := fun m =>
    C04_C34_compress hlog (hrel (.other m)) (hR.tame (k := .other m) (by nofun)) o fmt r hr s hs
  have agree : ∀ m, Agree (Unwind.compress (ieee log2) S.wild R o fmt r s) (compress (ieee log2) (tame (.other m) S.wild) (tameReader (.other m) R) o fmt r s) := by
    intro m
    rcases compress_tame (F := ieee log2) hq R (k := .other m) (by nofun) o fmt r s with h | ⟨-, -, -, -, -, h, -⟩
    · exact h
    · exact absurd hs h
  obtain ⟨s0, stream, e0, l0, d0⟩ := run 0
  obtain ⟨s1, _, e1, -, -⟩ := run 1
  have a0 := agree 0
  have a1 := agree 1
  rw [e0] at a0
  rw [e1] at a1
  rcases hx : Unwind.compress (ieee log2) S.wild R o fmt r s with _ | ⟨fate, t⟩
  · rw [hx] at a0; cases a0
  · have hab := (compress_post hq hx).1 hs
    rw [hx] at a0 a1
    rcases a0 with rfl | ⟨r0, b0, c0⟩
    · exact absurd rfl hab
    · rcases a1 with rfl | ⟨r1, b1, c1⟩
      · exact absurd rfl hab
      · cases b0
        cases b1
        rcases fate with q | _ | _
        · have c0 : Except.error (ErrKind.other 0) = q := c0
          have c1 : Except.error (ErrKind.other 1) = q := c1
          rw [← c1] at c0
          cases c0
        · exact ⟨_, stream, rfl, l0, d0⟩
        · exact absurd rfl hab

/-- A sink that does not panic, with a record. -/
theorem wildSpy_calm {S : Sink σ} {I : σ → Prop} {patience : σ → Nat} (hS : Honest S I patience) :
    PanicsAtMostOnce (wildSpy S.wild) (fun t => I t.sink) (fun t => I t.sink) := by
  have hw : ∀ (t : WildSpy σ) buf, I t.sink → I ((wildSpy S.wild).write t buf).2.sink := fun t buf h => by
    rw [wildSpy_write_sink]
    exact hS.write _ _ h
  have hf : ∀ (t : WildSpy σ), I t.sink → I ((wildSpy S.wild).flush t).2.sink := fun t h => by
    rw [wildSpy_flush_sink]
    exact hS.flush _ h
  refine ⟨fun t buf h => ⟨hw t buf h, fun _ => hw t buf h⟩, fun t h => ⟨hf t h, fun _ => hf t h⟩, fun t buf _ h => ⟨hw t buf h, ?_⟩, fun t h => ⟨hf t h, ?_⟩⟩
  · have hc := hS.count t.sink buf
    rw [wildSpy_write_result]
    simp only [Sink.wild]
    rcases hx : S.write t.sink buf with ⟨e | m, u⟩ <;> rw [hx] at hc
    · rintro (h1 | ⟨n, h1, h2⟩) <;> cases h1
    · rintro (h1 | ⟨n, h1, h2⟩)
      · cases h1
      · cases h1
        have := hc _ h rfl
        omega
  · simp only [wildSpy, Sink.wild]
    rcases S.flush t.sink with ⟨e | _, u⟩ <;> nofun

/-- **C68** A reader that panics, and a sink that may fail, but does not panic: the process is not aborted, and what the sink has accepted
before it fails for the first time is a prefix of a complete stream of what the reader delivered.  If the sink does not fail it has received
all of this stream and the panic of the reader reaches the caller; if `compress` returns, it returns the error of the sink. -/
theorem C68_reader_panics_sink_fails (hlog : Log2Ok log2) {R : WildReader ρ} {J : ρ → Prop} {data : ρ → List UInt8} {patienceR : ρ → Nat}
    (hR : DeliversAndPanics R J data patienceR) (o : Options) (fmt : Format) (r : ρ) (hr : J r) :
    ∃ stream, decode fmt stream = some (data r) ∧
      ∀ (σ : Type) (S : Sink σ) (I : σ → Prop) (patience : σ → Nat), Honest S I patience → ∀ s, I s →
        ∃ fate t, Unwind.compress (ieee log2) (wildSpy S.wild) R o fmt r ⟨s, [], none⟩ = some (fate, t) ∧ fate ≠ .aborted ∧ t.log <+: stream ∧
          (t.failed = none → t.log = stream ∧ fate = .panicked) ∧ (∀ q, fate = .returned q → ∃ k, q = .error k ∧ t.failed = some (.error k)) := by
  have hk : ∀ m, ErrKind.other m ≠ .interrupted := by nofun
  obtain ⟨W, stream, h1, h2, h3, -, h4⟩ := compress_plan (ieeeLaws hlog) (tameReader (.other 0) R) (hR.tame (hk 0)) o fmt hr
  obtain ⟨_, _, -, -, -, -, h5⟩ := compress_plan (ieeeLaws hlog) (tameReader (.other 1) R) (hR.tame (hk 1)) o fmt hr
  refine ⟨stream, by rw [h1.decode (ieeeLaws hlog) h2, h3], ?_⟩
  intro σ S I patience hS s hs
  have hq := wildSpy_calm hS
  have hp : ∀ (t : WildSpy σ) buf, I t.sink → ((wildSpy S.wild).write t buf).1 = .error (.error .interrupted) →
      patience ((wildSpy S.wild).write t buf).2.sink < patience t.sink := by
    intro t buf h1 h2
    rw [wildSpy_write_sink]
    rw [wildSpy_write_result] at h2
    refine hS.interrupt _ _ h1 ?_
    simp only [Sink.wild] at h2
    rcases hx : S.write t.sink buf with ⟨e | m, u⟩ <;> rw [hx] at h2 <;> cases h2
    rfl
  have total : ∀ m, ∃ q t, compress (ieee log2) (tame (.other m) (wildSpy S.wild)) (tameReader (.other m) R) o fmt r ⟨s, [], none⟩ = some (q, t) := by
    intro m
    obtain ⟨⟨q, t⟩, h, -⟩ := compress_total (ieeeLaws hlog) (tame (.other m) (wildSpy S.wild)) (hq.honest (patience := fun t => patience t.sink) hp (hk m))
      (tameReader (.other m) R) (hR.tame (hk m)) o fmt hr (s := ⟨s, [], none⟩) hs
    exact ⟨q, t, h⟩
  have agree : ∀ m, Agree (Unwind.compress (ieee log2) (wildSpy S.wild) R o fmt r ⟨s, [], none⟩)
      (compress (ieee log2) (tame (.other m) (wildSpy S.wild)) (tameReader (.other m) R) o fmt r ⟨s, [], none⟩) := by
    intro m
    rcases compress_tame (F := ieee log2) hq R (hk m) o fmt r ⟨s, [], none⟩ with h | ⟨-, -, -, -, -, h, -⟩
    · exact h
    · exact absurd hs h
  obtain ⟨q0, t0, e0⟩ := total 0
  obtain ⟨q1, t1, e1⟩ := total 1
  have a0 := agree 0
  have a1 := agree 1
  rw [e0] at a0
  rw [e1] at a1
  obtain ⟨f0, g0⟩ := (h4 _ _ ⟨s, [], none⟩).2 _ _ (wildSpy_recorded S.wild (hk 0)) rfl _ e0
  obtain ⟨f1, g1⟩ := (h5 _ _ ⟨s, [], none⟩).2 _ _ (wildSpy_recorded S.wild (hk 1)) rfl _ e1
  dsimp only at f0 g0 f1 g1
  rcases hx : Unwind.compress (ieee log2) (wildSpy S.wild) R o fmt r ⟨s, [], none⟩ with _ | ⟨fate, t⟩
  · rw [hx] at a0; cases a0
  · have hab := (compress_post hq hx).1 hs
    rw [hx] at a0 a1
    rcases a0 with rfl | ⟨r0, b0, c0⟩
    · exact absurd rfl hab
    · rcases a1 with rfl | ⟨r1, b1, c1⟩
      · exact absurd rfl hab
      · cases b0
        cases b1
        have ret : ∀ q, fate = .returned q → q0 = q ∧ q1 = q := by
          rintro q rfl
          exact ⟨c0, c1⟩
        refine ⟨_, _, rfl, hab, ?_, ?_, ?_⟩
        · rcases hf : t0.failed with _ | f
          · have := (f0 (by simp [hf])).2
            have : t0.log = stream := by simpa using this
            rw [this]
          · obtain ⟨-, n, -, j⟩ := g0 (f.tame (.other 0)) (by simp [hf])
            have : t0.log = stream.take n := by simpa using j
            rw [this]
            exact List.take_prefix _ _
        · intro hf
          obtain ⟨j1, j2⟩ := f0 (by simp [hf])
          obtain ⟨j3, -⟩ := f1 (by simp [hf])
          refine ⟨by simpa using j2, ?_⟩
          rcases fate with q | _ | _
          · obtain ⟨i1, i2⟩ := ret q rfl
            rw [i1] at j1
            rw [i2, j1] at j3
            cases j3
          · rfl
          · exact absurd rfl hab
        · intro q hq
          obtain ⟨i1, i2⟩ := ret q hq
          rcases hf : t0.failed with _ | f
          · obtain ⟨j1, -⟩ := f0 (by simp [hf])
            obtain ⟨j3, -⟩ := f1 (by simp [hf])
            rw [i1] at j1
            rw [i2, j1] at j3
            cases j3
          · obtain ⟨j1, -⟩ := g0 (f.tame (.other 0)) (by simp [hf])
            obtain ⟨j3, -⟩ := g1 (f.tame (.other 1)) (by simp [hf])
            rw [i1] at j1
            rw [i2] at j3
            rcases f with k | _
            · refine ⟨k, ?_, rfl⟩
              rcases j1 with j1 | ⟨k', j1, j1'⟩
              · exact j1
              · rcases j3 with j3 | ⟨k'', j3, j3'⟩
                · exact j3
                · cases j1
                  cases j3
                  rw [j1'] at j3'
                  cases j3'
            · have j1 : q = .error (.other 0) := by
                rcases j1 with j1 | ⟨k', j1, j1'⟩
                · exact j1
                · cases j1; exact j1'
              have j3 : q = .error (.other 1) := by
                rcases j3 with j3 | ⟨k', j3, j3'⟩
                · exact j3
                · cases j3; exact j3'
              rw [j1] at j3
              cases j3

/-- **C68** A sink that panics at most once does not abort the process.  If it does not panic, `compress` returns; if
`compress` panics, the sink has panicked. -/
theorem C68_no_abort (hlog : Log2Ok log2) {R : Reader ρ} {J : ρ → Prop} {data : ρ → List UInt8} {res : Except ErrKind Unit}
    {patienceR : ρ → Nat} (hR : Delivers R J data res patienceR) {S : WildSink σ} {I quiet : σ → Prop} (hS : PanicsAtMostOnce S I quiet) {patience : σ → Nat}
    (hp : ∀ s buf, I s → (S.write s buf).1 = .error (.error .interrupted) → patience (S.write s buf).2 < patience s)
    (o : Options) (fmt : Format) (r : ρ) (hr : J r) (s : σ) (hs : I s) :
    ∃ fate s', Unwind.compress (ieee log2) S R.wild o fmt r s = some (fate, s') ∧ fate ≠ .aborted ∧ (quiet s → ∃ q, fate = .returned q) ∧
      (fate = .panicked → quiet s') := by
  have hk : ErrKind.other 0 ≠ .interrupted := by nofun
  have hH := hS.honest hp hk
  obtain ⟨⟨q, s'⟩, h1, -⟩ := compress_total (ieeeLaws hlog) (tame (.other 0) S) hH (tameReader (.other 0) R.wild) (tame_wild_reader hR _) o fmt hr hs
  have hc : ∀ e y, Unwind.copyLoop ⟨ieee log2, S, o, .dynamic⟩ R.wild r e [] = some y → y.1 = .error .panic → y.2.2.2 = true :=
    fun e y h => copyLoop_calm hR r e [] y h hr
  rcases hx : Unwind.compress (ieee log2) S R.wild o fmt r s with _ | ⟨fate, t⟩
  · exfalso
    rcases compress_tame (F := ieee log2) hS R.wild hk o fmt r s with h | ⟨e, buf, t, g1, g2, g3, gR, g4, g5⟩
    · rw [hx, h1] at h
      cases h
    · rw [h1] at g4
      rw [hx] at g5
      rcases hd : Unwind.drop ⟨ieee log2, S, o, .dynamic⟩ true e with _ | d
      · obtain ⟨u, i1, -⟩ := (ESane.finish_drop (env := WildEnv.tame ⟨ieee log2, S, o, .dynamic⟩ (.other 0)) (ieeeLaws hlog) hH
          (gR.sane (ieeeLaws hlog) hH (tame_wild_reader hR _) hr hs)).2
        have i2 := drop_tame ⟨ieee log2, S, o, .dynamic⟩ hk true e
        rw [hd] at i2
        have i2 : e.drop (WildEnv.tame ⟨ieee log2, S, o, .dynamic⟩ (.other 0)) = none := i2
        rw [i1] at i2
        cases i2
      · rw [hd] at g5; cases g5
  · obtain ⟨g1, g2⟩ := (compress_post hS hx).2 hc
    exact ⟨fate, t, rfl, (g2 hs).1, g1, (g2 hs).2⟩

/-- **C68** What a sink has accepted before it panics (or fails) for the first time is a prefix of the one stream for what the reader
delivers; if it does neither it has received all of it and `compress` returns what the reader ended with.  If `compress` returns `Ok` then
the sink has done neither. -/
theorem C68_prefix (hlog : Log2Ok log2) {R : Reader ρ} {J : ρ → Prop} {data : ρ → List UInt8} {res : Except ErrKind Unit}
    {patienceR : ρ → Nat} (hR : Delivers R J data res patienceR) (o : Options) (fmt : Format) (r : ρ) (hr : J r) :
    ∃ stream, decode fmt stream = some (data r) ∧
      ∀ (σ : Type) (S : WildSink σ) (I quiet : σ → Prop) (patience : σ → Nat), PanicsAtMostOnce S I quiet →
        (∀ s buf, I s → (S.write s buf).1 = .error (.error .interrupted) → patience (S.write s buf).2 < patience s) → ∀ s, I s →
        ∃ fate t, Unwind.compress (ieee log2) (wildSpy S) R.wild o fmt r ⟨s, [], none⟩ = some (fate, t) ∧ fate ≠ .aborted ∧
          t.log <+: stream ∧ (t.failed = none → t.log = stream ∧ fate = .returned res) ∧ (fate = .returned (.ok ()) → t.failed = none) := by
  obtain ⟨W, stream, h1, h2, h3, -, h4⟩ := compress_plan (ieeeLaws hlog) (tameReader (.other 0) R.wild) (tame_wild_reader hR _) o fmt hr
  refine ⟨stream, by rw [h1.decode (ieeeLaws hlog) h2, h3], ?_⟩
  intro σ S I quiet patience hS hp s hs
  have hk : ErrKind.other 0 ≠ .interrupted := by nofun
  have hrec := wildSpy_recorded S hk
  have hS2 := wildSpy_once hS
  have hp2 : ∀ (t : WildSpy σ) buf, I t.sink → ((wildSpy S).write t buf).1 = .error (.error .interrupted) →
      patience ((wildSpy S).write t buf).2.sink < patience t.sink := by
    intro t buf h1 h2
    rw [wildSpy_write_sink]
    exact hp _ _ h1 h2
  obtain ⟨fate, t, e1, e2, -, e3⟩ := C68_no_abort hlog hR hS2 (patience := fun t => patience t.sink) hp2 o fmt r hr ⟨s, [], none⟩ hs
  refine ⟨fate, t, e1, e2, ?_⟩
  have hH := hS2.honest (patience := fun t => patience t.sink) hp2 hk
  obtain ⟨⟨q, t'⟩, f1, -⟩ := compress_total (ieeeLaws hlog) (tame (.other 0) (wildSpy S)) hH (tameReader (.other 0) R.wild) (tame_wild_reader hR _) o fmt hr
    (s := ⟨s, [], none⟩) hs
  obtain ⟨g1, g2⟩ := (h4 _ (tame (.other 0) (wildSpy S)) ⟨s, [], none⟩).2 _ _ hrec rfl _ f1
  have pre : t'.log <+: stream := by
    rcases hq : t'.failed with _ | f
    · have := (g1 (by simp [hq])).2
      have : t'.log = stream := by simpa using this
      rw [this]
    · obtain ⟨-, n, -, j⟩ := g2 _ (by simp only [hq]; rfl)
      have : t'.log = stream.take n := by simpa using j
      rw [this]
      exact List.take_prefix _ _
  have pq : fate = .panicked → t.failed ≠ none := fun h => (e3 h).2
  rcases compress_tame (F := ieee log2) hS2 R.wild hk o fmt r ⟨s, [], none⟩ with h | ⟨e, buf, v, i1, i2, i3, iR, i4, i5⟩
  · rw [e1, f1] at h
    rcases h with h | ⟨q', j1, j2⟩
    · exact absurd h e2
    · cases j1
      refine ⟨pre, ?_, ?_⟩
      · intro hf
        obtain ⟨k1, k2⟩ := g1 (by simp [hf])
        refine ⟨by simpa using k2, ?_⟩
        dsimp only at k1
        subst k1
        rcases fate with q2 | _ | _
        · have j2 : q = q2 := j2
          rw [j2]
        · exact absurd hf (pq rfl)
        · exact absurd rfl e2
      · rintro rfl
        have j2 : q = .ok () := j2
        subst j2
        rcases hq : t.failed with _ | f
        · rfl
        · obtain ⟨j, -⟩ := g2 _ (by simp only [hq]; rfl)
          rcases j with j | ⟨_, -, j⟩ <;> cases j
  · -- the `BufWriter` is broken
    obtain ⟨-, hv⟩ := i2 hs
    obtain ⟨f, hf⟩ : ∃ f, v.failed = some f := Option.ne_none_iff_exists'.1 hv
    have hinv := hrec.inv (f.tame (.other 0)) v.log
    rw [f1] at i4
    have hd1 : dropBuffered (WildEnv.tame ⟨ieee log2, wildSpy S, o, .dynamic⟩ (.other 0)) e buf = some t' := by
      rcases hd : dropBuffered (WildEnv.tame ⟨ieee log2, wildSpy S, o, .dynamic⟩ (.other 0)) e buf with _ | u <;> rw [hd] at i4
      · cases i4
      · cases i4; rfl
    have l1 := dropBuffered_inv (WildEnv.tame ⟨ieee log2, wildSpy S, o, .dynamic⟩ (.other 0)) hinv hd1 i1 ⟨by rw [hf]; rfl, rfl⟩
    rw [e1] at i5
    rcases hd : Unwind.drop ⟨ieee log2, wildSpy S, o, .dynamic⟩ true e with _ | ⟨d, u⟩ <;> rw [hd] at i5
    · cases i5
    · have i5 : some (fate, t) = some (Unwind.afterDrop false .panicked d, u) := i5
      simp only [Option.some.injEq, Prod.mk.injEq] at i5
      obtain ⟨i6, rfl⟩ := i5
      have i7 := drop_tame ⟨ieee log2, wildSpy S, o, .dynamic⟩ hk true e
      rw [hd] at i7
      rcases i7 with rfl | ⟨i7, -⟩
      · exact absurd i6 e2
      · have l2 := Encoder.drop_inv (WildEnv.tame ⟨ieee log2, wildSpy S, o, .dynamic⟩ (.other 0)) hinv i7 i1 ⟨by rw [hf]; rfl, rfl⟩
        have hp : fate = .panicked := by
          rcases d with _ | _ | _
          · exact i6
          · exact absurd i6 e2
          · exact absurd i6 e2
        refine ⟨?_, fun h => absurd h (pq hp), fun h => ?_⟩
        · rw [l2.2, ← l1.2]
          exact pre
        · rw [hp] at h
          cases h

/-- **C68** For sinks and readers that do not panic (and do not claim too much) this is the model of the other properties. -/
theorem C68_refines (F : FloatOps) (S : Sink σ) (hS : ∀ s buf n, (S.write s buf).1 = .ok n → n ≤ buf.length)
    (R : Reader ρ) (hR : ∀ r room l, (R.read r room).1 = .ok l → l.length ≤ room) (o : Options) (fmt : Format) (r : ρ) (s : σ) :
    Unwind.compress F S.wild R.wild o fmt r s = (compress F S R o fmt r s).map fun x => (.returned x.1, x.2) := by
  have hk : ErrKind.other 0 ≠ .interrupted := by nofun
  have ht : tame (.other 0) S.wild = S := by
    have h1 : (tame (.other 0) S.wild).write = S.write := by
      funext s buf
      exact tame_wild_write _ S s buf (hS s buf)
    have h2 : (tame (.other 0) S.wild).flush = S.flush := by
      funext s
      exact tame_wild_flush _ S s
    rcases h3 : tame (.other 0) S.wild with ⟨w, f⟩
    rw [h3] at h1 h2
    rcases S with ⟨w', f'⟩
    cases h1
    cases h2
    rfl
  have hr : tameReader (.other 0) R.wild = R := by
    obtain ⟨rd⟩ := R
    simp only [tameReader, Reader.wild]
    congr 1
    funext r room
    have := hR r room
    dsimp only at this ⊢
    generalize rd r room = q at this ⊢
    rcases q with ⟨e | l, t⟩
    · rfl
    · exact if_pos (this l rfl)
  have hq : PanicsAtMostOnce S.wild (fun _ => True) (fun _ => True) := by
    refine ⟨fun _ _ _ => ⟨trivial, fun _ => trivial⟩, fun _ _ => ⟨trivial, fun _ => trivial⟩, fun s buf _ _ => ⟨trivial, ?_⟩, fun s _ => ⟨trivial, ?_⟩⟩
    · rintro (h | ⟨n, h1, h2⟩)
      · simp only [Sink.wild] at h
        rcases hx : S.write s buf with ⟨e | n, t⟩ <;> rw [hx] at h <;> cases h
      · have h3 := hS s buf
        simp only [Sink.wild] at h1
        rcases hx : S.write s buf with ⟨e | m, t⟩ <;> rw [hx] at h1 h3 <;> cases h1
        have := h3 n rfl
        omega
    · simp only [Sink.wild]
      rcases S.flush s with ⟨e | _, t⟩ <;> nofun
  have h1 := compress_tame (F := F) hq R.wild hk o fmt r s
  rw [ht, hr] at h1
  rcases h1 with h1 | ⟨-, -, -, -, -, h, -⟩
  · rcases hx : Unwind.compress F S.wild R.wild o fmt r s with _ | ⟨fate, s'⟩
    · rw [hx] at h1
      have h1 : compress F S R o fmt r s = none := h1
      rw [h1]
      rfl
    · obtain ⟨g, -⟩ := (compress_post hq hx).2 fun e y h => copyLoop_calm_honest hR r e [] y h
      obtain ⟨q, g⟩ := g trivial
      have g : fate = .returned q := g
      subst g
      rw [hx] at h1
      rcases h1 with h1 | ⟨q', h2, h3⟩
      · cases h1
      · have h3 : q' = q := h3
        rw [h2, h3]
        rfl
  · exact absurd trivial h

/-! ## The hypotheses are met -/

/-- A reader that delivers its data one byte at a time, and then panics. -/
def bomb : WildReader (List UInt8) where
  read r room :=
    match r with
    | [] => (.error .panic, [])
    | b :: bs => if 0 < room then (.ok [b], bs) else (.ok [], b :: bs)

theorem bomb_panics : DeliversAndPanics bomb (fun _ => True) id (fun _ => 0) := by
  refine ⟨fun r room _ h => ?_⟩
  cases r with
  | nil => exact .inr (.inr ⟨[], rfl, rfl⟩)
  | cons b bs => exact .inl ⟨[b], bs, if_pos h, by simp, h, rfl, trivial⟩

/-- Half of the data has been read, and the caller gets a panic; but the file is a complete `gzip` member. -/
example : ∃ s', Unwind.compress (ieee floorLog2) vecSink.wild bomb Options.default .gzip [1, 2, 3] [] = some (.panicked, s') ∧
    decode .gzip s' = some [1, 2, 3] := by
  obtain ⟨s', stream, h1, h2, h3⟩ := C68_reader_panics floorLog2_ok vecSink_reliable bomb_panics Options.default .gzip [1, 2, 3] trivial [] trivial
  refine ⟨s', h1, ?_⟩
  rw [show s' = stream by simpa using h2]
  exact h3

/-- The reader panics, and the sink fails at its fifth call. -/
example : ∃ stream, decode .zlib stream = some [1, 2, 3] ∧ ∃ fate t, Unwind.compress (ieee floorLog2) (wildSpy (glitchSink 4).wild) bomb Options.default .zlib [1, 2, 3] ⟨([], 0), [], none⟩ =
    some (fate, t) ∧ fate ≠ .aborted ∧ t.log <+: stream := by
  obtain ⟨stream, h1, h2⟩ := C68_reader_panics_sink_fails floorLog2_ok bomb_panics Options.default .zlib [1, 2, 3] trivial
  obtain ⟨fate, t, g1, g2, g3, -⟩ := h2 _ _ _ _ (glitch_honest 4) ([], 0) trivial
  exact ⟨stream, h1, fate, t, g1, g2, g3⟩

/-- A sink that panics at its fourth call, in the middle of the header of a block or later. -/
example {R : Reader ρ} {J : ρ → Prop} {data : ρ → List UInt8} {patienceR : ρ → Nat} (hR : Delivers R J data (.ok ()) patienceR) (r : ρ) (hr : J r) :
    ∃ fate s', Unwind.compress (ieee floorLog2) (panicSink 3) R.wild Options.default .zlib r ([], 0) = some (fate, s') ∧ fate ≠ .aborted := by
  obtain ⟨fate, s', h1, h2, -⟩ := C68_no_abort floorLog2_ok hR (panicSink_once 3) (patience := fun _ => 0) (by
    intro s buf _ h
    simp only [panicSink] at h
    split at h <;> cases h) Options.default .zlib r hr ([], 0) trivial
  exact ⟨fate, s', h1, h2⟩

end Zopfli
