import Verif.Proofs.Unwind
import Verif.Props.Faults
import Verif.Props.Checked
/-!
# C67: a sink that panics

`Unwind.session` (Verif/Model/Unwind.lean) is a session with a sink that may panic.  A panic unwinds the stack of the client, and the encoder
is dropped on the way, which writes to the sink again.  In a release build this is harmless as far as it can be: the sink is left in the
state in which it would be had it returned an error instead, and the process is not aborted unless the sink panics twice.  In a build with
overflow checks one panic of the sink may abort the process.
-/

namespace Zopfli

variable {log2 : Fp → Fp} {σ : Type}

/-- **C67** A panic of the sink leaves the sink in exactly the state that it would be in if it had returned an error at that point, whatever
the kind of this error; and a session that returns normally returns the same. -/
theorem C67_as_error (F : FloatOps) (S : WildSink σ) (o : Options) (bt : BlockType) (fmt : Format) (calls : List Call) (ending : Ending) (s s' : σ)
    (fate : Fate) (h : Unwind.session ⟨F, S, o, bt⟩ fmt calls ending s = some (fate, s')) (hf : fate ≠ .aborted) (k : ErrKind) (hk : k ≠ .interrupted) :
    ∃ r, session ⟨F, tame k S, o, bt⟩ fmt calls ending s = some (r, s') ∧
      (∀ r', fate = .returned r' → r = r') ∧ (fate = .panicked → (∃ k', r = .error k') ∨ ending = .drop) := by
  have h1 := session_tame ⟨F, S, o, bt⟩ hk fmt calls ending s
  rw [h] at h1
  rcases h1 with rfl | ⟨r, h2, h3⟩
  · exact absurd rfl hf
  · refine ⟨r, h2, ?_, ?_⟩
    · rintro r' rfl
      exact h3
    · rintro rfl
      rcases h3 with h3 | h3
      · exact .inl h3
      · exact .inr h3.1

/-- **C67** A sink that panics at most once does not abort the process: the session ends normally, or with that panic.  If the sink does not
panic, it ends normally; if it ends with a panic, the sink has panicked. -/
theorem C67_no_abort (hlog : Log2Ok log2) {S : WildSink σ} {I quiet : σ → Prop} (hS : PanicsAtMostOnce S I quiet) {patience : σ → Nat}
    (hp : ∀ s buf, I s → (S.write s buf).1 = .error (.error .interrupted) → patience (S.write s buf).2 < patience s)
    (o : Options) (bt : BlockType) (fmt : Format) (calls : List Call) (hfit : Fits (writesOf calls)) (ending : Ending) (s : σ) (hs : I s) :
    ∃ fate s', Unwind.session ⟨ieee log2, S, o, bt⟩ fmt calls ending s = some (fate, s') ∧ fate ≠ .aborted ∧
      (quiet s → ∃ r, fate = .returned r) ∧ (fate = .panicked → quiet s') := by
  have hk : ErrKind.other 0 ≠ .interrupted := by nofun
  have hw : ∀ s buf, ((tame (.other 0) S).write s buf).2 = (S.write s buf).2 := by
    intro s buf
    simp only [tame]
    rcases S.write s buf with ⟨f | n, t⟩
    · rfl
    · dsimp only; split <;> rfl
  have hH : Honest (tame (.other 0) S) I patience := by
    refine ⟨?_, ?_, ?_, ?_⟩
    · intro s buf h
      rw [hw]
      exact (hS.write s buf h).1
    · intro s h
      exact (hS.flush s h).1
    · intro s buf n h h1
      simp only [tame] at h1
      rcases hx : S.write s buf with ⟨f | m, t⟩
      · rw [hx] at h1; cases h1
      · rw [hx] at h1
        dsimp only at h1
        split at h1
        · cases h1; assumption
        · cases h1
    · intro s buf h h1
      rw [hw]
      refine hp s buf h ?_
      simp only [tame] at h1
      rcases hx : S.write s buf with ⟨(f | _) | m, t⟩
      · rw [hx] at h1; cases h1; rfl
      · rw [hx] at h1; cases h1
      · rw [hx] at h1
        dsimp only at h1
        split at h1 <;> cases h1
  obtain ⟨r, t, h⟩ := C05_no_panic_failing hlog hH o bt fmt calls ending hfit s hs
  have h1 := session_tame ⟨ieee log2, S, o, bt⟩ hk fmt calls ending s
  rcases hx : Unwind.session ⟨ieee log2, S, o, bt⟩ fmt calls ending s with _ | ⟨fate, s'⟩
  · rw [hx] at h1
    have h1 : session ⟨ieee log2, tame (.other 0) S, o, bt⟩ fmt calls ending s = none := h1
    rw [h] at h1
    cases h1
  · have h2 := session_post hS hx
    exact ⟨fate, s', rfl, (h2.2 hs).1, h2.1, (h2.2 hs).2⟩

/-- **C67** For sinks that do not panic (and do not claim to have written more than they were given) this is the model of the other
properties. -/
theorem C67_refines (F : FloatOps) (S : Sink σ) (hS : ∀ s buf n, (S.write s buf).1 = .ok n → n ≤ buf.length)
    (o : Options) (bt : BlockType) (fmt : Format) (calls : List Call) (ending : Ending) (s : σ) :
    Unwind.session ⟨F, S.wild, o, bt⟩ fmt calls ending s = (session ⟨F, S, o, bt⟩ fmt calls ending s).map fun x => (.returned x.1, x.2) := by
  have hk : ErrKind.other 0 ≠ .interrupted := by nofun
  have ht : tame (.other 0) S.wild = S := by
    obtain ⟨w, f⟩ := S
    simp only [tame, Sink.wild]
    congr 1
    · funext s buf
      have := hS s buf
      dsimp only at this ⊢
      generalize w s buf = q at this ⊢
      rcases q with ⟨e | n, t⟩
      · rfl
      · exact if_pos (this n rfl)
    · funext s
      rcases f s with ⟨e | _, t⟩ <;> rfl
  have hq : PanicsAtMostOnce S.wild (fun _ => True) (fun _ => True) := by
    refine ⟨fun _ _ _ => ⟨trivial, fun _ => trivial⟩, fun _ _ => ⟨trivial, fun _ => trivial⟩, fun s buf _ _ => ⟨trivial, ?_⟩, fun s _ => ⟨trivial, ?_⟩⟩
    · rintro (h | ⟨n, h1, h2⟩)
      · simp only [Sink.wild] at h
        rcases hx : S.write s buf with ⟨e | n, t⟩ <;> rw [hx] at h <;> cases h
      · have h3 := hS s buf
        simp only [Sink.wild] at h1
        rcases hx : S.write s buf with ⟨e | m, t⟩ <;> rw [hx] at h1 h3 <;> cases h1
        have := h3 n rfl
        omega
    · simp only [Sink.wild]
      rcases S.flush s with ⟨e | _, t⟩ <;> nofun
  have h1 := session_tame ⟨F, S.wild, o, bt⟩ hk fmt calls ending s
  simp only [WildEnv.tame, ht] at h1
  rcases hx : Unwind.session ⟨F, S.wild, o, bt⟩ fmt calls ending s with _ | ⟨fate, s'⟩
  · rw [hx] at h1
    have h1 : session ⟨F, S, o, bt⟩ fmt calls ending s = none := h1
    rw [h1]
    rfl
  · rw [hx] at h1
    obtain ⟨r, hr⟩ := (session_post hq hx).1 trivial
    have hr : fate = .returned r := hr
    subst hr
    rcases h1 with h1 | ⟨r', h2, h3⟩
    · cases h1
    · cases h3
      rw [h2]
      rfl

/-- **C67** What a sink has accepted before it panics (or fails) for the first time is a prefix of the one stream that a sink receives that
does neither; and if it does neither, it has received all of it.  A session that reports success by `finish` is of this kind. -/
theorem C67_prefix (hlog : Log2Ok log2) (o : Options) (bt : BlockType) (fmt : Format) (calls : List Call) (hfit : Fits (writesOf calls)) :
    ∃ stream, decode fmt stream = some (writesOf calls).flatten ∧
      (∀ (σ : Type) (S : Sink σ) (I : σ → Prop) (log : σ → List UInt8) (patience : σ → Nat), Reliable S I log patience → ∀ s, I s →
        ∃ s', session ⟨ieee log2, S, o, bt⟩ fmt calls .finish s = some (.ok (), s') ∧ log s' = log s ++ stream) ∧
      ∀ (σ : Type) (S : WildSink σ) (s : σ) (t : WildSpy σ) (ending : Ending) (fate : Fate),
        Unwind.session ⟨ieee log2, wildSpy S, o, bt⟩ fmt calls ending ⟨s, [], none⟩ = some (fate, t) → fate ≠ .aborted →
          t.log <+: stream ∧ (t.failed = none → t.log = stream) ∧
            (ending = .finish → (fate = .returned (.ok ()) ↔ t.failed = none)) := by
  obtain ⟨stream, body, blocks, h1, h2, h3⟩ := streamOf_exists (ieeeLaws hlog) o bt fmt (writesOf calls) hfit
  refine ⟨stream, h1.decode (ieeeLaws hlog) hfit, ?_, ?_⟩
  · intro σ S I log patience hS s hs
    obtain ⟨s', g1, g2, g3⟩ := session_reliable ⟨ieee log2, S, o, bt⟩ hS fmt calls .finish hs h1
    exact ⟨s', g1, g2⟩
  · intro σ S s t ending fate hr hf
    have hk : ErrKind.other 0 ≠ .interrupted := by nofun
    obtain ⟨r, g1, g2, g3⟩ := C67_as_error (ieee log2) (wildSpy S) o bt fmt calls ending _ _ fate hr hf (.other 0) hk
    have hrec := wildSpy_recorded S hk
    cases ending with
    | finish =>
      obtain ⟨i1, i2⟩ := session_recorded ⟨ieee log2, tame (.other 0) (wildSpy S), o, bt⟩ hrec fmt calls (s := ⟨s, [], none⟩) rfl h1 g1
      rcases r with k | u
      · obtain ⟨j1, n, -, j2⟩ := i2 k rfl
        have j2 : t.log = stream.take n := by simpa using j2
        have j1 : t.failed.map (Fault.tame (.other 0)) = some k := j1
        have j3 : t.failed ≠ none := by intro h; rw [h] at j1; cases j1
        refine ⟨by rw [j2]; exact List.take_prefix _ _, fun h => absurd h j3, fun _ => ⟨?_, fun h => absurd h j3⟩⟩
        rintro rfl
        cases g2 _ rfl
      · obtain ⟨j1, j2⟩ := i1 () rfl
        have j2 : t.log = stream := by simpa using j2
        have j1 : t.failed = none := by simpa using j1
        refine ⟨by rw [j2], fun _ => j2, fun _ => ⟨fun _ => j1, fun _ => ?_⟩⟩
        rcases fate with r' | _ | _
        · rw [← g2 r' rfl]
        · rcases g3 rfl with ⟨k', h⟩ | h <;> cases h
        · exact absurd rfl hf
    | drop =>
      obtain ⟨i1, i2⟩ := session_drop_recorded ⟨ieee log2, tame (.other 0) (wildSpy S), o, bt⟩ hrec fmt calls (s := ⟨s, [], none⟩) rfl h1 g1
      dsimp only at i1 i2
      refine ⟨?_, ?_, by nofun⟩
      · rcases hq : t.failed with _ | f
        · rw [hq] at i1
          have := (i1 rfl).2
          rw [this]
          exact List.prefix_refl _
        · rw [hq] at i2
          obtain ⟨-, n, -, j⟩ := i2 _ rfl
          rw [j]
          exact List.take_prefix _ _
      · intro hq
        rw [hq] at i1
        exact (i1 rfl).2

/-! ## One panic too many -/

/-- A sink that panics at its `n`-th call of `write` and is well otherwise. -/
def panicSink (n : Nat) : WildSink (List UInt8 × Nat) where
  write s buf := if s.2 = n then (.error .panic, (s.1, s.2 + 1)) else (.ok buf.length, (s.1 ++ buf, s.2 + 1))
  flush s := (.ok (), s)

theorem panic_writeAll (n : Nat) (l : List UInt8) (i : Nat) (b : UInt8) (bs : List UInt8) :
    Unwind.writeAll (panicSink n) (l, i) (b :: bs) = if i = n then some (.error .panic, (l, i + 1)) else some (.ok (), (l ++ b :: bs, i + 1)) := by
  rw [Unwind.writeAll, if_neg (by simp)]
  by_cases h : i = n
  · simp only [panicSink, if_pos h]
  · simp only [panicSink, if_neg h]
    simp
    rw [Unwind.writeAll, if_pos rfl]

theorem panicSink_once (n : Nat) : PanicsAtMostOnce (panicSink n) (fun _ => True) (fun s => n < s.2) where
  write s buf _ := by
    refine ⟨trivial, ?_⟩
    simp only [panicSink]
    split
    · intro _; dsimp only; omega
    · rintro (h | ⟨m, h, h2⟩)
      · cases h
      · cases h; omega
  flush s _ := ⟨trivial, by nofun⟩
  write_quiet s buf _ h := by
    simp only [panicSink]
    rw [if_neg (by omega)]
    refine ⟨by dsimp only; omega, ?_⟩
    rintro (h | ⟨m, h, h2⟩)
    · cases h
    · cases h; omega
  flush_quiet s h := ⟨h, by nofun⟩

/-- **C67, as C24** The client writes one byte and calls `finish`; the sink panics once, on the data byte.  The panic reaches the client, but
before that the sink has received the whole block a second time. -/
theorem C67_written_twice (F : FloatOps) (o : Options) :
    Unwind.session ⟨F, panicSink 5, o, .uncompressed⟩ .deflate [.write [7]] .finish ([], 0) =
      some (.panicked, ([1, 1, 0, 254, 255] ++ [1, 1, 0, 254, 255, 7], 12)) := by
  have h1 : ∀ final, deflatePart F o .uncompressed final #[7] 0 1 = _ := fun final =>
    deflatePart_one F o final #[7] 0 1 7 (by decide) (by decide) (by decide)
  simp [Unwind.session, Unwind.new, Unwind.run, Unwind.write, Unwind.finish, DeflateEncoder.new, Unwind.deflateWrite, DeflateEncoder.setChunk,
    Unwind.deflateFinish, Unwind.finishInner, Unwind.compressChunk, Unwind.dropWith, BitwiseWriter.new, h1, Unwind.outcome, Unwind.afterDrop, Except.map,
    Unwind.execAll, Unwind.exec, addBit_wild, Unwind.finishPartialBits, Unwind.addBytes, panic_writeAll]

/-- **C67, violated** In a build with overflow checks one panic of the sink may abort the process.  The client creates a `DeflateEncoder` and
calls `finish`; the sink panics once, at the first byte.  In a release build the panic reaches the client.  In a build with overflow checks the
encoder panics a second time while it is dropped, because the byte that could not be sent is complete and the second attempt to encode the
chunk shifts beyond it. -/
theorem C67_checked_violated (F : FloatOps) (o : Options) :
    (∃ s', Unwind.session ⟨F, panicSink 0, o, .fixed⟩ .deflate [] .finish ([], 0) = some (.panicked, s')) ∧
    ∃ s', @Unwind.session _ checkedBuild ⟨F, panicSink 0, o, .fixed⟩ .deflate [] .finish ([], 0) = some (.aborted, s') := by
  have h1 := deflatePart_empty_fixed F o
  have h1c := @deflatePart_empty_fixed checkedBuild F o
  simp only [List.replicate, List.cons_append, List.nil_append] at h1 h1c
  have addBit_checked : ∀ (w : BitwiseWriter (List UInt8 × Nat)) (b : Bool), @Unwind.addBit _ checkedBuild (panicSink 0) w b =
      if 8 ≤ w.bp then some (.error .panic, w) else Unwind.addBit (panicSink 0) w b := by
    intro w b
    by_cases h : 8 ≤ w.bp
    · rw [if_pos h]
      exact if_pos ⟨rfl, h⟩
    · rw [if_neg h, addBit_wild]
      exact if_neg fun h2 => h h2.2
  constructor
  · refine ⟨([3], 2), ?_⟩
    simp [Unwind.session, Unwind.new, Unwind.run, Unwind.finish, DeflateEncoder.new,
      Unwind.deflateFinish, Unwind.finishInner, Unwind.compressChunk, Unwind.dropWith, BitwiseWriter.new, h1, Unwind.outcome, Unwind.afterDrop, Except.map,
      Unwind.execAll, Unwind.exec, addBit_wild, Unwind.finishPartialBits, Unwind.addBytes, panic_writeAll]
    decide
  · refine ⟨([], 1), ?_⟩
    have h2 : @Unwind.execAll _ checkedBuild (panicSink 0) (⟨0, 0, 0, ([], 0)⟩ : BitwiseWriter (List UInt8 × Nat))
        [.bit true, .bit true, .bit false, .bit false, .bit false, .bit false, .bit false, .bit false, .bit false, .bit false] =
        some (.error .panic, ⟨3, 8, 1, ([], 1)⟩) := by
      simp [Unwind.execAll, Unwind.exec, addBit_checked, addBit_wild, Unwind.finishPartialBits, Unwind.addBytes, panic_writeAll]
      decide
    have h3 : ∀ ops, @Unwind.execAll _ checkedBuild (panicSink 0) (⟨3, 8, 1, ([], 1)⟩ : BitwiseWriter (List UInt8 × Nat)) (.bit true :: ops) =
        some (.error .panic, ⟨3, 8, 1, ([], 1)⟩) := fun ops => rfl
    have h4 : @Unwind.finishInner _ checkedBuild ⟨F, panicSink 0, o, .fixed⟩ (⟨false, 0, #[], some ⟨0, 0, 0, ([], 0)⟩⟩ : DeflateEncoder (List UInt8 × Nat)) =
        some (.error .panic, ⟨false, 0, #[], some ⟨3, 8, 1, ([], 1)⟩⟩, some ([], 1)) := by
      simp only [Unwind.finishInner, Unwind.compressChunk, some_bind, List.size_toArray, List.length_nil, h1c, h2]
      rfl
    have h5 : @Unwind.finishInner _ checkedBuild ⟨F, panicSink 0, o, .fixed⟩ (⟨false, 0, #[], some ⟨3, 8, 1, ([], 1)⟩⟩ : DeflateEncoder (List UInt8 × Nat)) =
        some (.error .panic, ⟨false, 0, #[], some ⟨3, 8, 1, ([], 1)⟩⟩, some ([], 1)) := by
      simp only [Unwind.finishInner, Unwind.compressChunk, some_bind, List.size_toArray, List.length_nil, h1c, h3]
      rfl
    simp only [Unwind.session, Unwind.new, some_bind, Unwind.run, Unwind.finish, DeflateEncoder.new, BitwiseWriter.new, Unwind.deflateFinish, h4,
      Unwind.dropWith, h5]
    rfl

/-! ## The hypotheses are met -/

example : ∃ fate s', Unwind.session ⟨ieee floorLog2, panicSink 3, Options.default, .dynamic⟩ .gzip [.write [1, 2, 3], .flush, .write [4]] .drop ([], 0) =
    some (fate, s') ∧ fate ≠ .aborted := by
  obtain ⟨fate, s', h1, h2, -⟩ := C67_no_abort floorLog2_ok (panicSink_once 3) (patience := fun _ => 0) (by
    intro s buf _ h
    simp only [panicSink] at h
    split at h <;> cases h) Options.default .dynamic .gzip [.write [1, 2, 3], .flush, .write [4]] (by
    intro w hw; simp [writesOf] at hw; rcases hw with rfl | rfl <;> decide) .drop ([], 0) trivial
  exact ⟨fate, s', h1, h2⟩

/-- a panic, seen as an error -/
example (o : Options) : ∃ r, session ⟨ieee floorLog2, tame (.other 3) (panicSink 5), o, .uncompressed⟩ .deflate [.write [7]] .finish ([], 0) =
    some (r, ([1, 1, 0, 254, 255] ++ [1, 1, 0, 254, 255, 7], 12)) := by
  obtain ⟨r, h, -⟩ := C67_as_error (ieee floorLog2) (panicSink 5) o .uncompressed .deflate [.write [7]] .finish _ _ _ (C67_written_twice _ o) (by nofun) (.other 3) (by nofun)
  exact ⟨r, h⟩

example : ∀ s buf n, (glitchSink 3 |>.write s buf).1 = .ok n → n ≤ buf.length := fun s buf n h => (glitch_honest 3).count s buf n trivial h

end Zopfli
