import Verif.Proofs.UnwindBuffered
import Verif.Props.UnwindCompress
import Verif.Props.Buffered
/-!
# C73: a sink that panics under a buffered encoder

`Unwind.bufferedSession` (Verif/Model/UnwindBuffered.lean) is a session with an encoder made by `new_buffered`, whose sink may panic.
-/

namespace Zopfli

variable {log2 : Fp → Fp} {σ : Type}

theorem coalesce_fit {calls : List Call} (hfit : Fits (writesOf calls)) : Fits (writesOf (coalesce MASTER_BLOCK_SIZE [] calls)) :=
  coalesce_fits MASTER_BLOCK_SIZE (by decide) calls hfit

/-- **C73** A panic of the sink leaves the sink in exactly the state it would be in if it had returned an error at that point, whatever the
kind of this error; except that if it panics while the buffer is being handed on, the content of the buffer is lost: then it is in the state
it would be in if it had returned an error to an encoder without a buffer that was given the joined writes.  A session that returns normally
returns the same. -/
theorem C73_as_error (F : FloatOps) (S : WildSink σ) (o : Options) (bt : BlockType) (fmt : Format) (calls : List Call) (ending : Ending) (s s' : σ)
    (fate : Fate) (h : Unwind.bufferedSession ⟨F, S, o, bt⟩ fmt calls ending s = some (fate, s')) (hf : fate ≠ .aborted) (k : ErrKind) (hk : k ≠ .interrupted) :
    (∃ r, bufferedSession ⟨F, tame k S, o, bt⟩ fmt calls ending s = some (r, s') ∧
      (∀ r', fate = .returned r' → r = r') ∧ (fate = .panicked → (∃ k', r = .error k') ∨ ending = .drop)) ∨
    (fate = .panicked ∧ session ⟨F, tame k S, o, bt⟩ fmt (coalesce MASTER_BLOCK_SIZE [] calls) ending s = some (.error k, s')) := by
  have h1 := bufferedSession_ways ⟨F, S, o, bt⟩ hk fmt calls ending s
  rw [h] at h1
  rcases h1 with rfl | ⟨r, h2, h3⟩ | h2
  · exact absurd rfl hf
  · refine .inl ⟨r, h2, ?_, ?_⟩
    · rintro r' rfl
      exact h3
    · rintro rfl
      rcases h3 with h3 | h3
      · exact .inl h3
      · exact .inr h3.1
  · exact .inr h2

/-- **C73** A sink that panics at most once does not abort the process: the session ends normally, or with that panic.  If the sink does not
panic, it ends normally; if it ends with a panic, the sink has panicked. -/
theorem C73_no_abort (hlog : Log2Ok log2) {S : WildSink σ} {I quiet : σ → Prop} (hS : PanicsAtMostOnce S I quiet) {patience : σ → Nat}
    (hp : ∀ s buf, I s → (S.write s buf).1 = .error (.error .interrupted) → patience (S.write s buf).2 < patience s)
    (o : Options) (bt : BlockType) (fmt : Format) (calls : List Call) (hfit : Fits (writesOf calls)) (ending : Ending) (s : σ) (hs : I s) :
    ∃ fate s', Unwind.bufferedSession ⟨ieee log2, S, o, bt⟩ fmt calls ending s = some (fate, s') ∧ fate ≠ .aborted ∧
      (quiet s → ∃ r, fate = .returned r) ∧ (fate = .panicked → quiet s') := by
  have hk : ErrKind.other 0 ≠ .interrupted := by nofun
  have hH := hS.honest hp hk
  obtain ⟨r, t, h⟩ := C43_no_panic hlog hH o bt fmt calls ending hfit s hs
  obtain ⟨r2, t2, h'⟩ := C05_no_panic_failing hlog hH o bt fmt _ ending (coalesce_fit hfit) s hs
  have h1 := bufferedSession_ways ⟨ieee log2, S, o, bt⟩ hk fmt calls ending s
  rcases hx : Unwind.bufferedSession ⟨ieee log2, S, o, bt⟩ fmt calls ending s with _ | ⟨fate, s'⟩
  · rw [hx] at h1
    rcases h1 with h1 | h1
    · have h1 : bufferedSession ⟨ieee log2, tame (.other 0) S, o, bt⟩ fmt calls ending s = none := h1
      rw [h] at h1
      cases h1
    · have h1 : session ⟨ieee log2, tame (.other 0) S, o, bt⟩ fmt (coalesce MASTER_BLOCK_SIZE [] calls) ending s = none := h1.1
      rw [h'] at h1
      cases h1
  · have h2 := bufferedSession_post hS hx
    exact ⟨fate, s', rfl, (h2.2 hs).1, h2.1, (h2.2 hs).2⟩

/-- **C73** What a sink has accepted before it panics (or fails) for the first time is a prefix of the one stream that a sink receives that
does neither; and if it does neither, it has received all of it.  A session that reports success by `finish` is of this kind. -/
theorem C73_prefix (hlog : Log2Ok log2) (o : Options) (bt : BlockType) (fmt : Format) (calls : List Call) (hfit : Fits (writesOf calls)) :
    ∃ stream, decode fmt stream = some (writesOf calls).flatten ∧
      (∀ (σ : Type) (S : Sink σ) (I : σ → Prop) (log : σ → List UInt8) (patience : σ → Nat), Reliable S I log patience → ∀ s, I s →
        ∃ s', bufferedSession ⟨ieee log2, S, o, bt⟩ fmt calls .finish s = some (.ok (), s') ∧ log s' = log s ++ stream) ∧
      ∀ (σ : Type) (S : WildSink σ) (s : σ) (t : WildSpy σ) (ending : Ending) (fate : Fate),
        Unwind.bufferedSession ⟨ieee log2, wildSpy S, o, bt⟩ fmt calls ending ⟨s, [], none⟩ = some (fate, t) → fate ≠ .aborted →
          t.log <+: stream ∧ (t.failed = none → t.log = stream) ∧
            (ending = .finish → (fate = .returned (.ok ()) ↔ t.failed = none)) := by
  obtain ⟨stream, body, blocks, h1, h2, h3⟩ := streamOf_exists (ieeeLaws hlog) o bt fmt _ (coalesce_fit hfit)
  refine ⟨stream, ?_, ?_, ?_⟩
  · rw [h1.decode (ieeeLaws hlog) (coalesce_fit hfit), (C43_joined calls).1]
  · intro σ S I log patience hS s hs
    obtain ⟨s', g1, g2, g3⟩ := session_reliable ⟨ieee log2, S, o, bt⟩ hS fmt _ .finish hs h1
    exact ⟨s', bufferedSession_ok _ fmt calls .finish g1, g2⟩
  · intro σ S s t ending fate hr hf
    have hk : ErrKind.other 0 ≠ .interrupted := by nofun
    have hrec := wildSpy_recorded S hk
    rcases C73_as_error (ieee log2) (wildSpy S) o bt fmt calls ending _ _ fate hr hf (.other 0) hk with ⟨r, g1, g2, g3⟩ | ⟨rfl, g1⟩
    · obtain ⟨i1, i2⟩ := bufferedSession_recorded ⟨ieee log2, tame (.other 0) (wildSpy S), o, bt⟩ hrec fmt calls ending (s := ⟨s, [], none⟩) rfl h1 g1
      rcases hq : t.failed with _ | f
      · obtain ⟨j1, j2⟩ := i1 (by simp [hq])
        have j2 : t.log = stream := by simpa using j2
        refine ⟨by rw [j2], fun _ => j2, ?_⟩
        rintro rfl
        refine ⟨fun _ => rfl, fun _ => ?_⟩
        rcases fate with r' | _ | _
        · rw [← g2 r' rfl, j1]
        · rcases g3 rfl with ⟨k', h⟩ | h
          · rw [j1] at h; cases h
          · cases h
        · exact absurd rfl hf
      · obtain ⟨j1, n, -, j2⟩ := i2 (f.tame (.other 0)) (by simp [hq])
        have j2 : t.log = stream.take n := by simpa using j2
        refine ⟨by rw [j2]; exact List.take_prefix _ _, by nofun, ?_⟩
        rintro rfl
        refine ⟨?_, by nofun⟩
        rintro rfl
        have := g2 _ rfl
        subst this
        rcases j1 with j1 | ⟨j1, -⟩ <;> cases j1
    · have key : t.failed ≠ none ∧ t.log <+: stream := by
        cases ending with
        | finish =>
          obtain ⟨-, i2⟩ := session_recorded ⟨ieee log2, tame (.other 0) (wildSpy S), o, bt⟩ hrec fmt _ (s := ⟨s, [], none⟩) rfl h1 g1
          obtain ⟨j1, n, -, j2⟩ := i2 _ rfl
          have j2 : t.log = stream.take n := by simpa using j2
          have j1 : t.failed.map (Fault.tame (.other 0)) = some _ := j1
          exact ⟨(by intro h; rw [h] at j1; cases j1), by rw [j2]; exact List.take_prefix _ _⟩
        | drop =>
          obtain ⟨i1, i2⟩ := session_drop_recorded ⟨ieee log2, tame (.other 0) (wildSpy S), o, bt⟩ hrec fmt _ (s := ⟨s, [], none⟩) rfl h1 g1
          rcases hq : t.failed with _ | f
          · have := (i1 (by simp [hq])).1
            cases this
          · obtain ⟨-, n, -, j⟩ := i2 (f.tame (.other 0)) (by simp [hq])
            have j : t.log = stream.take n := by simpa using j
            exact ⟨by nofun, by rw [j]; exact List.take_prefix _ _⟩
      exact ⟨key.2, fun h => absurd h key.1, fun _ => ⟨by nofun, fun h => absurd h key.1⟩⟩

/-- **C73** For sinks that do not panic (and do not claim to have written more than they were given) this is the model of C43. -/
theorem C73_refines (F : FloatOps) (S : Sink σ) (hS : ∀ s buf n, (S.write s buf).1 = .ok n → n ≤ buf.length)
    (o : Options) (bt : BlockType) (fmt : Format) (calls : List Call) (ending : Ending) (s : σ) :
    Unwind.bufferedSession ⟨F, S.wild, o, bt⟩ fmt calls ending s = (bufferedSession ⟨F, S, o, bt⟩ fmt calls ending s).map fun x => (.returned x.1, x.2) := by
  have hk : ErrKind.other 0 ≠ .interrupted := by nofun
  have ht : tame (.other 0) S.wild = S := by
    have h1 : (tame (.other 0) S.wild).write = S.write := by
      funext s buf
      exact tame_wild_write _ S s buf (hS s buf)
    have h2 : (tame (.other 0) S.wild).flush = S.flush := by
      funext s
      exact tame_wild_flush _ S s
    rcases h3 : tame (.other 0) S.wild with ⟨w, f⟩
    rw [h3] at h1 h2
    rcases S with ⟨w', f'⟩
    cases h1
    cases h2
    rfl
  have hq : PanicsAtMostOnce S.wild (fun _ => True) (fun _ => True) := by
    refine ⟨fun _ _ _ => ⟨trivial, fun _ => trivial⟩, fun _ _ => ⟨trivial, fun _ => trivial⟩, fun s buf _ _ => ⟨trivial, ?_⟩, fun s _ => ⟨trivial, ?_⟩⟩
    · rintro (h | ⟨n, h1, h2⟩)
      · simp only [Sink.wild] at h
        rcases hx : S.write s buf with ⟨e | n, t⟩ <;> rw [hx] at h <;> cases h
      · have h3 := hS s buf
        simp only [Sink.wild] at h1
        rcases hx : S.write s buf with ⟨e | m, t⟩ <;> rw [hx] at h1 h3 <;> cases h1
        have := h3 n rfl
        omega
    · simp only [Sink.wild]
      rcases S.flush s with ⟨e | _, t⟩ <;> nofun
  have h1 := bufferedSession_ways ⟨F, S.wild, o, bt⟩ hk fmt calls ending s
  simp only [WildEnv.tame, ht] at h1
  rcases hx : Unwind.bufferedSession ⟨F, S.wild, o, bt⟩ fmt calls ending s with _ | ⟨fate, s'⟩
  · rw [hx] at h1
    rcases h1 with h1 | h1
    · rw [h1]; rfl
    · exact absurd trivial (h1.2 _ _ hq)
  · rw [hx] at h1
    obtain ⟨r, hr⟩ := (bufferedSession_post hq hx).1 trivial
    have hr : fate = .returned r := hr
    subst hr
    rcases h1 with h1 | ⟨r', h2, h3⟩ | ⟨h2, -⟩
    · cases h1
    · cases h3
      rw [h2]
      rfl
    · cases h2

/-! ## The buffer is lost -/

theorem part_seven (F : FloatOps) (o : Options) (final : Bool) : deflatePart F o .uncompressed final #[7] 0 1 =
    some [.bit final, .bit false, .bit false, .align, .bytes [1], .bytes [0], .bytes [254], .bytes [255], .bytes [7]] :=
  deflatePart_one F o final #[7] 0 1 7 (by decide) (by decide) (by decide)

section
variable (F : FloatOps) (o : Options)

/-- the encoder before anything is written -/
abbrev lost0 : Encoder (List UInt8 × Nat) := .deflate ⟨false, 0, #[], some ⟨0, 0, 0, ([], 0)⟩⟩
/-- with the first byte -/
abbrev lost1 : Encoder (List UInt8 × Nat) := .deflate ⟨true, 0, #[7], some ⟨0, 0, 0, ([], 0)⟩⟩
/-- after the panic -/
abbrev lost2 : Encoder (List UInt8 × Nat) := .deflate ⟨true, 0, #[7], some ⟨0, 0, 6, ([0, 1, 0, 254, 255], 6)⟩⟩

theorem lost_write (e : Encoder (List UInt8 × Nat)) (x : UInt8) :
    Unwind.bufWrite ⟨F, panicSink 5, o, .uncompressed⟩ ⟨e, []⟩ [x] = some (.ok 1, ⟨e, [x]⟩, false) := by
  unfold Unwind.bufWrite
  exact if_pos (show 1 < MASTER_BLOCK_SIZE - 0 by decide)

theorem lost_flush1 : Unwind.bufFlush ⟨F, panicSink 5, o, .uncompressed⟩ ⟨lost0, [7]⟩ = some (.ok (), ⟨lost1, []⟩, false) := by
  have h1 : Unwind.write ⟨F, panicSink 5, o, .uncompressed⟩ lost0 [7] = some (.ok 1, lost1) := rfl
  have h2 : Unwind.flushBuf ⟨F, panicSink 5, o, .uncompressed⟩ lost0 [7] = some (.ok (), lost1, []) := by
    rw [Unwind.flushBuf, if_neg (by simp), h1]
    dsimp only [some_bind]
    rw [Unwind.flushBuf]
    rfl
  unfold Unwind.bufFlush
  rw [h2]
  rfl

theorem lost_exec1 : Unwind.execAll (panicSink 5) (⟨0, 0, 0, ([], 0)⟩ : BitwiseWriter (List UInt8 × Nat))
    [.bit false, .bit false, .bit false, .align, .bytes [1], .bytes [0], .bytes [254], .bytes [255], .bytes [7]] =
    some (.error .panic, ⟨0, 0, 6, ([0, 1, 0, 254, 255], 6)⟩) := by
  simp [Unwind.execAll, Unwind.exec, addBit_wild, Unwind.finishPartialBits, Unwind.addBytes, panic_writeAll]

theorem lost_flush2 : Unwind.bufFlush ⟨F, panicSink 5, o, .uncompressed⟩ ⟨lost1, [8]⟩ = some (.error .panic, ⟨lost2, [8]⟩, true) := by
  have h1 : Unwind.write ⟨F, panicSink 5, o, .uncompressed⟩ lost1 [8] = some (.error .panic, lost2) := by
    simp only [Unwind.write, Unwind.deflateWrite, if_true, Unwind.compressChunk, some_bind, List.size_toArray, List.length_cons, List.length_nil, Nat.zero_add,
      part_seven, lost_exec1]
    rfl
  have h2 : Unwind.flushBuf ⟨F, panicSink 5, o, .uncompressed⟩ lost1 [8] = some (.error .panic, lost2, [8]) := by
    rw [Unwind.flushBuf, if_neg (by simp), h1]
    rfl
  unfold Unwind.bufFlush
  rw [h2]
  rfl

theorem lost_exec2 : Unwind.execAll (panicSink 5) (⟨0, 0, 6, ([0, 1, 0, 254, 255], 6)⟩ : BitwiseWriter (List UInt8 × Nat))
    [.bit true, .bit false, .bit false, .align, .bytes [1], .bytes [0], .bytes [254], .bytes [255], .bytes [7]] =
    some (.ok (), ⟨0, 0, 12, ([0, 1, 0, 254, 255, 1, 1, 0, 254, 255, 7], 12)⟩) := by
  simp [Unwind.execAll, Unwind.exec, addBit_wild, Unwind.finishPartialBits, Unwind.addBytes, panic_writeAll]

theorem lost_drop : Unwind.drop ⟨F, panicSink 5, o, .uncompressed⟩ true lost2 =
    some (.returned (.ok ()), ([0, 1, 0, 254, 255, 1, 1, 0, 254, 255, 7], 12)) := by
  simp only [Unwind.drop, Unwind.deflateDrop, Unwind.dropWith, Unwind.finishInner, Unwind.compressChunk, some_bind, List.size_toArray, List.length_cons, List.length_nil, Nat.zero_add,
    part_seven, lost_exec2]
  rfl

end

/-- **C73** The client writes a byte, flushes, writes another byte and flushes; the sink panics once, on the first byte, which is sent when the
second one is handed to the encoder.  The panic reaches the client; before that the sink has received a complete stream of the first byte
alone (after what it received before the panic).  The second byte is lost. -/
theorem C73_buffer_lost (F : FloatOps) (o : Options) (ending : Ending) :
    Unwind.bufferedSession ⟨F, panicSink 5, o, .uncompressed⟩ .deflate [.write [7], .flush, .write [8], .flush] ending ([], 0) =
      some (.panicked, ([0, 1, 0, 254, 255] ++ [1, 1, 0, 254, 255, 7], 12)) := by
  have h0 : Unwind.bufNew ⟨F, panicSink 5, o, .uncompressed⟩ .deflate (([], 0) : List UInt8 × Nat) = some (.ok ⟨lost0, []⟩, ([], 0)) := rfl
  have h1 : Unwind.bufRun ⟨F, panicSink 5, o, .uncompressed⟩ [.write [7], .flush, .write [8], .flush] ⟨lost0, []⟩ = some (.error .panic, ⟨lost2, [8]⟩, true) := by
    simp only [Unwind.bufRun, lost_write, some_bind, lost_flush1, lost_flush2]
    rfl
  unfold Unwind.bufferedSession
  rw [h0]
  dsimp only [some_bind]
  rw [h1]
  dsimp only [some_bind]
  rw [abandon_broken, lost_drop]
  rfl

/-! ## The hypotheses are met -/

example : ∃ fate s', Unwind.bufferedSession ⟨ieee floorLog2, panicSink 3, Options.default, .dynamic⟩ .gzip [.write [1, 2, 3], .flush, .write [4]] .drop ([], 0) =
    some (fate, s') ∧ fate ≠ .aborted := by
  obtain ⟨fate, s', h1, h2, -⟩ := C73_no_abort floorLog2_ok (panicSink_once 3) (patience := fun _ => 0) (by
    intro s buf _ h
    simp only [panicSink] at h
    split at h <;> cases h) Options.default .dynamic .gzip [.write [1, 2, 3], .flush, .write [4]] (by
      intro w hw
      simp only [writesOf, List.mem_cons, List.not_mem_nil, or_false] at hw
      rcases hw with rfl | rfl <;> decide) .drop ([], 0) trivial
  exact ⟨fate, s', h1, h2⟩

end Zopfli
