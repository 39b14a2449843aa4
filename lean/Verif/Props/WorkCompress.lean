import Verif.Proofs.WorkBuffered
import Verif.Props.Work
import Verif.Props.Persist
import Verif.Props.RoundTrip
import Verif.Props.Lending
/-!
# C75: the work of `compress`, and of each single call

`Model/WorkCompress.lean` and `Model/WorkBuffered.lean` are `compress` and buffered encoders with a clock.
-/

namespace Zopfli

variable {log2 : Fp → Fp} {σ ρ : Type} {S : Sink σ} {I : σ → Prop} {patience : σ → Nat}

/-- **C75** (`compress`) For any reader that delivers data in any portions, then ends or fails, and any sink that answers: `compress` returns after
a number of steps that is bounded by a constant for each byte and a constant for each 991809 bytes; the constants depend on the options only.
If nothing fails, each byte is compressed once. -/
theorem C75_compress_linear (hlog : Log2Ok log2) (hS : Honest S I patience) {R : Reader ρ} {J : ρ → Prop} {data : ρ → List UInt8}
    {res : Except ErrKind Unit} {patienceR : ρ → Nat} (hR : Delivers R J data res patienceR) (o : Options) (fmt : Format) (r : ρ) (hr : J r)
    (s : σ) (hs : I s) (E : Nat) :
    ∃ x s' steps, compress (ieee log2) S R o fmt r s = some (x, s') ∧
      Work.compress E (ieee log2) S R o fmt r s = some ((x, s'), steps) ∧
      steps ≤ (4 * workPerByte o + 8) * (data r).length + ((data r).length / 991809 + 6) * workPerChunk o E ∧
      (x = .ok () → steps ≤ (workPerByte o + 4) * (data r).length + ((data r).length / 991809 + 2) * workPerChunk o E) := by
  obtain ⟨x, s', h⟩ := C05_compress_no_panic_failing hlog hS hR o fmt r hr s hs
  obtain ⟨t, e, p⟩ := (Work.compress_cost E (ieeeLaws hlog) S o (workPerByte o) _ (workPerChunk o E)
    (workPerChunk_eq o E _ rfl) (fun n => rfl) fmt hR r hr s).get _ h
  exact ⟨x, s', t, h, e, p⟩

/-- **C75** (`compress`, lent buffers) The same if the input is a byte slice or any other reader that lends its buffer: a constant for each byte and a
constant for each 500000 bytes. -/
theorem C75_compress_lent_linear (hlog : Log2Ok log2) (hS : Honest S I patience) {src : Source ρ} {J : ρ → Prop} {data : ρ → List UInt8}
    {res : Except ErrKind Unit} {patienceR : ρ → Nat} (hR : Supplies src J data res patienceR) (o : Options) (fmt : Format) (r : ρ) (hr : J r)
    (s : σ) (hs : I s) (E : Nat) :
    ∃ x s' steps, compressFrom (ieee log2) S src o fmt r s = some (x, s') ∧
      Work.compressFrom E (ieee log2) S src o fmt r s = some ((x, s'), steps) ∧
      steps ≤ (5 * workPerByte o + 14) * (data r).length + ((data r).length / 500000 + 8) * workPerChunk o E ∧
      (x = .ok () → steps ≤ (workPerByte o + 10) * (data r).length + ((data r).length / 500000 + 4) * workPerChunk o E) := by
  obtain ⟨x, s', h⟩ := C05_compress_lent_no_panic hlog hS hR o fmt r hr s hs
  obtain ⟨t, e, p⟩ := (Work.compressFrom_cost E (ieeeLaws hlog) (Nat.le_of_eq (ieeeLaws_lim hlog).symm) S o (workPerByte o) _ (workPerChunk o E)
    (workPerChunk_eq o E _ rfl) (fun n => rfl) fmt hR r hr s).get _ h
  exact ⟨x, s', t, h, e, p⟩

/-- **C75** (buffered encoders) A session with an encoder made by `new_buffered`: a constant for each byte, four steps for each call, and the constant
for a chunk only once for each 500000 bytes and for each `flush`.  So the number of writes hardly matters: data may be written byte by byte. -/
theorem C75_buffered_linear (hlog : Log2Ok log2) (hS : Honest S I patience) (o : Options) (bt : BlockType) (fmt : Format) (calls : List Call)
    (ending : Ending) (hfit : Fits (writesOf calls)) (s : σ) (hs : I s) (E : Nat) :
    ∃ r s' steps, bufferedSession ⟨ieee log2, S, o, bt⟩ fmt calls ending s = some (r, s') ∧
      Work.bufferedSession E ⟨ieee log2, S, o, bt⟩ fmt calls ending s = some ((r, s'), steps) ∧
      steps ≤ (5 * workPerByte o + 10) * (writesOf calls).flatten.length + 4 * calls.length +
        ((writesOf calls).flatten.length / 500000 + (calls.length - (writesOf calls).length) + 7) * workPerChunk o E ∧
      (r = .ok () → ending = .finish →
        steps ≤ (workPerByte o + 6) * (writesOf calls).flatten.length + 4 * calls.length +
          ((writesOf calls).flatten.length / 500000 + (calls.length - (writesOf calls).length) + 3) * workPerChunk o E) := by
  obtain ⟨r, s', h⟩ := C43_no_panic hlog hS o bt fmt calls ending hfit s hs
  have hfl : Work.flushesOf calls = calls.length - (writesOf calls).length := by
    have : ∀ calls : List Call, Work.flushesOf calls + (writesOf calls).length = calls.length := by
      intro calls
      induction calls with
      | nil => rfl
      | cons c l ih =>
        cases c with
        | write d => rw [Work.flushesOf, writesOf, List.length_cons, List.length_cons, ← ih, Nat.add_assoc]
        | flush => rw [Work.flushesOf, writesOf, List.length_cons, ← ih]; omega
    have := this calls
    omega
  obtain ⟨t, e, p⟩ := (Work.bufferedSession_cost E ⟨ieee log2, S, o, bt⟩ (ieeeLaws hlog) (workPerByte o) _ (workPerChunk o E)
    (workPerChunk_eq o E _ rfl) (fun n => rfl) fmt calls ending s (by rw [ieeeLaws_lim]; exact hfit)).get _ h
  rw [hfl] at p
  exact ⟨r, s', t, h, e, p⟩

/-! ## One call -/

theorem runAll_ready (env : Env σ) (L : FloatLaws env.F) {n : Nat} (hn : n < L.lim) : ∀ (calls : List Call) {e e' : Encoder σ}
    {rs : List (Except ErrKind Nat)}, (∀ w ∈ writesOf calls, w.length ≤ n) → Work.Ready L.lim e → Work.heldBy e ≤ n →
    e.runAll env calls = some (rs, e') → Work.Ready L.lim e' ∧ Work.heldBy e' ≤ n
  | [], e, e', rs, _, h1, h2, h => by cases h; exact ⟨h1, h2⟩
  | .write buf :: l, e, e', rs, hw, h1, h2, h => by
    rw [Encoder.runAll] at h
    simp only [Option.bind_eq_bind, Option.bind_eq_some_iff] at h
    obtain ⟨⟨r1, e1⟩, g1, ⟨rs2, e2⟩, g2, h⟩ := h
    cases h
    rw [writesOf, List.forall_mem_cons] at hw
    obtain ⟨t, -, p1, -, p3, p4⟩ := (Work.write_cost 0 env L e h1 buf (Nat.lt_of_le_of_lt hw.1 hn)).get _ g1
    refine runAll_ready env L hn l hw.2 p1 ?_ g2
    cases r1 with
    | ok m => rw [p3 m rfl]; exact hw.1
    | error k => rw [p4 k rfl]; exact h2
  | .flush :: l, e, e', rs, hw, h1, h2, h => by
    rw [Encoder.runAll] at h
    simp only [Option.bind_eq_bind, Option.bind_eq_some_iff] at h
    obtain ⟨⟨r1, e1⟩, g1, ⟨rs2, e2⟩, g2, h⟩ := h
    cases h
    rw [writesOf] at hw
    obtain ⟨p1, p2⟩ := Work.flush_same env g1 h1
    exact runAll_ready env L hn l hw p1 (by rw [p2]; exact h2) g2

/-- The acknowledged buffers are among those written. -/
theorem acknowledged_sub : ∀ (calls : List Call) (rs : List (Except ErrKind Nat)), ∀ w ∈ acknowledged calls rs, w ∈ writesOf calls
  | [], rs, w, h => by cases rs <;> cases h
  | .write buf :: l, [], w, h => by cases h
  | .flush :: l, [], w, h => by cases h
  | .write buf :: l, .ok m :: rs, w, h => by
    rw [acknowledged] at h
    rw [writesOf]
    rcases List.mem_cons.mp h with rfl | h
    · exact List.mem_cons_self
    · exact List.mem_cons_of_mem _ (acknowledged_sub l rs w h)
  | .write buf :: l, .error k :: rs, w, h => by
    rw [acknowledged] at h
    · rw [writesOf]
      exact List.mem_cons_of_mem _ (acknowledged_sub l rs w h)
    · simp
  | .flush :: l, r :: rs, w, h => by
    rw [acknowledged] at h
    · rw [writesOf]
      exact acknowledged_sub l rs w h
    · simp

/-- **C75** (calls) However many calls were made before, with whatever results and whatever the sink: if no buffer was longer than `n` bytes, then
the encoder holds at most 32768 + `n` bytes, and the next call, if it returns, takes a number of steps bounded by `n` and the options alone.  (That
it returns if the sink answers is C60.) -/
theorem C75_call_bounded (hlog : Log2Ok log2) (S : Sink σ) (o : Options) (bt : BlockType) (fmt : Format) (s s' : σ) (e e' : Encoder σ)
    (calls : List Call) (rs : List (Except ErrKind Nat)) (n : Nat) (hn : n < 2 ^ 47) (hw : ∀ w ∈ writesOf calls, w.length ≤ n)
    (hnew : Encoder.new ⟨ieee log2, S, o, bt⟩ fmt s = some (.ok e, s')) (hrun : e.runAll ⟨ieee log2, S, o, bt⟩ calls = some (rs, e')) (E : Nat) :
    (∃ bytes start, e'.retained = some (bytes, start) ∧ bytes.length ≤ 32768 + n) ∧
    (∀ buf r e2, buf.length ≤ n → e'.write ⟨ieee log2, S, o, bt⟩ buf = some (r, e2) →
      ∃ steps, Work.write E ⟨ieee log2, S, o, bt⟩ e' buf = some ((r, e2), steps) ∧ steps ≤ (workPerByte o + 2) * n + workPerChunk o E) ∧
    (∀ r e2, e'.flush ⟨ieee log2, S, o, bt⟩ = some (r, e2) → Work.flush ⟨ieee log2, S, o, bt⟩ e' = some ((r, e2), 1)) ∧
    (∀ r s2, e'.finish ⟨ieee log2, S, o, bt⟩ = some (r, s2) →
      ∃ steps, Work.finish E ⟨ieee log2, S, o, bt⟩ e' = some ((r, s2), steps) ∧ steps ≤ 2 * (workPerByte o * n + workPerChunk o E) ∧
        (r = .ok () → steps ≤ workPerByte o * n + workPerChunk o E)) ∧
    (∀ s2, e'.drop ⟨ieee log2, S, o, bt⟩ = some s2 →
      ∃ steps, Work.drop E ⟨ieee log2, S, o, bt⟩ e' = some (s2, steps) ∧ steps ≤ 2 * (workPerByte o * n + workPerChunk o E)) := by
  have hlim : n < (ieeeLaws hlog).lim := by rw [ieeeLaws_lim]; exact hn
  obtain ⟨h1, h2⟩ := Work.new_ready ⟨ieee log2, S, o, bt⟩ fmt hnew (ieeeLaws hlog).lim_pos
  obtain ⟨g1, g2⟩ := runAll_ready ⟨ieee log2, S, o, bt⟩ (ieeeLaws hlog) hlim calls hw h1 (by rw [h2]; exact Nat.zero_le _) hrun
  have hst : Work.stepsFor o E (Work.heldBy e') + 32768 ≤ workPerByte o * n + workPerChunk o E := by
    have h0 : Work.stepsFor o E (Work.heldBy e') = workPerByte o * Work.heldBy e' + Work.stepsPerPart o.iterationCount o.maximumBlockSplits E := rfl
    have := Nat.mul_le_mul_left (workPerByte o) g2
    rw [h0, workPerChunk_eq o E _ rfl]
    omega
  refine ⟨?_, fun buf r e2 hb h => ?_, fun r e2 h => ?_, fun r s2 h => ?_, fun s2 h => ?_⟩
  · have hr := (Encoder.Acks.runAll calls (Encoder.Acks.new hnew) hrun).2.retained
    rw [List.nil_append] at hr
    refine ⟨(retainedAfter (acknowledged calls rs)).1, (retainedAfter (acknowledged calls rs)).2, hr, ?_⟩
    have hsub := acknowledged_sub calls rs
    rcases List.eq_nil_or_concat (acknowledged calls rs) with h | ⟨init, w, h⟩
    · rw [h]; exact Nat.zero_le _
    · rw [List.concat_eq_append] at h
      rw [h] at hsub ⊢
      rw [retainedAfter_snoc]
      dsimp only
      have hwl := hw w (hsub w (by simp))
      rw [List.length_append, List.length_drop]
      omega
  · obtain ⟨t, ht, -, p, -⟩ := (Work.write_cost E ⟨ieee log2, S, o, bt⟩ (ieeeLaws hlog) e' g1 buf (by omega)).get _ h
    refine ⟨t, ht, ?_⟩
    have e1 : (workPerByte o + 2) * n = workPerByte o * n + 2 * n := Nat.add_mul ..
    dsimp only at p
    omega
  · show (Work.tick 1 >>= fun _ => Work.lift (e'.flush _)) = _
    rw [h]
    rfl
  · obtain ⟨t, ht, p1, p2⟩ := (Work.finish_cost E ⟨ieee log2, S, o, bt⟩ (ieeeLaws hlog) e' g1).get _ h
    dsimp only at p1 p2
    exact ⟨t, ht, by omega, fun hr => by have := p2 hr; omega⟩
  · obtain ⟨t, ht, p1⟩ := (Work.drop_cost E ⟨ieee log2, S, o, bt⟩ (ieeeLaws hlog) e' g1).get _ h
    dsimp only at p1
    exact ⟨t, ht, by omega⟩

/-! ## The hypotheses are met -/

/-- A reader that delivers single bytes, is interrupted once and then fails, and a sink that fails once. -/
example : ∃ x s' steps, compress (ieee floorLog2) (glitchSink 3) (listReader 1 (.error (.other 7))) Options.default .gzip ([1, 2, 3, 4, 5], true) ([], 0) = some (x, s') ∧
    Work.compress 1000 (ieee floorLog2) (glitchSink 3) (listReader 1 (.error (.other 7))) Options.default .gzip ([1, 2, 3, 4, 5], true) ([], 0) = some ((x, s'), steps) := by
  obtain ⟨x, s', t, h1, h2, -⟩ := C75_compress_linear floorLog2_ok (glitch_honest 3) (listReader_delivers 1 (.error (.other 7)) (by simp)) Options.default .gzip
    ([1, 2, 3, 4, 5], true) trivial ([], 0) trivial 1000
  exact ⟨x, s', t, h1, h2⟩

/-- A byte slice. -/
example (data : List UInt8) (hd : data.length < 2 ^ 47) : ∃ x s' steps, compressFrom (ieee floorLog2) (glitchSink 3) sliceSource Options.default .zlib data ([], 0) = some (x, s') ∧
    Work.compressFrom 1000 (ieee floorLog2) (glitchSink 3) sliceSource Options.default .zlib data ([], 0) = some ((x, s'), steps) := by
  obtain ⟨x, s', t, h1, h2, -⟩ := C75_compress_lent_linear floorLog2_ok (glitch_honest 3) sliceSource_supplies Options.default .zlib data hd ([], 0) trivial 1000
  exact ⟨x, s', t, h1, h2⟩

/-- Two writes to a buffered encoder, and a sink that fails once. -/
example : ∃ r s' steps, bufferedSession ⟨ieee floorLog2, glitchSink 3, Options.default, .dynamic⟩ .gzip [.write [1, 2, 3], .flush, .write [4]] .drop ([], 0) = some (r, s') ∧
    Work.bufferedSession 1000 ⟨ieee floorLog2, glitchSink 3, Options.default, .dynamic⟩ .gzip [.write [1, 2, 3], .flush, .write [4]] .drop ([], 0) = some ((r, s'), steps) := by
  obtain ⟨r, s', t, h1, h2, -⟩ := C75_buffered_linear floorLog2_ok (glitch_honest 3) Options.default .dynamic .gzip [.write [1, 2, 3], .flush, .write [4]] .drop (by
    intro w hw; simp [writesOf] at hw; rcases hw with rfl | rfl <;> decide) ([], 0) trivial 1000
  exact ⟨r, s', t, h1, h2⟩

/-- An encoder for raw deflate after a write. -/
example (o : Options) : ∃ rs e', (Encoder.deflate (DeflateEncoder.new ([] : List UInt8))).runAll ⟨ieee floorLog2, vecSink, o, .dynamic⟩ [.write [7, 8], .flush] = some (rs, e') ∧
    ∃ bytes start, e'.retained = some (bytes, start) ∧ bytes.length ≤ 32768 + 2 :=
  ⟨_, _, rfl, (C75_call_bounded floorLog2_ok vecSink o .dynamic .deflate [] [] _ _ [.write [7, 8], .flush] _ 2 (by decide) (by simp [writesOf]) rfl rfl 0).1⟩

end Zopfli
