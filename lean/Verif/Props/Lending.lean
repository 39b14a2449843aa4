import Verif.Props.Buffered
import Verif.Props.Debug
/-!
# C04, C05, C21, C34, C40 for `compress` with a slice or another reader that lends its buffer

`compressFrom` (Verif/Model/Buffered.lean) is `compress` for readers that `std::io::copy` treats specially; a byte slice is
the most common source.  Its data reaches the encoder in a single write if it is 1,000,000 bytes or more.
-/

namespace Zopfli

variable {log2 : Fp → Fp} {σ : Type} {S : Sink σ} {I : σ → Prop} {log : σ → List UInt8} {patience : σ → Nat}

theorem BufEncoder.writeAll_eq [Checks] (env : Env σ) (b : BufEncoder σ) {data : List UInt8} (hd : data ≠ []) :
    b.writeAll env data = (b.write env data).map fun x => (x.1.map fun _ => (), x.2) := by
  unfold BufEncoder.writeAll BufEncoder.write
  dsimp only
  split
  · rfl
  · generalize (if data.length > MASTER_BLOCK_SIZE - b.buf.length then flushBuf env b.inner b.buf else some (.ok (), b.inner, b.buf)) = z
    cases z with
    | none => rfl
    | some z =>
      obtain ⟨r, e, buf⟩ := z
      rw [some_bind, some_bind]
      cases r with
      | error k => rfl
      | ok u =>
        dsimp only
        split
        · rw [flushBuf_once env e hd]
          cases e.write env data with
          | none => rfl
          | some x =>
            obtain ⟨r, e'⟩ := x
            cases r <;> rfl
        · rfl

/-- How `compress` ends after the reader did. -/
def endingOf : Except ErrKind Unit → Ending
  | .ok _ => .finish
  | .error _ => .drop

/-- What `compress` returns, if its own work ended with `x` and the reader with `res`. -/
def answer (res x : Except ErrKind Unit) : Except ErrKind Unit :=
  match x with
  | .ok _ => res
  | .error k => .error k

theorem writesOf_map (fs : List (List UInt8)) : writesOf (fs.map .write) = fs := by
  induction fs with
  | nil => rfl
  | cons f fs ih => rw [List.map_cons, writesOf, ih]

/-- Copying is writing the parts one after the other, whatever the sink does. -/
theorem copyTo_eq {ρ : Type} {src : Source ρ} {J : ρ → Prop} {data : ρ → List UInt8} {res : Except ErrKind Unit} {patienceR : ρ → Nat}
    (hR : Supplies src J data res patienceR) (r : ρ) (hr : J r) :
    ∃ fs : List (List UInt8), fs.flatten = data r ∧ Fits fs ∧ ∀ (_ : Checks) (σ : Type) (env : Env σ) (b : BufEncoder σ),
      copyTo env src r b = do
        let (x, b) ← b.run env (fs.map .write)
        return (answer res x, b) := by
  induction hn : (data r).length using Nat.strong_induction_on generalizing r with
  | _ n ih =>
    induction hp : patienceR r using Nat.strong_induction_on generalizing r with
    | _ p ihp =>
      rcases hR.next r hr with ⟨l, r', h1, h2, h3, h4, h5⟩ | ⟨r', h1, h2, h3, h4⟩ | ⟨r', h1, h2⟩
      · have hl : 0 < l.length := List.length_pos_iff.mpr h2
        obtain ⟨fs, g1, g2, g3⟩ := ih (data r').length (by rw [← hn, h4, List.length_append]; omega) r' h5 rfl
        refine ⟨l :: fs, by rw [List.flatten_cons, g1, h4], fun w hw => ?_, fun _ σ env b => ?_⟩
        · rcases List.mem_cons.mp hw with rfl | hw
          · exact h3
          · exact g2 w hw
        · cases l with
          | nil => exact absurd rfl h2
          | cons x xs =>
            rw [copyTo, h1]
            dsimp only
            rw [BufEncoder.writeAll_eq env b h2, List.map_cons, BufEncoder.run]
            cases b.write env (x :: xs) with
            | none => rfl
            | some y =>
              obtain ⟨q, b'⟩ := y
              cases q with
              | error k => rfl
              | ok m => exact g3 _ σ env b'
      · obtain ⟨fs, g1, g2, g3⟩ := ihp (patienceR r') (by omega) r' h4 (by rw [h2]; exact hn) rfl
        refine ⟨fs, by rw [g1, h2], g2, fun _ σ env b => ?_⟩
        rw [copyTo, h1]
        exact g3 _ σ env b
      · refine ⟨[], by rw [h2]; rfl, by simp [Fits], fun _ σ env b => ?_⟩
        rw [copyTo, h1]
        have hni := hR.not_interrupted
        cases res with
        | ok u => rfl
        | error k =>
          cases k with
          | interrupted => exact absurd rfl hni
          | writeZero => rfl
          | other j => rfl

/-- `compress` with such a reader is a session with a buffered encoder: one write for each part lent. -/
theorem compressFrom_eq {ρ : Type} {src : Source ρ} {J : ρ → Prop} {data : ρ → List UInt8} {res : Except ErrKind Unit} {patienceR : ρ → Nat}
    (hR : Supplies src J data res patienceR) (r : ρ) (hr : J r) :
    ∃ fs : List (List UInt8), fs.flatten = data r ∧ Fits fs ∧ ∀ (_ : Checks) (σ : Type) (F : FloatOps) (S : Sink σ) (o : Options) (fmt : Format) (s : σ),
      compressFrom F S src o fmt r s =
        (bufferedSession ⟨F, S, o, .dynamic⟩ fmt (fs.map .write) (endingOf res) s).map fun x => (answer res x.1, x.2) := by
  obtain ⟨fs, g1, g2, g3⟩ := copyTo_eq hR r hr
  refine ⟨fs, g1, g2, fun _ σ F S o fmt s => ?_⟩
  unfold compressFrom bufferedSession
  dsimp only
  cases BufEncoder.new ⟨F, S, o, .dynamic⟩ fmt s with
  | none => rfl
  | some x =>
    obtain ⟨q, s1⟩ := x
    rw [some_bind, some_bind]
    cases q with
    | error k => rfl
    | ok b =>
      dsimp only
      rw [g3]
      cases b.run ⟨F, S, o, .dynamic⟩ (fs.map .write) with
      | none => rfl
      | some y =>
        obtain ⟨q, b'⟩ := y
        rw [some_bind, some_bind]
        cases q with
        | error k =>
          dsimp only [answer, pure]
          rw [some_bind]
          dsimp only
          cases b'.drop ⟨F, S, o, .dynamic⟩ <;> rfl
        | ok u =>
          cases res with
          | ok u =>
            dsimp only [answer, pure, endingOf]
            rw [some_bind]
            dsimp only
            cases hb : b'.intoInnerFinish ⟨F, S, o, .dynamic⟩ with
            | none => rfl
            | some z =>
              obtain ⟨z1, z2⟩ := z
              cases z1 <;> rfl
          | error k =>
            dsimp only [answer, pure, endingOf]
            rw [some_bind]
            dsimp only
            cases b'.drop ⟨F, S, o, .dynamic⟩ <;> rfl

/-- **C04, C34** `compress` with a slice, or another reader that lends its buffer in any parts, and a sink that does not fail
returns what the reader ended with: success, or its error; the sink receives one complete stream of the requested format
for exactly the bytes the reader delivered. -/
theorem C04_C34_compress_lent (hlog : Log2Ok log2) (hS : Reliable S I log patience) {ρ : Type} {src : Source ρ} {J : ρ → Prop}
    {data : ρ → List UInt8} {res : Except ErrKind Unit} {patienceR : ρ → Nat} (hR : Supplies src J data res patienceR)
    (o : Options) (fmt : Format) (r : ρ) (hr : J r) (s : σ) (hs : I s) :
    ∃ s' stream, compressFrom (ieee log2) S src o fmt r s = some (res, s') ∧ log s' = log s ++ stream ∧ decode fmt stream = some (data r) := by
  obtain ⟨fs, g1, g2, g3⟩ := compressFrom_eq hR r hr
  obtain ⟨stream, h1, h2⟩ := C43_buffered_stream hlog o .dynamic fmt (fs.map .write) (by rw [writesOf_map]; exact g2)
  obtain ⟨⟨s', h3, h4⟩, -⟩ := h2 σ S I log patience hS (endingOf res) s hs
  refine ⟨s', stream, ?_, h4, by rw [h1, writesOf_map, g1]⟩
  rw [g3, h3]
  rfl

/-- A byte slice is lent in one piece. -/
theorem sliceSource_supplies : Supplies sliceSource (fun d => d.length < 2 ^ 47) id (.ok ()) (fun _ => 0) := by
  refine ⟨by simp, fun r hr => ?_⟩
  by_cases h : r = []
  · subst h
    exact .inr (.inr ⟨[], rfl, rfl⟩)
  · exact .inl ⟨r, [], rfl, h, hr, by simp, by simp⟩

/-- **C04** In particular for byte slices, which are written in one piece. -/
theorem C04_compress_slice (hlog : Log2Ok log2) (hS : Reliable S I log patience) (o : Options) (fmt : Format) (data : List UInt8)
    (hfit : data.length < 2 ^ 47) (s : σ) (hs : I s) :
    ∃ s' stream, compressFrom (ieee log2) S sliceSource o fmt data s = some (.ok (), s') ∧ log s' = log s ++ stream ∧ decode fmt stream = some data :=
  C04_C34_compress_lent hlog hS sliceSource_supplies o fmt data hfit s hs

/-- `S` with a `flush` that does nothing. -/
def neverFlush (S : Sink σ) : Sink σ where
  write := S.write
  flush s := (.ok (), s)

/-- A session without flushes does not depend on the sink's `flush`. -/
theorem bufferedSession_neverFlush (F : FloatOps) (S : Sink σ) (o : Options) (bt : BlockType) (fmt : Format) (fs : List (List UInt8)) (ending : Ending) (s : σ) :
    bufferedSession ⟨F, neverFlush S, o, bt⟩ fmt (fs.map .write) ending s = bufferedSession ⟨F, S, o, bt⟩ fmt (fs.map .write) ending s := by
  have H : WHom S (neverFlush S) id := ⟨fun t b => rfl⟩
  have := H.bufferedSession (F := F) (o := o) (bt := bt) fmt fs ending s
  rw [id, Option.map_congr (g := id) (fun x _ => by rfl), Option.map_id] at this
  exact this

theorem bufferedSession_spy_neverFlush (F : FloatOps) (S : Sink σ) (o : Options) (bt : BlockType) (fmt : Format) (fs : List (List UInt8)) (ending : Ending) (s : Spy σ) :
    bufferedSession ⟨F, spy (neverFlush S), o, bt⟩ fmt (fs.map .write) ending s = bufferedSession ⟨F, spy S, o, bt⟩ fmt (fs.map .write) ending s := by
  have H : WHom (spy S) (spy (neverFlush S)) id := ⟨fun t b => rfl⟩
  have := H.bufferedSession (F := F) (o := o) (bt := bt) fmt fs ending s
  rw [id, Option.map_congr (g := id) (fun x _ => by rfl), Option.map_id] at this
  exact this

/-- **C21** With any sink: if it does not fail, it receives exactly one stream, and `compress` returns what the reader ended
with; if it fails, what it had accepted by then is a proper prefix of that stream, and `compress` returns an error: the
sink's, or the reader's. -/
theorem C21_compress_lent (hlog : Log2Ok log2) {ρ : Type} {src : Source ρ} {J : ρ → Prop} {data : ρ → List UInt8} {res : Except ErrKind Unit}
    {patienceR : ρ → Nat} (hR : Supplies src J data res patienceR) (o : Options) (fmt : Format) (r : ρ) (hr : J r) :
    ∃ stream, decode fmt stream = some (data r) ∧
      ∀ (σ : Type) (S : Sink σ) (s s' : σ) (x : Except ErrKind Unit), compressFrom (ieee log2) S src o fmt r s = some (x, s') →
        ∃ accepted failed, compressFrom (ieee log2) (spy S) src o fmt r ⟨s, [], none⟩ = some (x, ⟨s', accepted, failed⟩) ∧
          (failed = none → x = res ∧ accepted = stream) ∧
          ∀ k, failed = some k → (x = .error k ∨ ∃ k', res = .error k' ∧ x = .error k') ∧ accepted <+: stream ∧
            accepted.length < stream.length := by
  obtain ⟨fs, g1, g2, g3⟩ := compressFrom_eq hR r hr
  obtain ⟨stream, h1, -, h2⟩ := C43_sink_errors hlog o .dynamic fmt (fs.map .write) (by rw [writesOf_map]; exact g2)
  refine ⟨stream, by rw [h1, writesOf_map, g1], fun σ S s s' x hx => ?_⟩
  rw [g3] at hx
  cases hb : bufferedSession ⟨ieee log2, S, o, .dynamic⟩ fmt (fs.map .write) (endingOf res) s with
  | none => rw [hb] at hx; cases hx
  | some y =>
    obtain ⟨y, s1⟩ := y
    rw [hb] at hx
    cases hx
    rw [← bufferedSession_neverFlush] at hb
    obtain ⟨accepted, failed, k1, k2, k3⟩ := h2 σ (neverFlush S) (endingOf res) s s1 y hb
    rw [bufferedSession_spy_neverFlush] at k1
    refine ⟨accepted, failed, by rw [g3, k1]; rfl, fun hf => ?_, fun k hk => ?_⟩
    · obtain ⟨rfl, k4⟩ := k2 hf
      exact ⟨rfl, k4⟩
    · obtain ⟨k4, k5, k6⟩ := k3 k hk
      refine ⟨?_, k5, k6 fun t t' h => by cases h⟩
      rcases k4 with rfl | ⟨k4, rfl⟩
      · exact .inl rfl
      · cases res with
        | ok u => cases k4
        | error k' => exact .inr ⟨k', rfl, rfl⟩

/-- **C05** It neither panics nor hangs, whatever an honest sink does. -/
theorem C05_compress_lent_no_panic (hlog : Log2Ok log2) (hS : Honest S I patience) {ρ : Type} {src : Source ρ} {J : ρ → Prop}
    {data : ρ → List UInt8} {res : Except ErrKind Unit} {patienceR : ρ → Nat} (hR : Supplies src J data res patienceR)
    (o : Options) (fmt : Format) (r : ρ) (hr : J r) (s : σ) (hs : I s) :
    ∃ x s', compressFrom (ieee log2) S src o fmt r s = some (x, s') := by
  obtain ⟨fs, g1, g2, g3⟩ := compressFrom_eq hR r hr
  obtain ⟨x, s', h⟩ := C43_no_panic hlog hS o .dynamic fmt (fs.map .write) (endingOf res) (by rw [writesOf_map]; exact g2) s hs
  exact ⟨_, s', by rw [g3, h]; rfl⟩

/-- **C40** A build with debug assertions does not panic or hang either, if the logarithm does not decrease on the integers
below `2048 * lim`, where `lim` exceeds the length of the data. -/
theorem C40_debug_compress_lent (hlog : Log2Ok log2) {lim : Nat} (hge : 2 ^ 21 ≤ lim) (hle : lim ≤ 2 ^ 47) (hmono : Log2Mono log2 (2 ^ 11 * lim))
    (hS : Reliable S I log patience) {ρ : Type} {src : Source ρ} {J : ρ → Prop} {data : ρ → List UInt8} {res : Except ErrKind Unit}
    {patienceR : ρ → Nat} (hR : Supplies src J data res patienceR) (o : Options) (fmt : Format) (r : ρ) (hr : J r) (hlen : (data r).length < lim)
    (s : σ) (hs : I s) :
    ∃ s' stream, compressFrom (ieeeDebug log2) S src o fmt r s = some (res, s') ∧ log s' = log s ++ stream ∧ decode fmt stream = some (data r) := by
  obtain ⟨fs, g1, g2, g3⟩ := compressFrom_eq hR r hr
  have hfit : ∀ w ∈ writesOf (fs.map Call.write), w.length < lim := by
    rw [writesOf_map]
    intro w hw
    refine Nat.lt_of_le_of_lt ?_ hlen
    rw [← g1]
    exact (List.sublist_flatten_of_mem hw).length_le
  have hfit' := coalesce_fits (lim := lim) MASTER_BLOCK_SIZE (Nat.lt_of_lt_of_le (by decide) hge) (fs.map Call.write) hfit
  obtain ⟨stream, body, blocks, h1, h2, h3⟩ := streamOf_exists (ieeeDebugLaws hlog hge hle hmono) o .dynamic fmt _ hfit'
  obtain ⟨s', k1, k2, -⟩ := session_reliable ⟨ieeeDebug log2, S, o, .dynamic⟩ hS fmt _ (endingOf res) hs h1
  refine ⟨s', stream, ?_, k2, ?_⟩
  · rw [g3, bufferedSession_ok _ fmt (fs.map .write) (endingOf res) k1]
    rfl
  · rw [h1.decode (ieeeDebugLaws hlog hge hle hmono) hfit', (C43_joined (fs.map Call.write)).1, writesOf_map, g1]

/-! ## The hypotheses are met -/

/-- A reader that lends three bytes, is interrupted, lends two more and then fails. -/
def partsSource : Source Nat where
  next
    | 0 => (.ok [1, 2, 3], 1)
    | 1 => (.error .interrupted, 2)
    | 2 => (.ok [4, 5], 3)
    | n => (.error (.other 7), n)

theorem partsSource_supplies : Supplies partsSource (fun _ => True)
    (fun r => match r with | 0 => [1, 2, 3, 4, 5] | 1 => [4, 5] | 2 => [4, 5] | _ => []) (.error (.other 7)) (fun r => 3 - r) where
  not_interrupted := by simp
  next r _ := by
    match r with
    | 0 => exact .inl ⟨[1, 2, 3], 1, rfl, by simp, by decide, rfl, trivial⟩
    | 1 => exact .inr (.inl ⟨2, rfl, rfl, by decide, trivial⟩)
    | 2 => exact .inl ⟨[4, 5], 3, rfl, by simp, by decide, rfl, trivial⟩
    | n + 3 => exact .inr (.inr ⟨n + 3, rfl, rfl⟩)

example : ∃ s' stream, compressFrom (ieee floorLog2) stutterSink partsSource Options.default .gzip 0 ([9], 1) = some (.error (.other 7), s') ∧
    s'.1 = [9] ++ stream ∧ Rfc.gunzip stream = some [1, 2, 3, 4, 5] :=
  C04_C34_compress_lent floorLog2_ok stutterSink_reliable partsSource_supplies Options.default .gzip 0 trivial ([9], 1) trivial

example : ∃ s' stream, compressFrom (ieee floorLog2) vecSink sliceSource Options.default .zlib [1, 2, 3] [] = some (.ok (), s') ∧
    s' = [] ++ stream ∧ Rfc.zlibDecode stream = some [1, 2, 3] :=
  C04_compress_slice floorLog2_ok vecSink_reliable Options.default .zlib [1, 2, 3] (by decide) [] trivial

example : ∃ s' stream, compressFrom (ieeeDebug floorLog2) stutterSink partsSource Options.default .deflate 0 ([9], 1) = some (.error (.other 7), s') ∧
    s'.1 = [9] ++ stream ∧ decode .deflate stream = some [1, 2, 3, 4, 5] :=
  C40_debug_compress_lent floorLog2_ok (lim := 2 ^ 47) (by norm_num) (by norm_num) (fun m n h1 h2 h3 => floorLog2_mono m n h1 h2 (by omega))
    stutterSink_reliable partsSource_supplies Options.default .deflate 0 trivial (by decide) ([9], 1) trivial

end Zopfli
