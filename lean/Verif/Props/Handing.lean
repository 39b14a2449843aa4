import Verif.Proofs.Handing
import Verif.Props.Faults
/-!
# C70: all ways of handing data to an encoder; encoders inside encoders
-/

namespace Zopfli

variable {log2 : Fp → Fp} {σ : Type} {S : Sink σ} {I : σ → Prop} {log : σ → List UInt8} {patience : σ → Nat}

/-- **C70** (one call) On any sink, in any build and in any state of the encoder, `write_all`, `write_vectored`, `write_all_vectored` and
`write!` do exactly what the plain calls in `Hand.plain` do: one `write` per non-empty buffer. -/
theorem C70_plain_calls [Checks] (env : Env σ) (e : Encoder σ) (h : Hand) : e.hand env h = e.run env h.plain := Encoder.hand_eq env e h

/-- **C70** (sessions) So a whole session handing its data over in these ways is a session of plain calls with the same data. -/
theorem C70_plain_session [Checks] (env : Env σ) (fmt : Format) (calls : List Hand) (ending : Ending) (s : σ) :
    handSession env fmt calls ending s = session env fmt (calls.flatMap Hand.plain) ending s ∧
      (writesOf (calls.flatMap Hand.plain)).flatten = (calls.map Hand.data).flatten :=
  ⟨handSession_eq env fmt calls ending s, plain_data calls⟩

/-- **C70** (round trip) And on a sink that does not fail, the stream decodes to the data handed over. -/
theorem C70_roundtrip (hlog : Log2Ok log2) (hS : Reliable S I log patience) (o : Options) (bt : BlockType) (fmt : Format) (calls : List Hand)
    (ending : Ending) (hfit : ∀ h ∈ calls, h.data.length < 2 ^ 47) (s : σ) (hs : I s) :
    ∃ s' stream, handSession ⟨ieee log2, S, o, bt⟩ fmt calls ending s = some (.ok (), s') ∧ log s' = log s ++ stream ∧
      decode fmt stream = some (calls.map Hand.data).flatten := by
  have hf : Fits (writesOf (calls.flatMap Hand.plain)) := by
    clear hlog hS hs
    induction calls with
    | nil => intro w hw; cases hw
    | cons h l ih =>
      intro w hw
      rw [List.flatMap_cons, writesOf_append] at hw
      rcases List.mem_append.mp hw with hw | hw
      · have h1 := hfit h (by simp)
        rw [← Hand.plain_data] at h1
        exact Nat.lt_of_le_of_lt (List.sublist_flatten_of_mem hw).length_le h1
      · exact ih (fun h hh => hfit h (List.mem_cons_of_mem _ hh)) w hw
  obtain ⟨stream, hd, h⟩ := C22_C23_C26_same_stream hlog o bt fmt _ hf
  obtain ⟨s', h1, h2⟩ := h σ S I log patience hS _ ending s rfl hs
  exact ⟨s', stream, by rw [handSession_eq]; exact h1, h2, by rw [hd, plain_data]⟩

/-- **C70** (`write_vectored`) `write_vectored` on an encoder that succeeds returns the length of the first buffer that is not empty, which is
the data it has taken, and never takes from a second one. -/
theorem C70_write_vectored [Checks] (env : Env σ) (e e' : Encoder σ) (bufs : List (List UInt8)) (n : Nat)
    (h : e.writeVectored env bufs = some (.ok n, e')) :
    (bufs.flatten = [] ∧ n = 0) ∨
      ∃ before b after, bufs = before ++ b :: after ∧ before.flatten = [] ∧ b ≠ [] ∧ n = b.length ∧ e.write env b = some (.ok n, e') := by
  unfold Encoder.writeVectored at h
  have hres := Encoder.write_result env h
  dsimp only at hres
  cases hf : bufs.find? fun b => !b.isEmpty with
  | none =>
    left
    rw [hf] at hres
    rw [List.find?_eq_none] at hf
    refine ⟨?_, ?_⟩
    · rw [List.flatten_eq_nil_iff]
      intro l hl
      simpa using hf l hl
    · rcases hres with h | ⟨k, -, h⟩ <;> cases h
      rfl
  | some b =>
    right
    rw [hf] at hres h
    rw [List.find?_eq_some_iff_append] at hf
    obtain ⟨h1, before, after, h2, h3⟩ := hf
    refine ⟨before, b, after, h2, ?_, by simpa using h1, ?_, h⟩
    · rw [List.flatten_eq_nil_iff]
      intro l hl
      simpa using h3 l hl
    · rcases hres with h | ⟨k, -, h⟩ <;> cases h
      rfl

/-- **C70** (copying) `std::io::copy` from any reader into an encoder that is not behind a `BufWriter`: there are pieces of at most 8192 bytes
that make up the data, fixed by the reader, such that on every sink copying is writing them one by one, up to the first error; if there is none, the
result is what the reader ends with. -/
theorem C70_copy [Checks] {ρ : Type} {R : Reader ρ} {J : ρ → Prop} {data : ρ → List UInt8} {res : Except ErrKind Unit} {patienceR : ρ → Nat}
    (hR : Delivers R J data res patienceR) (r : ρ) (hr : J r) :
    ∃ pieces : List (List UInt8), pieces.flatten = data r ∧ (∀ p ∈ pieces, p ≠ [] ∧ p.length ≤ 8192) ∧
      ∀ (σ : Type) (env : Env σ) (e : Encoder σ), copyInto env R r e = do
        let (q, e) ← e.run env (pieces.map .write)
        match q with
        | .ok () => return (res, e)
        | .error k => return (.error k, e) := by
  obtain ⟨pieces, h1, h2, h3⟩ := copyInto_eq hR (data r).length (patienceR r) r hr (Nat.le_refl _) (Nat.le_refl _)
  refine ⟨pieces, h1, h2, ?_⟩
  intro σ env e
  rw [h3]
  cases e.run env (pieces.map .write) with
  | none => rfl
  | some x =>
    obtain ⟨q, e'⟩ := x
    cases q <;> rfl

/-- **C70** (copying, round trip) -/
theorem C70_copy_roundtrip (hlog : Log2Ok log2) (hS : Reliable S I log patience) {ρ : Type} {R : Reader ρ} {J : ρ → Prop}
    {data : ρ → List UInt8} {res : Except ErrKind Unit} {patienceR : ρ → Nat} (hR : Delivers R J data res patienceR)
    (o : Options) (bt : BlockType) (fmt : Format) (r : ρ) (hr : J r) (s : σ) (hs : I s) :
    ∃ e s1 e' s' stream, Encoder.new ⟨ieee log2, S, o, bt⟩ fmt s = some (.ok e, s1) ∧ copyInto ⟨ieee log2, S, o, bt⟩ R r e = some (res, e') ∧
      e'.finish ⟨ieee log2, S, o, bt⟩ = some (.ok (), s') ∧ log s' = log s ++ stream ∧ decode fmt stream = some (data r) := by
  obtain ⟨pieces, h1, h2, h3⟩ := C70_copy hR r hr
  obtain ⟨e, s1, g1, g2⟩ := fed_ok ⟨ieee log2, S, o, bt⟩ (ieeeLaws hlog) hS fmt hs
  have hfit : Fits (writesOf (pieces.map .write)) := by
    rw [writesOf_map_write]
    intro w hw
    have := (h2 w hw).2
    omega
  obtain ⟨e', g3⟩ := g2 _ hfit
  obtain ⟨stream, hd, h⟩ := C22_C23_C26_same_stream hlog o bt fmt _ hfit
  obtain ⟨s', k1, k2⟩ := h σ S I log patience hS _ .finish s rfl hs
  rw [session_of_run _ g1 g3] at k1
  refine ⟨e, s1, e', s', stream, g1, ?_, k1, k2, ?_⟩
  · rw [h3, g3]
    rfl
  · rw [hd, writesOf_map_write, h1]

/-! ## Encoders inside encoders -/

/-- **C70** (nesting) An encoder is a sink like any other.  If an encoder of any format writes to an encoder of any format over a sink that does
not fail, then a session on the outer one succeeds, the inner one can be finished, and what the sink has received decodes, with the inner
format, to something that decodes, with the outer format, to the data. -/
theorem C70_nested (hlog : Log2Ok log2) (hS : Reliable S I log patience) (o o' : Options) (bt bt' : BlockType) (outer inner : Format)
    (calls : List Call) (ending : Ending) (hfit : Fits (writesOf calls)) (s : σ) (hs : I s) :
    ∃ e s1 e' s' stream middle, Encoder.new ⟨ieee log2, S, o, bt⟩ inner s = some (.ok e, s1) ∧
      session ⟨ieee log2, encoderSink ⟨ieee log2, S, o, bt⟩, o', bt'⟩ outer calls ending (some e) = some (.ok (), some e') ∧
      e'.finish ⟨ieee log2, S, o, bt⟩ = some (.ok (), s') ∧ log s' = log s ++ stream ∧ decode inner stream = some middle ∧
      decode outer middle = some (writesOf calls).flatten := by
  obtain ⟨e, s1, g1, g2⟩ := fed_ok ⟨ieee log2, S, o, bt⟩ (ieeeLaws hlog) hS inner hs
  obtain ⟨middle, body, blocks, h1, h2, h3⟩ := streamOf_exists (ieeeLaws hlog) o' bt' outer (writesOf calls) hfit
  have hrel := fed_reliable ⟨ieee log2, S, o, bt⟩ g2
  obtain ⟨t', k1, k2, k3, k4⟩ := session_reliable ⟨ieee log2, spy (encoderSink ⟨ieee log2, S, o, bt⟩), o', bt'⟩ hrel outer calls ending
    (s := ⟨some e, [], none⟩) ⟨rfl, Fed.start _ e⟩ h1
  have htr := spy_transparent (ieee log2) (encoderSink ⟨ieee log2, S, o, bt⟩) o' bt' outer calls ending ⟨some e, [], none⟩
  rw [k1] at htr
  obtain ⟨e', calls', m1, m2, m3, m4⟩ := k4
  obtain ⟨stream, hd, h⟩ := C22_C23_C26_same_stream hlog o bt inner _ m2
  obtain ⟨s', n1, n2⟩ := h σ S I log patience hS _ .finish s rfl hs
  rw [session_of_run _ g1 m3] at n1
  refine ⟨e, s1, e', s', stream, middle, g1, ?_, n1, n2, ?_, h1.decode (ieeeLaws hlog) hfit⟩
  · rw [htr]
    show some (_, t'.sink) = _
    rw [m1]
  · rw [hd, ← m4, k2]
    rfl

/-- **C70** (nesting, any sink) With a sink of which nothing is assumed: if the session on the outer encoder and then `finish` of the inner one
succeed, then the sink has not failed and has accepted exactly such a doubly encoded stream.  So no failure of the sink is lost on its way
through two encoders. -/
theorem C70_nested_any (hlog : Log2Ok log2) (S : Sink σ) (o o' : Options) (bt bt' : BlockType) (outer inner : Format)
    (calls : List Call) (hfit : Fits (writesOf calls)) (t : Spy σ) (ht : t.failed = none) (e : Encoder (Spy σ)) (t1 : Spy σ)
    (e' : Option (Encoder (Spy σ))) (t' : Spy σ)
    (h1 : Encoder.new ⟨ieee log2, spy S, o, bt⟩ inner t = some (.ok e, t1))
    (h2 : session ⟨ieee log2, encoderSink ⟨ieee log2, spy S, o, bt⟩, o', bt'⟩ outer calls .finish (some e) = some (.ok (), e'))
    (h3 : (e'.bind fun e' => e'.finish ⟨ieee log2, spy S, o, bt⟩) = some (.ok (), t')) :
    t'.failed = none ∧ ∃ stream middle, t'.log = t.log ++ stream ∧ decode inner stream = some middle ∧
      decode outer middle = some (writesOf calls).flatten := by
  obtain ⟨middle, hd, -, hany⟩ := C21_sink_errors hlog o' bt' outer calls hfit
  obtain ⟨accepted, failed, k1, k2, -⟩ := hany _ _ _ _ _ h2
  obtain ⟨rfl, rfl⟩ := k2 rfl
  have hfed := session_inv (fun x => x.failed = none → Fed ⟨ieee log2, spy S, o, bt⟩ e x) (fun x b hx => Fed.write hx b) (fun x hx => Fed.flush hx)
    (fun _ => Fed.start _ e) k1
  obtain ⟨e2, calls', m1, m2, m3, m4⟩ := hfed rfl
  dsimp only at m1 m4
  subst m1
  rw [Option.bind_some] at h3
  rw [← session_of_run ⟨ieee log2, spy S, o, bt⟩ h1 m3] at h3
  obtain ⟨stream, body, blocks, g1, g2, g3⟩ := streamOf_exists (ieeeLaws hlog) o bt inner (writesOf calls') m2
  obtain ⟨hok, -⟩ := session_recorded ⟨ieee log2, spy S, o, bt⟩ (spy_recorded S) inner calls' ht g1 h3
  obtain ⟨q1, q2⟩ := hok () rfl
  exact ⟨q1, stream, accepted, q2, by rw [g1.decode (ieeeLaws hlog) m2, m4], hd⟩

/-- **C70** (nesting, no panic) Nor does anything panic or hang if the sink fails again and again: the session on the outer encoder returns, the
inner one is still alive, and it can be finished or dropped. -/
theorem C70_nested_no_panic (hlog : Log2Ok log2) (hS : Honest S I patience) (o o' : Options) (bt bt' : BlockType) (outer inner : Format)
    (calls : List Call) (ending : Ending) (hfit : Fits (writesOf calls)) (s : σ) (hs : I s) :
    ∃ r s1, Encoder.new ⟨ieee log2, S, o, bt⟩ inner s = some (r, s1) ∧
      ∀ e, r = .ok e → ∃ q e', session ⟨ieee log2, encoderSink ⟨ieee log2, S, o, bt⟩, o', bt'⟩ outer calls ending (some e) = some (q, some e') ∧
        (∃ x, e'.finish ⟨ieee log2, S, o, bt⟩ = some x) ∧ ∃ x, e'.drop ⟨ieee log2, S, o, bt⟩ = some x := by
  obtain ⟨⟨r, s1⟩, h1, h2, h3⟩ := ESane.new (lim := (ieeeLaws hlog).lim) (ieeeLaws hlog).lim_ge (env := ⟨ieee log2, S, o, bt⟩) hS inner hs
  refine ⟨r, s1, h1, ?_⟩
  intro e he
  have hsane := h3 e he
  have hh := encoderSink_honest (env := ⟨ieee log2, S, o, bt⟩) (ieeeLaws hlog) (Nat.le_refl _) hS
  obtain ⟨q, x, hx⟩ := C05_no_panic_failing hlog hh o' bt' outer calls ending hfit (some e) ⟨e, rfl, hsane⟩
  obtain ⟨e', rfl, h5⟩ := session_inv (fun x => ∃ e, x = some e ∧ ESane (ieeeLaws hlog).lim I e) hh.write hh.flush ⟨e, rfl, hsane⟩ hx
  obtain ⟨⟨x1, y1, -⟩, ⟨x2, y2, -⟩⟩ := ESane.finish_drop (env := ⟨ieee log2, S, o, bt⟩) (ieeeLaws hlog) hS h5
  exact ⟨q, e', hx, ⟨x1, y1⟩, ⟨x2, y2⟩⟩

/-! ## Examples -/

/-- Calls of all kinds. -/
def exampleHands : List Hand :=
  [.write [1], .writeAll [2, 3], .writeAll [], .writeVectored [[], [4, 5], [99]], .writeAllVectored [[6], [], [7, 8]], .flush, .writeFmt [[9], [], [10]]]

example : exampleHands.flatMap Hand.plain =
    [.write [1], .write [2, 3], .write [4, 5], .write [6], .write [7, 8], .flush, .write [9], .write [10]] := rfl

example : ∃ s' stream, handSession ⟨ieee floorLog2, stutterSink, Options.default, .dynamic⟩ .zlib exampleHands .drop ([9], 1) = some (.ok (), s') ∧
    s'.1 = [9] ++ stream ∧ Rfc.zlibDecode stream = some [1, 2, 3, 4, 5, 6, 7, 8, 9, 10] :=
  C70_roundtrip floorLog2_ok stutterSink_reliable Options.default .dynamic .zlib exampleHands .drop (by decide) _ trivial

example := C70_copy_roundtrip floorLog2_ok stutterSink_reliable (listReader_delivers 1 (.error (.other 7)) (by simp)) Options.default .fixed .gzip
  ([1, 2, 3, 4, 5], true) trivial ([9], 1) trivial

theorem exampleNested_fits : Fits (writesOf [.write [1, 2, 3], .flush, .write [4]]) := by
  intro w hw
  simp [writesOf] at hw
  rcases hw with rfl | rfl <;> decide

/-- zlib inside gzip. -/
example : ∃ e s1 e' s' stream middle, Encoder.new ⟨ieee floorLog2, stutterSink, Options.default, .dynamic⟩ .gzip ([], 2) = some (.ok e, s1) ∧
    session ⟨ieee floorLog2, encoderSink ⟨ieee floorLog2, stutterSink, Options.default, .dynamic⟩, Options.default, .fixed⟩ .zlib
      [.write [1, 2, 3], .flush, .write [4]] .drop (some e) = some (.ok (), some e') ∧
    e'.finish ⟨ieee floorLog2, stutterSink, Options.default, .dynamic⟩ = some (.ok (), s') ∧ s'.1 = [] ++ stream ∧ Rfc.gunzip stream = some middle ∧
    Rfc.zlibDecode middle = some [1, 2, 3, 4] :=
  C70_nested floorLog2_ok stutterSink_reliable _ _ _ _ .zlib .gzip _ .drop exampleNested_fits _ trivial

example := C70_nested_no_panic floorLog2_ok (glitch_honest 3) Options.default Options.default .dynamic .fixed .zlib .gzip _ .drop exampleNested_fits ([], 0) trivial

/-- The hypotheses of `C70_nested_any` are met over a sink that does not fail. -/
theorem spyVec_reliable : Reliable (spy vecSink) (fun t => t.failed = none) Spy.log (fun _ => 0) where
  write t buf ht hb := by
    obtain ⟨s, l, f⟩ := t
    cases ht
    left
    have hl : buf.length ≠ 0 := by simpa using hb
    refine ⟨buf.length, ⟨s ++ buf, l ++ buf.take buf.length, none⟩, ?_, by omega, Nat.le_refl _, rfl, rfl⟩
    simp only [spy, vecSink]
    rw [if_neg (by rintro ⟨h, -⟩; exact hl h)]
  flush t ht := by
    obtain ⟨s, l, f⟩ := t
    cases ht
    exact ⟨⟨s, l, none⟩, rfl, rfl, rfl⟩

example : ∃ (e : Encoder (Spy (List UInt8))) (t1 : Spy (List UInt8)) (e' : Option (Encoder (Spy (List UInt8)))) (t' : Spy (List UInt8)),
    Encoder.new ⟨ieee floorLog2, spy vecSink, Options.default, .dynamic⟩ .gzip ⟨[], [], none⟩ = some (.ok e, t1) ∧
    session ⟨ieee floorLog2, encoderSink ⟨ieee floorLog2, spy vecSink, Options.default, .dynamic⟩, Options.default, .fixed⟩ .zlib
      [.write [1, 2, 3], .flush, .write [4]] .finish (some e) = some (.ok (), e') ∧
    (e'.bind fun e' => e'.finish ⟨ieee floorLog2, spy vecSink, Options.default, .dynamic⟩) = some (.ok (), t') := by
  obtain ⟨e, s1, e', s', stream, middle, h1, h2, h3, -⟩ :=
    C70_nested floorLog2_ok spyVec_reliable Options.default Options.default .dynamic .fixed .zlib .gzip _ .finish exampleNested_fits ⟨[], [], none⟩ rfl
  exact ⟨e, s1, some e', s', h1, h2, h3⟩

end Zopfli
