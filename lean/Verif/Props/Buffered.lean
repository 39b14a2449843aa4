import Verif.Proofs.Buffered
import Verif.Props.Faults
/-!
# C43: encoders made by `new_buffered`

Their effect is that of the plain encoder on the joined calls, `coalesce MASTER_BLOCK_SIZE [] calls`
(Verif/Spec/Buffered.lean); everything proved of plain sessions therefore applies to them, for those calls.
-/

namespace Zopfli

variable {log2 : Fp → Fp} {σ : Type} {S : Sink σ} {I : σ → Prop} {log : σ → List UInt8} {patience : σ → Nat}

/-- **C43** What joining does to a sequence of calls: the data stays the same; no write is empty; no two writes in a row
would together fit in 1,000,000 bytes; a write longer than that is one the client made. -/
theorem C43_joined (calls : List Call) :
    (writesOf (coalesce MASTER_BLOCK_SIZE [] calls)).flatten = (writesOf calls).flatten ∧
    Joined MASTER_BLOCK_SIZE (coalesce MASTER_BLOCK_SIZE [] calls) ∧
    ∀ w ∈ writesOf (coalesce MASTER_BLOCK_SIZE [] calls), w.length ≤ MASTER_BLOCK_SIZE ∨ w ∈ writesOf calls :=
  ⟨by rw [coalesce_flatten]; rfl, coalesce_joined _ (by decide) calls [] (Nat.zero_le _), coalesce_sizes _ calls [] (Nat.zero_le _)⟩

/-- **C43** Whatever the sink does, as long as the plain encoder, given the joined calls, reports success, the buffered
one does exactly the same to the sink. -/
theorem C43_same_as_joined (env : Env σ) (fmt : Format) (calls : List Call) (ending : Ending) (s s' : σ)
    (h : session env fmt (coalesce MASTER_BLOCK_SIZE [] calls) ending s = some (.ok (), s')) :
    bufferedSession env fmt calls ending s = some (.ok (), s') :=
  bufferedSession_ok env fmt calls ending h

/-- **C43** With a sink that does not fail, a session with a buffered encoder, ended by `into_inner` and `finish` or by
dropping it, neither panics nor hangs, reports success, and adds to the sink one stream of the format for the written
data: the stream the plain encoder writes for the joined calls. -/
theorem C43_buffered_stream (hlog : Log2Ok log2) (o : Options) (bt : BlockType) (fmt : Format) (calls : List Call) (hfit : Fits (writesOf calls)) :
    ∃ stream, decode fmt stream = some (writesOf calls).flatten ∧
      ∀ (σ : Type) (S : Sink σ) (I : σ → Prop) (log : σ → List UInt8) (patience : σ → Nat), Reliable S I log patience →
      ∀ (ending : Ending) (s : σ), I s →
        (∃ s', bufferedSession ⟨ieee log2, S, o, bt⟩ fmt calls ending s = some (.ok (), s') ∧ log s' = log s ++ stream) ∧
        ∃ s', session ⟨ieee log2, S, o, bt⟩ fmt (coalesce MASTER_BLOCK_SIZE [] calls) ending s = some (.ok (), s') ∧ log s' = log s ++ stream := by
  obtain ⟨stream, h1, h⟩ := C22_C23_C26_same_stream hlog o bt fmt _ (coalesce_fits MASTER_BLOCK_SIZE (by decide) calls hfit)
  refine ⟨stream, by rw [h1, (C43_joined calls).1], ?_⟩
  intro σ S I log patience hS ending s hs
  obtain ⟨s', g1, g2⟩ := h σ S I log patience hS _ ending s rfl hs
  exact ⟨⟨s', bufferedSession_ok _ fmt calls ending g1, g2⟩, s', g1, g2⟩

theorem coalesce_small (calls : List Call) : ∀ (p : List UInt8), (∀ c ∈ calls, ∃ d, c = .write d) →
    p.length + (writesOf calls).flatten.length ≤ MASTER_BLOCK_SIZE → coalesce MASTER_BLOCK_SIZE p calls = pendingWrite (p ++ (writesOf calls).flatten) := by
  induction calls with
  | nil => intro p _ _; rw [coalesce]; simp [writesOf]
  | cons c l ih =>
    intro p h1 h3
    obtain ⟨d, rfl⟩ := h1 c (by simp)
    rw [writesOf, List.flatten_cons, List.length_append] at h3
    have h5 : p.length + d.length ≤ MASTER_BLOCK_SIZE := by omega
    by_cases h4 : d.length < MASTER_BLOCK_SIZE
    · rw [coalesce, if_pos ⟨h5, h4⟩, ih (p ++ d) (fun c hc => h1 c (by simp [hc])) (by
        rw [List.length_append]; omega)]
      simp [writesOf]
    · have hp : p = [] := List.eq_nil_of_length_eq_zero (by omega)
      have hl : (writesOf l).flatten = [] := List.eq_nil_of_length_eq_zero (by omega)
      have hd : d ≠ [] := by rintro rfl; exact h4 (by decide)
      subst hp
      rw [coalesce, if_neg (fun h => h4 h.2), if_pos (by omega), ih [] (fun c hc => h1 c (by simp [hc])) (by
        rw [hl]; exact Nat.zero_le _), hl]
      simp [writesOf, hl, pendingWrite, hd]

/-- **C43** Small writes cost nothing: without calls to `flush`, the stream depends only on the data as long as it is at
most 1,000,000 bytes — it is the stream the plain encoder writes for one write of all of it (for no write, if there is no
data). -/
theorem C43_one_write (calls : List Call) (hwrites : ∀ c ∈ calls, ∃ d, c = .write d)
    (hsize : (writesOf calls).flatten.length ≤ MASTER_BLOCK_SIZE) :
    coalesce MASTER_BLOCK_SIZE [] calls = if (writesOf calls).flatten = [] then [] else [.write (writesOf calls).flatten] := by
  rw [coalesce_small calls [] hwrites (by simpa using hsize), List.nil_append, pendingWrite]

/-- **C43** So at most 1,000,000 bytes have one compressed form, however they are cut into writes: a buffered encoder writes
to every sink that does not fail what the plain encoder writes for one write of all of it. -/
theorem C43_cuts_do_not_matter (hlog : Log2Ok log2) (o : Options) (bt : BlockType) (fmt : Format) (data : List UInt8)
    (hsize : data.length ≤ 1000000) :
    ∃ stream, decode fmt stream = some data ∧
      ∀ (σ : Type) (S : Sink σ) (I : σ → Prop) (log : σ → List UInt8) (patience : σ → Nat), Reliable S I log patience →
      ∀ (s : σ), I s →
        (∀ (writes : List (List UInt8)) (ending : Ending), writes.flatten = data →
          ∃ s', bufferedSession ⟨ieee log2, S, o, bt⟩ fmt (writes.map .write) ending s = some (.ok (), s') ∧ log s' = log s ++ stream) ∧
        ∃ s', session ⟨ieee log2, S, o, bt⟩ fmt (if data = [] then [] else [.write data]) .finish s = some (.ok (), s') ∧
          log s' = log s ++ stream := by
  have hw : ∀ ws : List (List UInt8), writesOf (ws.map .write) = ws := fun ws => by
    induction ws with
    | nil => rfl
    | cons w ws ih => rw [List.map_cons, writesOf, ih]
  have hfit : Fits (writesOf (if data = [] then [] else [Call.write data])) := by
    split
    · intro w h; cases h
    · intro w h
      rw [List.eq_of_mem_singleton h]
      exact Nat.lt_of_le_of_lt hsize (by decide)
  obtain ⟨stream, h1, h⟩ := C22_C23_C26_same_stream hlog o bt fmt _ hfit
  refine ⟨stream, ?_, ?_⟩
  · rw [h1]
    split
    · next hd => rw [hd]; rfl
    · simp [writesOf]
  intro σ S I log patience hS s hs
  refine ⟨?_, h σ S I log patience hS _ .finish s rfl hs⟩
  rintro writes ending rfl
  obtain ⟨s', g1, g2⟩ := h σ S I log patience hS _ ending s rfl hs
  refine ⟨s', bufferedSession_ok _ fmt _ ending ?_, g2⟩
  rw [C43_one_write _ (by simp) (by rw [hw]; exact hsize), hw]
  exact g1

/-- **C43** Observing the sink changes nothing. -/
theorem C43_spy_transparent (F : FloatOps) (S : Sink σ) (o : Options) (bt : BlockType) (fmt : Format) (calls : List Call) (ending : Ending)
    (t : Spy σ) :
    bufferedSession ⟨F, S, o, bt⟩ fmt calls ending t.sink =
      (bufferedSession ⟨F, spy S, o, bt⟩ fmt calls ending t).map fun x => (x.1, x.2.sink) :=
  (spy_hom S).bufferedSession fmt calls ending t

/-- **C43** With any sink: if the session reports success after `finish`, the sink has accepted exactly the stream; if it
reports an error, that is the sink's first failure and the sink had accepted a prefix of the stream by then.  If the
buffered encoder is dropped, errors while it is being dropped are lost, but the sink has still accepted all of the stream
or, by its first failure, a prefix of it. -/
theorem C43_sink_errors (hlog : Log2Ok log2) (o : Options) (bt : BlockType) (fmt : Format) (calls : List Call) (hfit : Fits (writesOf calls)) :
    ∃ stream, decode fmt stream = some (writesOf calls).flatten ∧
      (∀ (σ : Type) (S : Sink σ) (I : σ → Prop) (log : σ → List UInt8) (patience : σ → Nat), Reliable S I log patience → ∀ s, I s →
        ∃ s', bufferedSession ⟨ieee log2, S, o, bt⟩ fmt calls .finish s = some (.ok (), s') ∧ log s' = log s ++ stream) ∧
      ∀ (σ : Type) (S : Sink σ) (ending : Ending) (s s' : σ) (r : Except ErrKind Unit),
        bufferedSession ⟨ieee log2, S, o, bt⟩ fmt calls ending s = some (r, s') →
        ∃ accepted failed, bufferedSession ⟨ieee log2, spy S, o, bt⟩ fmt calls ending ⟨s, [], none⟩ = some (r, ⟨s', accepted, failed⟩) ∧
          (failed = none → r = .ok () ∧ accepted = stream) ∧
          ∀ k, failed = some k → (r = .error k ∨ ending = .drop ∧ r = .ok ()) ∧ accepted <+: stream ∧
            ((∀ t t', S.flush t ≠ (.error k, t')) → accepted.length < stream.length) := by
  obtain ⟨stream, body, blocks, h1, h2, h3⟩ := streamOf_exists (ieeeLaws hlog) o bt fmt _ (coalesce_fits MASTER_BLOCK_SIZE (by rw [ieeeLaws_lim]; decide) calls hfit)
  refine ⟨stream, ?_, ?_, ?_⟩
  · rw [h1.decode (ieeeLaws hlog) (coalesce_fits MASTER_BLOCK_SIZE (by rw [ieeeLaws_lim]; decide) calls hfit), (C43_joined calls).1]
  · intro σ S I log patience hS s hs
    obtain ⟨s', g1, g2, g3⟩ := session_reliable ⟨ieee log2, S, o, bt⟩ hS fmt _ .finish hs h1
    exact ⟨s', bufferedSession_ok _ fmt calls .finish g1, g2⟩
  · intro σ S ending s s' r hr
    rw [C43_spy_transparent (ieee log2) S o bt fmt calls ending ⟨s, [], none⟩] at hr
    cases hx : bufferedSession ⟨ieee log2, spy S, o, bt⟩ fmt calls ending ⟨s, [], none⟩ with
    | none => rw [hx] at hr; cases hr
    | some x =>
      obtain ⟨r', t⟩ := x
      rw [hx] at hr
      cases hr
      obtain ⟨g1, g2⟩ := bufferedSession_recorded ⟨ieee log2, spy S, o, bt⟩ (spy_recorded S) fmt calls ending (s := ⟨s, [], none⟩) rfl h1 hx
      refine ⟨t.log, t.failed, rfl, ?_, ?_⟩
      · intro hf
        obtain ⟨i1, i2⟩ := g1 hf
        exact ⟨i1, by simpa using i2⟩
      · intro k hk
        obtain ⟨i1, n, i2, i3⟩ := g2 k hk
        have i3 : t.log = stream.take n := by simpa using i3
        refine ⟨i1, by rw [i3]; exact List.take_prefix n stream, fun hf => ?_⟩
        rcases i2 with i2 | ⟨u, u', i2⟩
        · rw [i3, List.length_take]; omega
        · have := (spy_hom S).fl u
          rw [i2] at this
          exact absurd this (hf _ _)

/-- **C43** No session with a buffered encoder panics or hangs, whatever an honest sink does. -/
theorem C43_no_panic (hlog : Log2Ok log2) (hS : Honest S I patience) (o : Options) (bt : BlockType) (fmt : Format) (calls : List Call)
    (ending : Ending) (hfit : Fits (writesOf calls)) (s : σ) (hs : I s) :
    ∃ r s', bufferedSession ⟨ieee log2, S, o, bt⟩ fmt calls ending s = some (r, s') := by
  obtain ⟨⟨r, s'⟩, h, -⟩ := bufferedSession_total ⟨ieee log2, S, o, bt⟩ (ieeeLaws hlog) hS fmt calls ending hs hfit
  exact ⟨r, s', h⟩

/-! ## The hypotheses are met -/

/-- Three small writes and a flush become two. -/
example : coalesce MASTER_BLOCK_SIZE [] [.write [1], .write [2, 3]] = [.write [1, 2, 3]] :=
  C43_one_write [.write [1], .write [2, 3]] (by simp) (by simp [writesOf, MASTER_BLOCK_SIZE])

example (hlog : Log2Ok log2) : ∃ stream, decode .zlib stream = some [1, 2, 3] ∧
    (∃ s', bufferedSession ⟨ieee log2, vecSink, .default, .dynamic⟩ .zlib [.write [1], .write [], .write [2, 3]] .drop [] = some (.ok (), s') ∧ s' = stream) ∧
    ∃ s', bufferedSession ⟨ieee log2, vecSink, .default, .dynamic⟩ .zlib [.write [1, 2], .write [3]] .finish [] = some (.ok (), s') ∧ s' = stream := by
  obtain ⟨stream, h1, h⟩ := C43_cuts_do_not_matter hlog .default .dynamic .zlib [1, 2, 3] (by decide)
  obtain ⟨g, -⟩ := h _ vecSink _ _ _ vecSink_reliable [] trivial
  exact ⟨stream, h1, g [[1], [], [2, 3]] .drop rfl, g [[1, 2], [3]] .finish rfl⟩

end Zopfli
