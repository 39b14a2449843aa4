import Verif.Props.Lending
import Verif.Props.Main
/-!
# C49: on what the output of `compress` depends

`compress` fills a buffer of 1,000,000 bytes and hands it to the encoder when fewer than 8192 bytes of it are free; the
encoder compresses what it is given at a time.  The output is therefore a function of the options, the format, the data
and the way the data is cut, and the cuts are constrained enough to make the output reproducible in the cases below.
-/

namespace Zopfli

variable {log2 : Fp → Fp}

/-- The pieces of data are non-empty, all but the last are of `n` bytes and the last is not longer. -/
def CutEvery (n : Nat) (pieces : List (List UInt8)) : Prop :=
  (∀ w ∈ pieces, w ≠ [] ∧ w.length ≤ n) ∧ ∀ w ∈ pieces.dropLast, w.length = n

theorem CutEvery.unique {n : Nat} : ∀ {V W : List (List UInt8)}, CutEvery n V → CutEvery n W → V.flatten = W.flatten → V = W := by
  intro V
  induction V with
  | nil =>
    intro W _ hW h
    cases W with
    | nil => rfl
    | cons w l =>
      rw [List.flatten_nil, List.flatten_cons] at h
      exact absurd (List.append_eq_nil_iff.mp h.symm).1 (hW.1 w (by simp)).1
  | cons v l ih =>
    intro W hV hW h
    cases W with
    | nil =>
      rw [List.flatten_nil, List.flatten_cons] at h
      exact absurd (List.append_eq_nil_iff.mp h).1 (hV.1 v (by simp)).1
    | cons w m =>
      have tail : ∀ {x : List UInt8} {y : List (List UInt8)}, CutEvery n (x :: y) → CutEvery n y := by
        intro x y hx
        refine ⟨fun z hz => hx.1 z (by simp [hz]), fun z hz => hx.2 z ?_⟩
        cases y with
        | nil => simp at hz
        | cons a b => rw [List.dropLast_cons_cons]; simp [hz]
      have full : ∀ {x : List UInt8} {y : List (List UInt8)}, CutEvery n (x :: y) → y ≠ [] → x.length = n ∧ 0 < y.flatten.length := by
        intro x y hx hy
        cases y with
        | nil => exact absurd rfl hy
        | cons a b =>
          refine ⟨hx.2 x (by simp), ?_⟩
          have := List.length_pos_iff.mpr (hx.1 a (by simp)).1
          rw [List.flatten_cons, List.length_append]
          omega
      have hlen : v.length = w.length := by
        have hl := congrArg List.length h
        simp only [List.flatten_cons, List.length_append] at hl
        have hv := (hV.1 v (by simp)).2
        have hw := (hW.1 w (by simp)).2
        by_cases h1 : l = [] <;> by_cases h2 : m = []
        · subst h1 h2; simpa using hl
        · obtain ⟨a, b⟩ := full hW h2
          subst h1
          rw [List.flatten_nil, List.length_nil] at hl
          omega
        · obtain ⟨a, b⟩ := full hV h1
          subst h2
          rw [List.flatten_nil, List.length_nil] at hl
          omega
        · rw [(full hV h1).1, (full hW h2).1]
      rw [List.flatten_cons, List.flatten_cons] at h
      obtain ⟨rfl, h'⟩ := List.append_inj h hlen
      rw [ih (tail hV) (tail hW) h']

theorem CutEvery.exists {n : Nat} (hn : 0 < n) (d : List UInt8) : ∃ V, CutEvery n V ∧ V.flatten = d := by
  induction hl : d.length using Nat.strong_induction_on generalizing d with
  | _ k ih =>
    by_cases h0 : d = []
    · exact ⟨[], ⟨by simp, by simp⟩, by rw [h0]; rfl⟩
    have hpos := List.length_pos_iff.mpr h0
    by_cases h1 : d.length ≤ n
    · exact ⟨[d], ⟨by simp [h0, h1], by simp⟩, by simp⟩
    obtain ⟨V, hV, he⟩ := ih (d.drop n).length (by rw [List.length_drop]; omega) (d.drop n) rfl
    have hlen : (d.take n).length = n := by rw [List.length_take]; omega
    refine ⟨d.take n :: V, ⟨fun w hw => ?_, fun w hw => ?_⟩, by rw [List.flatten_cons, he, List.take_append_drop]⟩
    · rcases List.mem_cons.mp hw with rfl | hw
      · exact ⟨fun h => by rw [h] at hlen; simp at hlen; omega, by omega⟩
      · exact hV.1 w hw
    · cases V with
      | nil => simp at hw
      | cons a b =>
        rw [List.dropLast_cons_cons] at hw
        rcases List.mem_cons.mp hw with rfl | hw
        · exact hlen
        · exact hV.2 w hw

/-- A session that writes nothing and one that writes an empty buffer end the same way. -/
theorem StreamOf.empty_write {F : FloatOps} {o : Options} {bt : BlockType} {fmt : Format} {stream : List UInt8}
    (h : StreamOf F o bt fmt [] stream) : StreamOf F o bt fmt [[]] stream := by
  obtain ⟨cs, c, cs', h1, h2, h3⟩ := h.core
  rw [coreWrites] at h1
  cases h1
  refine ⟨[], { DCore.new with haveChunk := true }, cs', ?_, h2, h3⟩
  rw [coreWrites, DCore.write, if_neg (by simp [DCore.new]), some_bind]
  simp [coreWrites, DCore.setChunk, DCore.new]

/-- **C49** The output of `compress` with a reader of any kind is determined by the pieces it cuts the data into: it is
what an encoder produces that is given these pieces by any sequence of `write` and `flush` calls.  A piece ends within the
last 8192 bytes of a buffer of 1,000,000 bytes, and exactly at its end if the reader always fills the buffer it is given. -/
theorem C49_pieces (hlog : Log2Ok log2) (o : Options) (fmt : Format) {ρ : Type} {R : Reader ρ} {J : ρ → Prop} {data : ρ → List UInt8}
    {res : Except ErrKind Unit} {patienceR : ρ → Nat} (hR : Delivers R J data res patienceR) (r : ρ) (hr : J r) :
    ∃ pieces : List (List UInt8), pieces.flatten = data r ∧
      (∀ w ∈ pieces, w ≠ [] ∧ w.length ≤ 1000000) ∧ (∀ w ∈ pieces.dropLast, 1000000 - 8192 < w.length) ∧
      (FullReads R J data → CutEvery 1000000 pieces) ∧
      ∃ stream, decode fmt stream = some (data r) ∧
        ∀ (σ : Type) (S : Sink σ) (I : σ → Prop) (log : σ → List UInt8) (patience : σ → Nat), Reliable S I log patience → ∀ s, I s →
          (∃ s', compress (ieee log2) S R o fmt r s = some (res, s') ∧ log s' = log s ++ stream) ∧
          ∀ calls ending, writesOf calls = pieces →
            ∃ s', session ⟨ieee log2, S, o, .dynamic⟩ fmt calls ending s = some (.ok (), s') ∧ log s' = log s ++ stream := by
  obtain ⟨W, stream, h1, h2, h3, ⟨h4, h5, h6⟩, h7⟩ := compress_plan (ieeeLaws hlog) R hR o fmt hr
  refine ⟨W, h3, h4, h5, fun hf => ⟨h4, h6 hf⟩, stream, by rw [h1.decode (ieeeLaws hlog) h2, h3], ?_⟩
  intro σ S I log patience hS s hs
  refine ⟨?_, ?_⟩
  · obtain ⟨s', g1, g2, -⟩ := (h7 σ S s).1 I log patience hS hs
    exact ⟨s', g1, g2⟩
  · intro calls ending hc
    obtain ⟨s', g1, g2, -⟩ := session_reliable ⟨ieee log2, S, o, .dynamic⟩ hS fmt calls ending hs (by rw [hc]; exact h1)
    exact ⟨s', g1, g2⟩

/-- **C49** Data of at most 991,808 bytes has one compressed form per format and options: `compress` produces it however
the reader — a file, a socket, a slice, a buffered reader — fragments the data and whatever sink it writes to, and so does
an encoder that is given the data in one `write`. -/
theorem C49_small (hlog : Log2Ok log2) (o : Options) (fmt : Format) (d : List UInt8) (hd : d.length ≤ 1000000 - 8192) :
    ∃ stream, decode fmt stream = some d ∧
      ∀ (σ : Type) (S : Sink σ) (I : σ → Prop) (log : σ → List UInt8) (patience : σ → Nat), Reliable S I log patience → ∀ s, I s →
        (∃ s', session ⟨ieee log2, S, o, .dynamic⟩ fmt [.write d] .finish s = some (.ok (), s') ∧ log s' = log s ++ stream) ∧
        (∀ (ρ : Type) (R : Reader ρ) (J : ρ → Prop) (data : ρ → List UInt8) (res : Except ErrKind Unit) (patienceR : ρ → Nat),
          Delivers R J data res patienceR → ∀ r, J r → data r = d →
            ∃ s', compress (ieee log2) S R o fmt r s = some (res, s') ∧ log s' = log s ++ stream) ∧
        (∀ (ρ : Type) (src : Source ρ) (J : ρ → Prop) (data : ρ → List UInt8) (res : Except ErrKind Unit) (patienceR : ρ → Nat),
          Supplies src J data res patienceR → ∀ r, J r → data r = d →
            ∃ s', compressFrom (ieee log2) S src o fmt r s = some (res, s') ∧ log s' = log s ++ stream) := by
  have hfit : ∀ w ∈ writesOf (pendingWrite d), w.length < (ieeeLaws hlog).lim := by
    intro w hw
    rw [ieeeLaws_lim]
    unfold pendingWrite at hw
    split at hw
    · simp [writesOf] at hw
    · simp only [writesOf, List.mem_singleton] at hw
      subst hw
      exact Nat.lt_of_le_of_lt hd (by decide)
  obtain ⟨stream, -, -, h1, -, -⟩ := streamOf_exists (ieeeLaws hlog) o .dynamic fmt (writesOf (pendingWrite d)) hfit
  have hflat : (writesOf (pendingWrite d)).flatten = d := by
    unfold pendingWrite
    split
    · next h => rw [h]; rfl
    · simp [writesOf]
  refine ⟨stream, by rw [h1.decode (ieeeLaws hlog) hfit, hflat], ?_⟩
  intro σ S I log patience hS s hs
  refine ⟨?_, ?_, ?_⟩
  · have h2 : StreamOf (ieee log2) o .dynamic fmt [d] stream := by
      by_cases h0 : d = []
      · subst h0
        exact h1.empty_write
      · simpa [pendingWrite, h0, writesOf] using h1
    obtain ⟨s', g1, g2, -⟩ := session_reliable ⟨ieee log2, S, o, .dynamic⟩ hS fmt [.write d] .finish hs h2
    exact ⟨s', g1, g2⟩
  · intro ρ R J data res patienceR hR r hr hrd
    obtain ⟨W, stream', g1, g2, g3, ⟨g4, g5, -⟩, g6⟩ := compress_plan (ieeeLaws hlog) R hR o fmt hr
    rw [hrd] at g3
    have hW : W = writesOf (pendingWrite d) := by
      cases W with
      | nil =>
        rw [List.flatten_nil] at g3
        rw [← g3]
        rfl
      | cons w l =>
        have hw := (g4 w (by simp)).1
        cases l with
        | nil =>
          rw [List.flatten_cons, List.flatten_nil, List.append_nil] at g3
          subst g3
          rw [pendingWrite, if_neg hw]
          rfl
        | cons w' l =>
          have h5 := g5 w (by simp)
          have hl := congrArg List.length g3
          rw [List.flatten_cons, List.length_append] at hl
          omega
    subst hW
    obtain rfl := h1.unique g1
    obtain ⟨s', k1, k2, -⟩ := (g6 σ S s).1 I log patience hS hs
    exact ⟨s', k1, k2⟩
  · intro ρ src J data res patienceR hR r hr hrd
    obtain ⟨fs, g1, g2, g3⟩ := compressFrom_eq hR r hr
    rw [hrd] at g1
    have hj : coalesce MASTER_BLOCK_SIZE [] (fs.map .write) = pendingWrite d := by
      have := coalesce_small (fs.map .write) [] (by intro c hc; obtain ⟨w, -, rfl⟩ := List.mem_map.mp hc; exact ⟨w, rfl⟩) (by
          rw [writesOf_map, g1, List.length_nil, Nat.zero_add]
          exact Nat.le_trans hd (by decide))
      rw [this, writesOf_map, g1, List.nil_append]
    obtain ⟨s', k1, k2, -⟩ := session_reliable ⟨ieee log2, S, o, .dynamic⟩ hS fmt _ (endingOf res) hs h1
    refine ⟨s', ?_, k2⟩
    rw [g3, bufferedSession_ok _ fmt (fs.map .write) (endingOf res) (by rw [hj]; exact k1)]
    rfl

/-- **C49** Also when nothing is known of the sink: if `compress` reports success, the sink has accepted exactly the one
compressed form of the data. -/
theorem C49_small_any_sink (hlog : Log2Ok log2) (o : Options) (fmt : Format) (d : List UInt8) (hd : d.length ≤ 1000000 - 8192) :
    ∃ stream, (∃ s', session ⟨ieee log2, vecSink, o, .dynamic⟩ fmt [.write d] .finish [] = some (.ok (), s') ∧ s' = stream) ∧
      ∀ (σ : Type) (S : Sink σ) (s : σ) (ρ : Type) (R : Reader ρ) (J : ρ → Prop) (data : ρ → List UInt8) (res : Except ErrKind Unit) (patienceR : ρ → Nat),
        Delivers R J data res patienceR → ∀ r, J r → data r = d →
          ∀ t, compress (ieee log2) (spy S) R o fmt r ⟨s, [], none⟩ = some (.ok (), t) → t.failed = none ∧ t.log = stream := by
  obtain ⟨stream, -, h⟩ := C49_small hlog o fmt d hd
  obtain ⟨s0, a1, a2⟩ := (h _ _ _ _ _ vecSink_reliable [] trivial).1
  refine ⟨stream, ⟨s0, a1, by simpa using a2⟩, ?_⟩
  intro σ S s ρ R J data res patienceR hR r hr hrd t ht
  obtain ⟨W, stream', g1, g2, g3, -, g6⟩ := compress_plan (ieeeLaws hlog) R hR o fmt hr
  obtain ⟨s1, b1, b2⟩ := (h _ _ _ _ _ vecSink_reliable [] trivial).2.1 ρ R J data res patienceR hR r hr hrd
  obtain ⟨s2, c1, c2, -⟩ := (g6 _ vecSink []).1 _ _ _ vecSink_reliable trivial
  rw [b1] at c1
  cases c1
  have he : stream = stream' := by
    rw [b2] at c2
    simpa using c2
  obtain ⟨k1, k2⟩ := (g6 _ (spy S) ⟨s, [], none⟩).2 _ _ (spy_recorded S) rfl _ ht
  have hf : t.failed = none := by
    cases hf : t.failed with
    | none => rfl
    | some k =>
      rcases (k2 k hf).1 with h | ⟨k', -, h⟩ <;> cases h
  refine ⟨hf, ?_⟩
  have := (k1 hf).2
  rw [he]
  simpa using this

/-- **C49** Data of any size has one compressed form per format and options among all readers that fill the buffer they
are given as long as they have enough data, as files do: the one an encoder produces that is given the data in pieces of
1,000,000 bytes. -/
theorem C49_full_reads (hlog : Log2Ok log2) (o : Options) (fmt : Format) (d : List UInt8) :
    ∃ stream, decode fmt stream = some d ∧
      ∀ (σ : Type) (S : Sink σ) (I : σ → Prop) (log : σ → List UInt8) (patience : σ → Nat), Reliable S I log patience → ∀ s, I s →
        (∀ (calls : List Call) (ending : Ending), CutEvery 1000000 (writesOf calls) → (writesOf calls).flatten = d →
          ∃ s', session ⟨ieee log2, S, o, .dynamic⟩ fmt calls ending s = some (.ok (), s') ∧ log s' = log s ++ stream) ∧
        (∀ (ρ : Type) (R : Reader ρ) (J : ρ → Prop) (data : ρ → List UInt8) (res : Except ErrKind Unit) (patienceR : ρ → Nat),
          Delivers R J data res patienceR → FullReads R J data → ∀ r, J r → data r = d →
            ∃ s', compress (ieee log2) S R o fmt r s = some (res, s') ∧ log s' = log s ++ stream) := by
  obtain ⟨V, hV, rfl⟩ := CutEvery.exists (n := 1000000) (by decide) d
  have hfit : ∀ w ∈ V, w.length < (ieeeLaws hlog).lim := by
    intro w hw
    rw [ieeeLaws_lim]
    exact Nat.lt_of_le_of_lt (hV.1 w hw).2 (by decide)
  obtain ⟨stream, -, -, h1, -, -⟩ := streamOf_exists (ieeeLaws hlog) o .dynamic fmt V hfit
  refine ⟨stream, h1.decode (ieeeLaws hlog) hfit, fun σ S I log patience hS s hs => ⟨fun calls ending hc hf => ?_, fun ρ R J data res patienceR hR hfull r hr hrd => ?_⟩⟩
  · obtain ⟨s', g1, g2, -⟩ := session_reliable ⟨ieee log2, S, o, .dynamic⟩ hS fmt calls ending hs (by rw [hc.unique hV hf]; exact h1)
    exact ⟨s', g1, g2⟩
  · obtain ⟨W, stream', g1, g2, g3, ⟨g4, g5, g6⟩, g7⟩ := compress_plan (ieeeLaws hlog) R hR o fmt hr
    obtain rfl := hV.unique ⟨g4, g6 hfull⟩ (by rw [g3, hrd])
    obtain rfl := h1.unique g1
    obtain ⟨s', k1, k2, -⟩ := (g7 σ S s).1 I log patience hS hs
    exact ⟨s', k1, k2⟩

/-- **C49** The command-line program writes the same compressed file for the same content, if that is at most 991,808 bytes,
whatever the operating system does on the way: if it reports no error, the companion is what an encoder for gzip with the
default options produces for the content in one `write`. -/
theorem C49_program (hlog : Log2Ok log2) (content : List UInt8) (hd : content.length ≤ 1000000 - 8192) :
    ∃ stream, (∃ s', session ⟨ieee log2, vecSink, Options.default, .dynamic⟩ .gzip [.write content] .finish [] = some (.ok (), s') ∧ s' = stream) ∧
      ∀ (os : Os), Fair os → ∀ (f : String) (w w' : World) (c : Nat), w.disk f = some content →
        compressFile (ieee log2) os f w = some (.ok c, w') → w'.disk (f ++ ".gz") = some stream ∧ c = stream.length := by
  obtain ⟨stream, h0, h⟩ := C49_small_any_sink hlog Options.default .gzip content hd
  refine ⟨stream, h0, ?_⟩
  intro os hf f w w' c hc h1
  have hn : outName f = f ++ ".gz" := rfl
  unfold compressFile at h1
  split at h1
  · cases h1
  · cases h1
  · rename_i content' ho hc'
    rw [hc] at hc'
    cases hc'
    split at h1
    · cases h1
    · split at h1
      · cases h1
      · rw [hn] at h1
        simp only [Option.bind_eq_bind, Option.bind_eq_some_iff, Prod.exists] at h1
        obtain ⟨x, w1, count, h1, h2⟩ := h1
        cases x with
        | error k => cases h2
        | ok u =>
          cases h2
          obtain ⟨pat, hR⟩ := fileReader_delivers hf f
          obtain ⟨_, _, g2⟩ := C21_compress hlog hR Options.default .gzip (readable os f content, 0) trivial
          obtain ⟨accepted, failed, g3, g4, g5⟩ := g2 _ _ _ _ _ h1
          have inv := compress_inv (Tallied w.disk (f ++ ".gz")) (tallied_write os w.disk (f ++ ".gz")) (tallied_flush os w.disk (f ++ ".gz"))
            (by
              refine ⟨fun _ => ⟨Disk.set_same _ _ _, rfl⟩, fun x hx => Disk.set_other _ _ hx⟩) g3
          have hfail : failed = none := by
            cases failed with
            | none => rfl
            | some k =>
              rcases (g5 k rfl).1 with h | ⟨k', -, h⟩ <;> cases h
          have hx := (g4 hfail).1
          have hfault : readable os f content = content := by
            unfold readEnd at hx
            unfold readable
            rcases hff : os.fault f with _ | ⟨a, k⟩
            · rfl
            · rw [hff] at hx
              cases hx
          obtain ⟨-, j2⟩ := h _ _ _ _ _ _ _ _ _ hR (readable os f content, 0) trivial hfault _ g3
          dsimp only at j2
          obtain ⟨i1, i2⟩ := inv.1 hfail
          dsimp only at i1 i2
          exact ⟨by rw [i1, j2], by rw [i2, j2]⟩

/-! ## The hypotheses are met -/

/-- A reader of byte-sized fragments with interruptions that fails at the end, and a slice, in different sinks. -/
example : ∃ stream, Rfc.gunzip stream = some [1, 2, 3, 4, 5] ∧
    (∃ s', compress (ieee floorLog2) stutterSink (listReader 0 (.error (.other 7))) Options.default .gzip ([1, 2, 3, 4, 5], true) ([9], 1) =
      some (.error (.other 7), s') ∧ s'.1 = [9] ++ stream) ∧
    ∃ s', compressFrom (ieee floorLog2) vecSink partsSource Options.default .gzip 0 [] = some (.error (.other 7), s') ∧ s' = [] ++ stream := by
  obtain ⟨stream, h1, h2⟩ := C49_small floorLog2_ok Options.default .gzip [1, 2, 3, 4, 5] (by decide)
  exact ⟨stream, h1,
    (h2 _ _ _ _ _ stutterSink_reliable ([9], 1) trivial).2.1 _ _ _ _ _ _ (listReader_delivers 0 (.error (.other 7)) (by simp)) _ trivial rfl,
    (h2 _ _ _ _ _ vecSink_reliable [] trivial).2.2 _ _ _ _ _ _ partsSource_supplies 0 trivial rfl⟩

/-- A file that is in memory fills every buffer. -/
def memReader : Reader (List UInt8) where
  read r room := (.ok (r.take room), r.drop room)

theorem memReader_delivers : Delivers memReader (fun _ => True) id (.ok ()) (fun _ => 0) where
  not_interrupted := by simp
  read r room _ h := by
    by_cases hr : r = []
    · subst hr
      exact .inr (.inr ⟨[], by simp [memReader, Except.map], rfl⟩)
    · exact .inl ⟨_, _, rfl, by simp [List.take_eq_nil_iff, hr]; omega, by rw [List.length_take]; omega, (List.take_append_drop _ _).symm, trivial⟩

theorem memReader_full : FullReads memReader (fun _ => True) id := by
  intro r room l r' _ _ h
  cases h
  rfl

theorem cutEvery_replicate {n m : Nat} (hn : 0 < n) (hm : 0 < m) (hle : m ≤ n) (x : UInt8) :
    CutEvery n [List.replicate n x, List.replicate n x, List.replicate m x] := by
  refine ⟨fun w hw => ?_, fun w hw => ?_⟩
  · simp only [List.mem_cons, List.not_mem_nil, or_false] at hw
    rcases hw with rfl | rfl | rfl <;> simp <;> omega
  · simp only [List.dropLast_cons_cons, List.dropLast_singleton, List.mem_cons, List.not_mem_nil, or_false] at hw
    rcases hw with rfl | rfl <;> simp

/-- Two and a half million bytes, from a file or in three writes. -/
example : ∃ stream, Rfc.inflate stream = some (List.replicate 2500000 7) ∧
    (∃ s', compress (ieee floorLog2) vecSink memReader Options.default .deflate (List.replicate 2500000 7) [] = some (.ok (), s') ∧ s' = [] ++ stream) ∧
    ∃ s', session ⟨ieee floorLog2, stutterSink, Options.default, .dynamic⟩ .deflate
      [.write (List.replicate 1000000 7), .write (List.replicate 1000000 7), .flush, .write (List.replicate 500000 7)] .drop ([], 1) = some (.ok (), s') ∧ s'.1 = [] ++ stream := by
  obtain ⟨stream, h1, h2⟩ := C49_full_reads floorLog2_ok Options.default .deflate (List.replicate 2500000 7)
  refine ⟨stream, h1, (h2 _ _ _ _ _ vecSink_reliable [] trivial).2 _ _ _ _ _ _ memReader_delivers memReader_full _ trivial rfl,
    (h2 _ _ _ _ _ stutterSink_reliable ([], 1) trivial).1 _ .drop (cutEvery_replicate (by decide) (by decide) (by decide) 7) ?_⟩
  have : ∀ a b c d : Nat, d = a + b + c → ([List.replicate a 7, List.replicate b 7, List.replicate c 7] : List (List UInt8)).flatten = List.replicate d 7 := by
    intro a b c d h
    subst h
    simp [Nat.add_assoc]
  exact this _ _ _ _ (by norm_num)

end Zopfli
