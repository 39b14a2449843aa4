import Verif.Proofs.Main
/-!
# C46: the command-line program

`Compressed d args d'` (Verif/Spec/Main.lean) says what the program is for.  The operating system is any `Os`.
-/

namespace Zopfli

variable {log2 : Fp → Fp} {os : Os}

/-- **C46** The wrapper that counts the bytes written changes nothing else, for `compress` and for any session. -/
theorem C46_statistics_transparent {σ ρ : Type} (F : FloatOps) (S : Sink σ) (R : Reader ρ) (o : Options) (fmt : Format) (r : ρ) (s : σ) (n : Nat) :
    compress F S R o fmt r s = (compress F (writeStatistics S) R o fmt r (s, n)).map (fun x => (x.1, x.2.1)) ∧
    ∀ bt calls ending, session ⟨F, S, o, bt⟩ fmt calls ending s =
      (session ⟨F, writeStatistics S, o, bt⟩ fmt calls ending (s, n)).map (fun x => (x.1, x.2.1)) :=
  ⟨(writeStatistics_hom S).compress R fmt r (s, n), fun _ calls ending => (writeStatistics_hom S).session fmt calls ending (s, n)⟩

/-- One file, whatever happens. -/
theorem compressFile_spec (hlog : Log2Ok log2) (hf : Fair os) {f : String} {w w' : World} {r : Except Failure Nat}
    (h : compressFile (ieee log2) os f w = some (r, w')) :
    (∀ c, r = .ok c → ∃ content stream, w.disk f = some content ∧ Rfc.gunzip stream = some content ∧
      w'.disk = w.disk.set (f ++ ".gz") stream ∧ c = stream.length) ∧
    ∀ e, r = .error e → (∃ k, e = .couldNotWrite (f ++ ".gz") k ∧ w.disk f ≠ none ∧ ∀ x, x ≠ f ++ ".gz" → w'.disk x = w.disk x) ∨
      (((∃ k, e = .couldNotOpen f k) ∨ (∃ k, e = .noMetadata f k) ∨ ∃ k, e = .couldNotCreate (f ++ ".gz") k) ∧ w' = w) := by
  have hn : outName f = f ++ ".gz" := rfl
  unfold compressFile at h
  split at h
  · cases h
    exact ⟨fun c hc => (by cases hc), fun e he => by cases he; exact .inr ⟨.inl ⟨_, rfl⟩, rfl⟩⟩
  · cases h
    exact ⟨fun c hc => (by cases hc), fun e he => by cases he; exact .inr ⟨.inl ⟨_, rfl⟩, rfl⟩⟩
  · rename_i content ho hc
    split at h
    · cases h
      exact ⟨fun c hc => (by cases hc), fun e he => by cases he; exact .inr ⟨.inr (.inl ⟨_, rfl⟩), rfl⟩⟩
    · split at h
      · cases h
        exact ⟨fun c hc => (by cases hc), fun e he => by cases he; exact .inr ⟨.inr (.inr ⟨_, rfl⟩), rfl⟩⟩
      · rw [hn] at h
        simp only [Option.bind_eq_bind, Option.bind_eq_some_iff, Prod.exists] at h
        obtain ⟨x, w1, count, h1, h2⟩ := h
        obtain ⟨pat, hR⟩ := fileReader_delivers hf f
        obtain ⟨stream, g1, g2⟩ := C21_compress hlog hR Options.default .gzip (readable os f content, 0) trivial
        obtain ⟨accepted, failed, g3, g4, g5⟩ := g2 _ _ _ _ _ h1
        have inv := compress_inv (Tallied w.disk (f ++ ".gz")) (tallied_write os w.disk (f ++ ".gz")) (tallied_flush os w.disk (f ++ ".gz"))
          (by
            refine ⟨fun _ => ⟨Disk.set_same _ _ _, rfl⟩, fun x hx => Disk.set_other _ _ hx⟩) g3
        cases x with
        | error k =>
          cases h2
          refine ⟨fun c hc => (by cases hc), fun e he => ?_⟩
          cases he
          exact .inl ⟨k, rfl, by simp [hc], inv.2⟩
        | ok u =>
          cases h2
          refine ⟨fun c hcc => ?_, fun e he => by cases he⟩
          cases hcc
          have hfail : failed = none := by
            cases failed with
            | none => rfl
            | some k =>
              rcases (g5 k rfl).1 with h | ⟨k', -, h⟩ <;> cases h
          obtain ⟨hx, hacc⟩ := g4 hfail
          obtain ⟨i1, i2⟩ := inv.1 hfail
          dsimp only at i1 i2
          have hfault : readable os f content = content := by
            unfold readEnd at hx
            unfold readable
            rcases hff : os.fault f with _ | ⟨a, k⟩
            · rfl
            · rw [hff] at hx
              cases hx
          rw [hfault] at g1
          refine ⟨content, stream, hc, g1, ?_, by rw [i2, hacc]⟩
          funext y
          by_cases hy : y = f ++ ".gz"
          · rw [hy, i1, Disk.set_same, hacc]
          · rw [inv.2 y hy, Disk.set_other _ _ hy]

/-- **C46** If the program ends without an error message then all the files have been compressed, whatever the operating
system did on the way. -/
theorem C46_success (hlog : Log2Ok log2) (hf : Fair os) : ∀ (args : List String) (w w' : World),
    main (ieee log2) os args w = some (.ok (), w') → Compressed w.disk args w'.disk
  | [], w, w', h => by cases h; exact .nil _
  | f :: args, w, w', h => by
    rw [main] at h
    simp only [Option.bind_eq_bind, Option.bind_eq_some_iff, Prod.exists] at h
    obtain ⟨r, w1, h1, h2⟩ := h
    cases r with
    | error e => cases h2
    | ok c =>
      obtain ⟨content, stream, g1, g2, g3, -⟩ := (compressFile_spec hlog hf h1).1 c rfl
      have := C46_success hlog hf args w1 w' h2
      rw [g3] at this
      exact .cons g1 g2 this

/-- **C46** If it ends with an error message, that is about the first file that made a problem: the files before it have
been compressed, and of the rest of the disk nothing has changed, except perhaps the companion of that file (if the
trouble came up while writing it). -/
theorem C46_failure (hlog : Log2Ok log2) (hf : Fair os) : ∀ (args : List String) (w w' : World) (e : Failure),
    main (ieee log2) os args w = some (.error e, w') →
    ∃ done f rest d, args = done ++ f :: rest ∧ Compressed w.disk done d ∧
      ((∃ k, e = .couldNotWrite (f ++ ".gz") k ∧ d f ≠ none ∧ ∀ x, x ≠ f ++ ".gz" → w'.disk x = d x) ∨
       (((∃ k, e = .couldNotOpen f k) ∨ (∃ k, e = .noMetadata f k) ∨ ∃ k, e = .couldNotCreate (f ++ ".gz") k) ∧ w'.disk = d))
  | [], w, w', e, h => by cases h
  | f :: args, w, w', e, h => by
    rw [main] at h
    simp only [Option.bind_eq_bind, Option.bind_eq_some_iff, Prod.exists] at h
    obtain ⟨r, w1, h1, h2⟩ := h
    cases r with
    | error e' =>
      cases h2
      refine ⟨[], f, args, w.disk, rfl, .nil _, ?_⟩
      rcases (compressFile_spec hlog hf h1).2 e rfl with g | ⟨g1, g2⟩
      · exact .inl g
      · exact .inr ⟨g1, by rw [g2]⟩
    | ok c =>
      obtain ⟨content, stream, g1, g2, g3, -⟩ := (compressFile_spec hlog hf h1).1 c rfl
      obtain ⟨done, f', rest, d, i1, i2, i3⟩ := C46_failure hlog hf args w1 w' e h2
      rw [g3] at i2
      exact ⟨f :: done, f', rest, d, by rw [i1, List.cons_append], .cons g1 g2 i2, i3⟩

/-- **C46** The counter shows the size of the compressed file. -/
theorem C46_count (hlog : Log2Ok log2) (hf : Fair os) {f : String} {w w' : World} {c : Nat}
    (h : compressFile (ieee log2) os f w = some (.ok c, w')) :
    ∃ content stream, w.disk f = some content ∧ w'.disk (f ++ ".gz") = some stream ∧ Rfc.gunzip stream = some content ∧ stream.length = c := by
  obtain ⟨content, stream, g1, g2, g3, g4⟩ := (compressFile_spec hlog hf h).1 c rfl
  exact ⟨content, stream, g1, by rw [g3, Disk.set_same], g2, g4.symm⟩

/-- **C46** What this means if no file to be compressed is the companion of another one: the companion of every file
decompresses to what is, and was, in the file, and no file but the companions has changed. -/
theorem C46_files (args : List String) (d d' : Disk) (h : Compressed d args d') (hsep : ∀ f ∈ args, ∀ g ∈ args, f ≠ g ++ ".gz") :
    (∀ x, (∀ f ∈ args, x ≠ f ++ ".gz") → d' x = d x) ∧
    ∀ f ∈ args, d' f = d f ∧ ∃ content stream, d f = some content ∧ d' (f ++ ".gz") = some stream ∧ Rfc.gunzip stream = some content := by
  have key : (∀ x, (∀ f ∈ args, x ≠ f ++ ".gz") → d' x = d x) ∧
      ∀ f ∈ args, ∃ content stream, d f = some content ∧ d' (f ++ ".gz") = some stream ∧ Rfc.gunzip stream = some content := by
    induction h with
    | nil d => exact ⟨fun _ _ => rfl, fun f hf => by cases hf⟩
    | @cons d d' f args content stream h1 h2 h3 ih =>
      obtain ⟨i1, i2⟩ := ih fun a ha b hb => hsep a (.tail _ ha) b (.tail _ hb)
      refine ⟨?_, ?_⟩
      · intro x hx
        rw [i1 x fun g hg => hx g (.tail _ hg), Disk.set_other _ _ (hx f (.head _))]
      · intro g hg
        by_cases hin : g ∈ args
        · obtain ⟨c, s, j1, j2, j3⟩ := i2 g hin
          rw [Disk.set_other _ _ (hsep g hg f (.head _))] at j1
          exact ⟨c, s, j1, j2, j3⟩
        · rcases List.mem_cons.1 hg with rfl | hg
          · refine ⟨content, stream, h1, ?_, h2⟩
            rw [i1 (g ++ ".gz"), Disk.set_same]
            intro a ha hne
            rw [String.append_left_inj] at hne
            exact hin (hne ▸ ha)
          · exact absurd hg hin
  refine ⟨key.1, fun f hf => ⟨key.1 f fun g hg => hsep f hf g hg, key.2 f hf⟩⟩

/-- One file, on a disk on which writing does not fail: a complete gzip file for what can be read, also when the program
then complains that the rest could not be read. -/
theorem compressFile_smooth (hlog : Log2Ok log2) (hf : Fair os) (hs : Smooth os) {f : String} {content : List UInt8} {w : World}
    (hc : w.disk f = some content) :
    ∃ r w' stream, compressFile (ieee log2) os f w = some (r, w') ∧ Rfc.gunzip stream = some (readable os f content) ∧
      w'.disk = w.disk.set (f ++ ".gz") stream ∧
      (os.fault f = none → ∃ c, r = .ok c) ∧ ∀ n k, os.fault f = some (n, k) → r = .error (.couldNotWrite (f ++ ".gz") k) := by
  have hn : outName f = f ++ ".gz" := rfl
  obtain ⟨pat, hR⟩ := fileReader_delivers hf f
  obtain ⟨patS, hS⟩ := fileSink_reliable hf hs (f ++ ".gz")
  obtain ⟨s', stream, g1, g2, g3⟩ := C04_C34_compress hlog hS hR Options.default .gzip (readable os f content, 0) trivial
    (⟨w.disk.set (f ++ ".gz") [], w.time⟩, 0) (by dsimp only; rw [Disk.set_same]; simp)
  have inv := compress_inv (fun s : World × Nat => s.1.disk (f ++ ".gz") ≠ none ∧ ∀ x, x ≠ f ++ ".gz" → s.1.disk x = w.disk x)
    (by
      intro s b hI
      refine ⟨?_, ?_⟩
      · by_cases hb : b = []
        · simp only [writeStatistics, fileSink]
          split
          · dsimp only
            split
            · dsimp only
              rw [Disk.set_same]
              simp
            · exact hI.1
          · split
            · dsimp only
              rw [Disk.set_same]
              simp
            · exact hI.1
        · rcases hS.write s b hI.1 hb with ⟨n, t, h1, -, -, -, h5⟩ | ⟨t, h1, -, -, h4⟩
          · rw [h1]; exact h5
          · rw [h1]; exact h4
      · intro x hx
        have e2 := (writeStatistics_hom (fileSink os (f ++ ".gz"))).wr s b
        have e3 := congrArg Prod.snd e2
        dsimp only at e3
        rw [← e3, (fileSink_other os hx _ _).1, hI.2 x hx])
    (by
      intro s hI
      refine ⟨?_, ?_⟩
      · obtain ⟨t, h1, -, h3⟩ := hS.flush s hI.1
        rw [h1]; exact h3
      · intro x hx
        have e2 := (writeStatistics_hom (fileSink os (f ++ ".gz"))).fl s
        have e3 := congrArg Prod.snd e2
        dsimp only at e3
        rw [← e3, (fileSink_other os hx _ []).2, hI.2 x hx])
    (by
      refine ⟨?_, fun x hx => Disk.set_other _ _ hx⟩
      dsimp only
      rw [Disk.set_same]
      simp) g1
  have hdisk : s'.1.disk = w.disk.set (f ++ ".gz") stream := by
    funext y
    by_cases hy : y = f ++ ".gz"
    · rw [hy, Disk.set_same]
      dsimp only at g2
      rw [Disk.set_same] at g2
      cases hd : s'.1.disk (f ++ ".gz") with
      | none => exact absurd hd inv.1
      | some l => rw [hd] at g2; simpa using g2
    · rw [inv.2 y hy, Disk.set_other _ _ hy]
  obtain ⟨w', c⟩ := s'
  unfold compressFile
  rw [hs.openFile, hc, hs.metadata, hs.createFile, hn]
  dsimp only
  rw [g1]
  unfold readEnd
  rcases hff : os.fault f with _ | ⟨n, k⟩
  · exact ⟨.ok c, w', stream, rfl, g3, hdisk, fun _ => ⟨c, rfl⟩, fun _ _ h => by cases h⟩
  · exact ⟨.error (.couldNotWrite (f ++ ".gz") k), w', stream, rfl, g3, hdisk, fun h => (by cases h), fun _ _ h => by cases h; rfl⟩

/-- **C46** On a disk that makes no problems, files that exist are compressed and there is no error message. -/
theorem C46_compresses (hlog : Log2Ok log2) (hf : Fair os) (hs : Smooth os) (hnf : ∀ name, os.fault name = none) :
    ∀ (args : List String) (w : World), (∀ f ∈ args, w.disk f ≠ none) →
      ∃ w', main (ieee log2) os args w = some (.ok (), w') ∧ Compressed w.disk args w'.disk
  | [], w, _ => ⟨w, rfl, .nil _⟩
  | f :: args, w, h => by
    cases hc : w.disk f with
    | none => exact absurd hc (h f (.head _))
    | some content =>
      obtain ⟨r, w1, stream, g1, g2, g3, g4, -⟩ := compressFile_smooth hlog hf hs hc
      obtain ⟨c, rfl⟩ := g4 (hnf f)
      obtain ⟨w', i1, i2⟩ := C46_compresses hlog hf hs hnf args w1 (by
        intro x hx
        rw [g3]
        by_cases he : x = f ++ ".gz"
        · rw [he, Disk.set_same]; simp
        · rw [Disk.set_other _ _ he]; exact h x (.tail _ hx))
      refine ⟨w', ?_, ?_⟩
      · rw [main, g1]
        exact i1
      · rw [g3] at i2
        have hr : readable os f content = content := by unfold readable; rw [hnf f]
        rw [hr] at g2
        exact .cons hc g2 i2

/-- **C46** A file that can be read only up to some offset: the program complains, but leaves a valid gzip file of the part
it could read. -/
theorem C46_unreadable (hlog : Log2Ok log2) (hf : Fair os) (hs : Smooth os) {f : String} {content : List UInt8} {w : World}
    (hc : w.disk f = some content) {n : Nat} {k : ErrKind} (hk : os.fault f = some (n, k)) (rest : List String) :
    ∃ w' stream, main (ieee log2) os (f :: rest) w = some (.error (.couldNotWrite (f ++ ".gz") k), w') ∧
      Rfc.gunzip stream = some (content.take n) ∧ w'.disk = w.disk.set (f ++ ".gz") stream := by
  obtain ⟨r, w1, stream, g1, g2, g3, -, g5⟩ := compressFile_smooth hlog hf hs hc
  rw [g5 n k hk] at g1
  refine ⟨w1, stream, ?_, ?_, g3⟩
  · rw [main, g1]
    rfl
  · have hr : readable os f content = content.take n := by unfold readable; rw [hk]
    rw [← hr]
    exact g2

/-- **C46** The program always ends, with an error message or without: there is no other panic and no endless loop. -/
theorem C46_no_panic (hlog : Log2Ok log2) (hf : Fair os) : ∀ (args : List String) (w : World),
    ∃ r w', main (ieee log2) os args w = some (r, w')
  | [], w => ⟨_, _, rfl⟩
  | f :: args, w => by
    have key : ∃ r w', compressFile (ieee log2) os f w = some (r, w') := by
      unfold compressFile
      split
      · exact ⟨_, _, rfl⟩
      · exact ⟨_, _, rfl⟩
      · rename_i content _ _
        split
        · exact ⟨_, _, rfl⟩
        · split
          · exact ⟨_, _, rfl⟩
          · obtain ⟨pat, hR⟩ := fileReader_delivers hf f
            obtain ⟨patS, hS⟩ := fileSink_honest hf (outName f)
            obtain ⟨x, s', h⟩ := C05_compress_no_panic_failing hlog hS hR Options.default .gzip (readable os f content, 0) trivial
              (⟨w.disk.set (outName f) [], w.time⟩, 0) trivial
            dsimp only
            rw [h]
            cases x <;> exact ⟨_, _, rfl⟩
    obtain ⟨r, w1, h⟩ := key
    rw [main, h]
    cases r with
    | error e => exact ⟨_, _, rfl⟩
    | ok c => exact C46_no_panic hlog hf args w1

/-! ## Concrete cases -/

theorem Compressed.one {d d' : Disk} {f : String} (h : Compressed d [f] d') :
    ∃ content stream, d f = some content ∧ Rfc.gunzip stream = some content ∧ d' = d.set (f ++ ".gz") stream := by
  cases h with
  | cons h1 h2 h3 =>
    generalize hx : Disk.set _ _ _ = x at h3
    cases h3
    exact ⟨_, _, h1, h2, hx.symm⟩

/-- An operating system that takes three bytes at a time, interrupts every other call, and finds a bad spot at offset 4 of
the file `bad`. -/
def exampleOs : Os where
  openFile _ _ := none
  metadata _ _ := none
  createFile _ _ := none
  writeFile w _ _ := if w.time % 2 = 0 then .error .interrupted else .ok 3
  flushFile _ _ := none
  readFile _ t := if t % 2 = 0 then none else some 1
  fault name := if name = "bad" then some (4, .other 5) else none

theorem exampleOs_fair : Fair exampleOs where
  read name t := by
    refine ⟨2 * t + 1, by omega, ?_⟩
    simp only [exampleOs, if_neg (show ¬ (2 * t + 1) % 2 = 0 by omega)]
    simp
  fault name n k h := by
    simp only [exampleOs] at h
    split at h
    · cases h; simp
    · cases h
  write t := by
    refine ⟨2 * t + 1, by omega, ?_⟩
    intro w name len h
    simp only [exampleOs, h, if_neg (show ¬ (2 * t + 1) % 2 = 0 by omega)]
    simp

theorem exampleOs_smooth : Smooth exampleOs where
  openFile _ _ := rfl
  metadata _ _ := rfl
  createFile _ _ := rfl
  flushFile _ _ := rfl
  writeFile w name len h := by
    simp only [exampleOs]
    split
    · exact .inl rfl
    · exact .inr ⟨2, rfl⟩

/-- A disk with two files. -/
def exampleDisk : Disk := fun name => if name = "a" then some [1, 2, 3] else if name = "bad" then some [7, 7, 7, 7, 7, 7] else none

example : ∃ w' stream, main (ieee floorLog2) { exampleOs with fault := fun _ => none } ["a", "a.gz"] ⟨exampleDisk, 0⟩ = some (.ok (), w') ∧
    w'.disk "a.gz" = some stream ∧ Rfc.gunzip stream = some [1, 2, 3] ∧ ∃ stream2, w'.disk "a.gz.gz" = some stream2 ∧ Rfc.gunzip stream2 = some stream := by
  have hf : Fair { exampleOs with fault := fun _ => none } := ⟨exampleOs_fair.read, fun _ _ _ h => by simp at h, exampleOs_fair.write⟩
  have hs : Smooth { exampleOs with fault := fun _ => none } :=
    ⟨fun _ _ => rfl, fun _ _ => rfl, fun _ _ => rfl, fun _ _ => rfl, exampleOs_smooth.writeFile⟩
  have h0 := C46_compresses floorLog2_ok hf hs (fun _ => rfl) ["a"] ⟨exampleDisk, 0⟩ (by simp [exampleDisk])
  obtain ⟨w1, a1, a2⟩ := h0
  obtain ⟨content, stream, h1, h2, hd⟩ := a2.one
  have hw1 : w1.disk "a.gz" = some stream := by rw [hd]; rfl
  obtain ⟨w2, b1, b2⟩ := C46_compresses floorLog2_ok hf hs (fun _ => rfl) ["a.gz"] w1 (by simp [hw1])
  obtain ⟨content', stream', g1, g2, hd2⟩ := b2.one
  rw [hw1] at g1
  cases g1
  cases h1
  refine ⟨w2, stream, ?_, ?_, h2, stream', ?_, g2⟩
  · rw [main] at a1 ⊢
    simp only [Option.bind_eq_bind, Option.bind_eq_some_iff, Prod.exists] at a1
    obtain ⟨r, w3, c1, c2⟩ := a1
    rw [c1]
    cases r with
    | error e => cases c2
    | ok c => cases c2; exact b1
  · rw [hd2, Disk.set_other _ _ (by decide), hw1]
  · rw [hd2]; rfl

example : ∃ w' stream, main (ieee floorLog2) exampleOs ["bad", "a"] ⟨exampleDisk, 0⟩ = some (.error (.couldNotWrite "bad.gz" (.other 5)), w') ∧
    Rfc.gunzip stream = some [7, 7, 7, 7] ∧ w'.disk = exampleDisk.set "bad.gz" stream :=
  C46_unreadable floorLog2_ok exampleOs_fair exampleOs_smooth (f := "bad") (w := ⟨exampleDisk, 0⟩) (content := [7, 7, 7, 7, 7, 7]) rfl (n := 4) (k := .other 5) rfl ["a"]

/-- A missing file. -/
example : main (ieee floorLog2) exampleOs ["nothing", "a"] ⟨exampleDisk, 0⟩ = some (.error (.couldNotOpen "nothing" notFound), ⟨exampleDisk, 0⟩) := rfl

end Zopfli
