import Verif.Proofs.CompressMain
import Verif.Proofs.Ieee
/-!
# C01-C05, C22, C23, C26, C34, C35: streams are lossless, for every reliable sink and every schedule

Floating point is Rust's (`ieee log2`, IEEE 754 with the platform's base-2 logarithm `log2`).  A single buffer passed to
`write` has fewer than `2^47` bytes (the user address space of x86-64 and AArch64); their number and total length are
unbounded.
-/

namespace Zopfli

variable {log2 : Fp → Fp} {σ : Type} {S : Sink σ} {I : σ → Prop} {log : σ → List UInt8} {patience : σ → Nat}

/-- **C01, C05** A session on a `DeflateEncoder` with a sink that does not fail returns (it neither panics nor hangs),
reports success, and adds to the sink a byte string that is exactly one DEFLATE stream and inflates to the concatenation
of the written buffers. -/
theorem C01_deflate_roundtrip (hlog : Log2Ok log2) (hS : Reliable S I log patience) (o : Options) (bt : BlockType) (calls : List Call)
    (hfit : Fits (writesOf calls)) (s : σ) (hs : I s) :
    ∃ s' stream, session ⟨ieee log2, S, o, bt⟩ .deflate calls .finish s = some (.ok (), s') ∧ log s' = log s ++ stream ∧
      Rfc.inflate stream = some (writesOf calls).flatten := by
  obtain ⟨stream, body, blocks, h1, h2, h3⟩ := streamOf_exists (ieeeLaws hlog) o bt .deflate (writesOf calls) hfit
  obtain ⟨s', g1, g2, g3⟩ := session_reliable ⟨ieee log2, S, o, bt⟩ hS .deflate calls .finish hs h1
  exact ⟨s', stream, g1, g2, h1.decode (ieeeLaws hlog) hfit⟩

/-- **C02** The same for `GzipEncoder`: the stream is the ten header bytes, a DEFLATE stream for the data, the CRC-32 of
the data and its length modulo `2^32`, both little-endian, and nothing else. -/
theorem C02_gzip_roundtrip (hlog : Log2Ok log2) (hS : Reliable S I log patience) (o : Options) (bt : BlockType) (calls : List Call)
    (hfit : Fits (writesOf calls)) (s : σ) (hs : I s) :
    ∃ s' stream body, session ⟨ieee log2, S, o, bt⟩ .gzip calls .finish s = some (.ok (), s') ∧ log s' = log s ++ stream ∧
      Rfc.gunzip stream = some (writesOf calls).flatten ∧
      Rfc.inflate body = some (writesOf calls).flatten ∧
      ∃ crc isize, stream = [31, 139, 8, 0, 0, 0, 0, 0, 2, 3] ++ body ++ (crc ++ isize) ∧
        Rfc.le32? crc = some (Rfc.crc32 (writesOf calls).flatten).toNat ∧
        Rfc.le32? isize = some ((writesOf calls).flatten.length % 2 ^ 32) := by
  obtain ⟨stream, body, blocks, h1, h2, h3⟩ := streamOf_exists (ieeeLaws hlog) o bt .gzip (writesOf calls) hfit
  obtain ⟨s', g1, g2, g3⟩ := session_reliable ⟨ieee log2, S, o, bt⟩ hS .gzip calls .finish hs h1
  refine ⟨s', stream, body, g1, g2, h1.decode (ieeeLaws hlog) hfit, h3.inflate,
    toLeBytes (crcFinalize ((writesOf calls).flatten.foldl crcUpdate 0xFFFFFFFF)), toLeBytes (UInt32.ofNat (writesOf calls).flatten.length), ?_, ?_, ?_⟩
  · rw [h2, trailer, List.flatten_cons, List.flatten_cons, List.flatten_nil, List.append_nil]
    rfl
  · rw [le32_toLeBytes, crc_eq]
  · rw [le32_toLeBytes, UInt32.toNat_ofNat']

/-- **C03** The same for `ZlibEncoder`: the stream is two header bytes (0x78, 0xDA: 32 KiB window, no dictionary, slowest
algorithm, a multiple of 31), a DEFLATE stream for the data, and the big-endian Adler-32 of the data. -/
theorem C03_zlib_roundtrip (hlog : Log2Ok log2) (hS : Reliable S I log patience) (o : Options) (bt : BlockType) (calls : List Call)
    (hfit : Fits (writesOf calls)) (s : σ) (hs : I s) :
    ∃ s' stream body, session ⟨ieee log2, S, o, bt⟩ .zlib calls .finish s = some (.ok (), s') ∧ log s' = log s ++ stream ∧
      Rfc.zlibDecode stream = some (writesOf calls).flatten ∧
      Rfc.inflate body = some (writesOf calls).flatten ∧
      ∃ adler, stream = [0x78, 0xDA] ++ body ++ adler ∧ Rfc.be32? adler = some (Rfc.adler32 (writesOf calls).flatten) := by
  obtain ⟨stream, body, blocks, h1, h2, h3⟩ := streamOf_exists (ieeeLaws hlog) o bt .zlib (writesOf calls) hfit
  obtain ⟨s', g1, g2, g3⟩ := session_reliable ⟨ieee log2, S, o, bt⟩ hS .zlib calls .finish hs h1
  refine ⟨s', stream, body, g1, g2, h1.decode (ieeeLaws hlog) hfit, h3.inflate,
    toBeBytes ((writesOf calls).flatten.foldl Adler.update .new).finish, ?_, ?_⟩
  · rw [h2, trailer, List.flatten_cons, List.flatten_nil, List.append_nil, show header .zlib = [0x78, 0xDA] by decide]
  · rw [be32_toBeBytes, adler_eq]

/-- **C04, C34** `compress` with any reader and any sink that does not fail: it returns what the reader ended with (`Ok`
at the end of the input, or the reader's error), and in either case the sink has received one complete stream of the
requested format, for exactly the bytes the reader delivered. -/
theorem C04_C34_compress (hlog : Log2Ok log2) (hS : Reliable S I log patience) {ρ : Type} {R : Reader ρ} {J : ρ → Prop}
    {data : ρ → List UInt8} {res : Except ErrKind Unit} {patienceR : ρ → Nat} (hR : Delivers R J data res patienceR)
    (o : Options) (fmt : Format) (r : ρ) (hr : J r) (s : σ) (hs : I s) :
    ∃ s' stream, compress (ieee log2) S R o fmt r s = some (res, s') ∧ log s' = log s ++ stream ∧ decode fmt stream = some (data r) := by
  obtain ⟨s', W, stream, h1, h2, h3, h4, h5, h6⟩ := compress_reliable (ieeeLaws hlog) S hS R hR o fmt hr hs
  refine ⟨s', stream, h1, h2, ?_⟩
  rw [h4.decode (ieeeLaws hlog) h5, h6]

/-- **C05** No session panics or hangs, whatever the format, data, options, calls and ending. -/
theorem C05_no_panic (hlog : Log2Ok log2) (hS : Reliable S I log patience) (o : Options) (bt : BlockType) (fmt : Format) (calls : List Call)
    (ending : Ending) (hfit : Fits (writesOf calls)) (s : σ) (hs : I s) :
    ∃ s', session ⟨ieee log2, S, o, bt⟩ fmt calls ending s = some (.ok (), s') := by
  obtain ⟨stream, body, blocks, h1, h2, h3⟩ := streamOf_exists (ieeeLaws hlog) o bt fmt (writesOf calls) hfit
  obtain ⟨s', g1, g2, g3⟩ := session_reliable ⟨ieee log2, S, o, bt⟩ hS fmt calls ending hs h1
  exact ⟨s', g1⟩

/-- **C22, C23, C26** The stream depends only on the format, the options, the block type and the written buffers: not on
how the sink cuts and interrupts the transfer (C22), not on whether the session ends with `finish` or by dropping the
encoder (C23), and not on calls to `flush` (C26). -/
theorem C22_C23_C26_same_stream (hlog : Log2Ok log2) (o : Options) (bt : BlockType) (fmt : Format) (writes : List (List UInt8)) (hfit : Fits writes) :
    ∃ stream, decode fmt stream = some writes.flatten ∧
      ∀ (σ : Type) (S : Sink σ) (I : σ → Prop) (log : σ → List UInt8) (patience : σ → Nat), Reliable S I log patience →
      ∀ (calls : List Call) (ending : Ending) (s : σ), writesOf calls = writes → I s →
        ∃ s', session ⟨ieee log2, S, o, bt⟩ fmt calls ending s = some (.ok (), s') ∧ log s' = log s ++ stream := by
  obtain ⟨stream, body, blocks, h1, h2, h3⟩ := streamOf_exists (ieeeLaws hlog) o bt fmt writes hfit
  refine ⟨stream, h1.decode (ieeeLaws hlog) hfit, ?_⟩
  intro σ S I log patience hS calls ending s hw hs
  subst hw
  obtain ⟨s', g1, g2, g3⟩ := session_reliable ⟨ieee log2, S, o, bt⟩ hS fmt calls ending hs h1
  exact ⟨s', g1, g2⟩

/-- **C23** Dropping an unfinished encoder does to the sink what `finish` does. -/
theorem C23_drop_finishes (hlog : Log2Ok log2) (hS : Reliable S I log patience) (o : Options) (bt : BlockType) (fmt : Format) (calls : List Call)
    (hfit : Fits (writesOf calls)) (s : σ) (hs : I s) :
    ∃ s1 s2, session ⟨ieee log2, S, o, bt⟩ fmt calls .finish s = some (.ok (), s1) ∧
      session ⟨ieee log2, S, o, bt⟩ fmt calls .drop s = some (.ok (), s2) ∧ log s1 = log s2 := by
  obtain ⟨stream, _, h⟩ := C22_C23_C26_same_stream hlog o bt fmt (writesOf calls) hfit
  obtain ⟨s1, a1, a2⟩ := h σ S I log patience hS calls .finish s rfl hs
  obtain ⟨s2, b1, b2⟩ := h σ S I log patience hS calls .drop s rfl hs
  exact ⟨s1, s2, a1, b1, by rw [a2, b2]⟩

/-- **C26** `flush` calls the sink's `flush` once, returns its result and touches nothing else in the sink. -/
theorem C26_flush_forwards (env : Env σ) (e : Encoder σ) (s : σ) (h : e.sink? = some s) :
    ∃ e', e.flush env = some ((env.S.flush s).1, e') ∧ e'.sink? = some (env.S.flush s).2 := by
  have key : ∀ d : DeflateEncoder σ, d.sink? = some s →
      ∃ d', d.flush env = some ((env.S.flush s).1, d') ∧ d'.sink? = some (env.S.flush s).2 := by
    intro d hd
    unfold DeflateEncoder.sink? at hd
    unfold DeflateEncoder.flush
    cases hw : d.bitwiseWriter with
    | none => rw [hw] at hd; cases hd
    | some w =>
      rw [hw] at hd
      cases hd
      exact ⟨_, rfl, rfl⟩
  cases e with
  | deflate d =>
    obtain ⟨d', h1, h2⟩ := key d h
    exact ⟨.deflate d', by simp only [Encoder.flush, h1, some_bind]; rfl, h2⟩
  | gzip g =>
    obtain ⟨d, crc, sz⟩ := g
    cases d with
    | none => cases h
    | some d =>
      obtain ⟨d', h1, h2⟩ := key d h
      exact ⟨.gzip ⟨some d', crc, sz⟩, by simp only [Encoder.flush, GzipEncoder.flush, h1, some_bind]; rfl, h2⟩
  | zlib g =>
    obtain ⟨d, ad⟩ := g
    cases d with
    | none => cases h
    | some d =>
      obtain ⟨d', h1, h2⟩ := key d h
      exact ⟨.zlib ⟨some d', ad⟩, by simp only [Encoder.flush, ZlibEncoder.flush, h1, some_bind]; rfl, h2⟩

/-- **C35** Without writes, or with empty writes only, the stream decodes to the empty string. -/
theorem C35_empty (hlog : Log2Ok log2) (hS : Reliable S I log patience) (o : Options) (bt : BlockType) (fmt : Format) (calls : List Call)
    (hempty : ∀ w ∈ writesOf calls, w = []) (s : σ) (hs : I s) :
    ∃ s' stream, session ⟨ieee log2, S, o, bt⟩ fmt calls .finish s = some (.ok (), s') ∧ log s' = log s ++ stream ∧
      decode fmt stream = some [] := by
  obtain ⟨stream, h1, h⟩ := C22_C23_C26_same_stream hlog o bt fmt (writesOf calls) (fun w hw => by rw [hempty w hw]; decide)
  obtain ⟨s1, a1, a2⟩ := h σ S I log patience hS calls .finish s rfl hs
  refine ⟨s1, stream, a1, a2, ?_⟩
  rw [h1, List.flatten_eq_nil_iff.2 hempty]

/-- **C35** Removing the empty writes from a schedule does not change what its stream decodes to. -/
theorem C35_empty_writes (hlog : Log2Ok log2) (hS : Reliable S I log patience) (o : Options) (bt : BlockType) (fmt : Format) (calls calls' : List Call)
    (hfit : Fits (writesOf calls)) (hremove : writesOf calls' = (writesOf calls).filter (· ≠ [])) (s : σ) (hs : I s) :
    ∃ s1 s2 stream1 stream2, session ⟨ieee log2, S, o, bt⟩ fmt calls .finish s = some (.ok (), s1) ∧
      session ⟨ieee log2, S, o, bt⟩ fmt calls' .finish s = some (.ok (), s2) ∧ log s1 = log s ++ stream1 ∧ log s2 = log s ++ stream2 ∧
      decode fmt stream1 = decode fmt stream2 ∧ decode fmt stream1 = some (writesOf calls).flatten := by
  obtain ⟨stream1, h1, h⟩ := C22_C23_C26_same_stream hlog o bt fmt (writesOf calls) hfit
  obtain ⟨s1, a1, a2⟩ := h σ S I log patience hS calls .finish s rfl hs
  obtain ⟨stream2, g1, g⟩ := C22_C23_C26_same_stream hlog o bt fmt (writesOf calls') (fun w hw => hfit w (by
    rw [hremove] at hw
    exact (List.mem_filter.1 hw).1))
  obtain ⟨s2, b1, b2⟩ := g σ S I log patience hS calls' .finish s rfl hs
  refine ⟨s1, s2, stream1, stream2, a1, b1, a2, b2, ?_, h1⟩
  rw [h1, g1, hremove]
  congr 1
  induction writesOf calls with
  | nil => rfl
  | cons w l ih => cases w <;> simp_all

/-! ## The hypotheses are met -/

/-- A vector is a reliable sink. -/
theorem vecSink_reliable : Reliable vecSink (fun _ => True) id (fun _ => 0) where
  write s buf _ hb := .inl ⟨buf.length, s ++ buf, rfl, by
    rw [Nat.one_le_iff_ne_zero]; simpa using hb, Nat.le_refl _, by simp, trivial⟩
  flush s _ := ⟨s, rfl, rfl, trivial⟩

/-- A sink that takes one byte at a time and interrupts twice before each of them. -/
def stutterSink : Sink (List UInt8 × Nat) where
  write s buf :=
    match s.2, buf with
    | n + 1, _ => (.error .interrupted, (s.1, n))
    | 0, [] => (.ok 0, s)
    | 0, b :: _ => (.ok 1, (s.1 ++ [b], 2))
  flush s := (.ok (), s)

theorem stutterSink_reliable : Reliable stutterSink (fun _ => True) Prod.fst Prod.snd where
  write s buf _ hb := by
    obtain ⟨l, n⟩ := s
    cases n with
    | succ n => exact .inr ⟨(l, n), rfl, rfl, Nat.lt_succ_self n, trivial⟩
    | zero =>
      cases buf with
      | nil => exact absurd rfl hb
      | cons b bs => exact .inl ⟨1, (l ++ [b], 2), rfl, Nat.le_refl _, by simp, by simp, trivial⟩
  flush s _ := ⟨s, rfl, rfl, trivial⟩

example : ∃ s' stream, session ⟨ieee floorLog2, stutterSink, Options.default, .dynamic⟩ .deflate [.write [1, 2, 3], .flush, .write [], .write [1, 2, 3]] .finish ([9], 1) =
    some (.ok (), s') ∧ s'.1 = [9] ++ stream ∧ Rfc.inflate stream = some [1, 2, 3, 1, 2, 3] :=
  C01_deflate_roundtrip floorLog2_ok stutterSink_reliable Options.default .dynamic _ (by intro w hw; simp [writesOf] at hw; rcases hw with rfl | rfl | rfl <;> decide) _ trivial

/-- A reader that delivers a list at most `k + 1` bytes at a time, interrupting before each, and then ends with `res`. -/
def listReader (k : Nat) (res : Except ErrKind Unit) : Reader (List UInt8 × Bool) where
  read r room :=
    if r.2 then (.error .interrupted, (r.1, false))
    else if r.1 = [] then (res.map fun _ => [], r)
    else (.ok (r.1.take (min (k + 1) room)), (r.1.drop (min (k + 1) room), true))

theorem listReader_delivers (k : Nat) (res : Except ErrKind Unit) (h : res ≠ .error .interrupted) :
    Delivers (listReader k res) (fun _ => True) Prod.fst res (fun r => if r.2 then 1 else 0) where
  not_interrupted := h
  read r room _ hroom := by
    obtain ⟨l, b⟩ := r
    cases b with
    | true => exact .inr (.inl ⟨(l, false), rfl, rfl, by simp, trivial⟩)
    | false =>
      by_cases hl : l = []
      · subst hl
        exact .inr (.inr ⟨([], false), rfl, rfl⟩)
      · refine .inl ⟨l.take (min (k + 1) room), (l.drop (min (k + 1) room), true), ?_, ?_, ?_, ?_, trivial⟩
        · simp [listReader, hl]
        · simp [List.take_eq_nil_iff, hl]
          omega
        · rw [List.length_take]; omega
        · exact (List.take_append_drop _ _).symm

example : ∃ s' stream, compress (ieee floorLog2) vecSink (listReader 1 (.error (.other 7))) Options.default .gzip ([1, 2, 3, 4, 5], true) [] =
    some (.error (.other 7), s') ∧ s' = [] ++ stream ∧ Rfc.gunzip stream = some [1, 2, 3, 4, 5] :=
  C04_C34_compress floorLog2_ok vecSink_reliable (listReader_delivers 1 (.error (.other 7)) (by simp)) Options.default .gzip _ trivial [] trivial

end Zopfli
