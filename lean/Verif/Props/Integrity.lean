import Verif.Proofs.Crc
import Verif.Proofs.AdlerSum
import Verif.Props.Truncation
import Verif.Props.Stored
/-!
# C53: damage is detected
-/

namespace Zopfli
open Rfc

variable {log2 : Fp → Fp} {σ : Type} {S : Sink σ} {I : σ → Prop} {log : σ → List UInt8} {patience : σ → Nat}

theorem inflatePrefix_suffix {body data rest : List UInt8} (h : inflatePrefix body = some (data, rest)) : rest <:+ body := by
  simp only [inflatePrefix, parse, Option.bind_eq_bind, Option.bind_eq_some_iff, Prod.exists, Option.pure_def, Option.some.injEq, Prod.mk.injEq] at h
  obtain ⟨blocks, rest', ⟨blocks', s, -, -, rfl⟩, out, -, -, rfl⟩ := h
  exact List.drop_suffix _ _

theorem lastBytes_suffix {l t : List UInt8} (h : t <:+ l) : lastBytes t.length l = t := by
  obtain ⟨p, rfl⟩ := h
  unfold lastBytes
  rw [List.length_append, Nat.add_sub_cancel, List.drop_left]

theorem gunzip_last {s d : List UInt8} (h : gunzip s = some d) :
    le32? ((lastBytes 8 s).take 4) = some (crc32 d).toNat ∧ le32? ((lastBytes 8 s).drop 4) = some (d.length % 2 ^ 32) := by
  unfold gunzip at h
  split at h
  · rename_i m0 m1 m2 m3 xfl os body
    simp only [Option.bind_eq_bind, Option.bind_eq_some_iff, Prod.exists] at h
    obtain ⟨d', tail, h1, crc, h2, isize, h3, h4⟩ := h
    split at h4
    · rename_i hc
      cases h4
      have l1 := le32_length h2
      have l2 := le32_length h3
      rw [List.length_take] at l1
      rw [List.length_drop] at l2
      have hl : lastBytes 8 (31 :: 139 :: 8 :: 0 :: m0 :: m1 :: m2 :: m3 :: xfl :: os :: body) = tail := by
        have : tail <:+ (31 :: 139 :: 8 :: 0 :: m0 :: m1 :: m2 :: m3 :: xfl :: os :: body) :=
          (inflatePrefix_suffix h1).trans (List.suffix_append [31, 139, 8, 0, m0, m1, m2, m3, xfl, os] body)
        rw [show 8 = tail.length by omega]
        exact lastBytes_suffix this
      rw [hl, h2, h3, hc.1, hc.2]
      exact ⟨rfl, rfl⟩
    · cases h4
  · cases h

theorem zlib_last {s d : List UInt8} (h : zlibDecode s = some d) : be32? (lastBytes 4 s) = some (adler32 d) := by
  rcases s with _ | ⟨cmf, _ | ⟨flg, body⟩⟩
  · cases h
  · cases h
  unfold zlibDecode at h
  by_cases c1 : cmf.toNat ≠ 0x78
  · simp [c1] at h
  by_cases c2 : flg.toNat.testBit 5 = true
  · simp [c1, c2] at h
  by_cases c3 : (256 * cmf.toNat + flg.toNat) % 31 ≠ 0
  · simp [c1, c2, c3] at h
  simp only [c1, c2, c3, if_false, Option.bind_eq_bind, Option.bind_eq_some_iff, Prod.exists, Bool.false_eq_true] at h
  obtain ⟨d', tail, h1, adler, h2, h3⟩ := h
  split at h3
  · rename_i hc
    cases h3
    have l1 := le32_length h2
    rw [List.length_reverse] at l1
    have : tail <:+ cmf :: flg :: body := (inflatePrefix_suffix h1).trans (List.suffix_append [cmf, flg] body)
    have hl := lastBytes_suffix this
    rw [l1] at hl
    rw [hl, h2, hc]
  · cases h3

/-- Two acceptable streams with the same trailer do not have data that differ in a detectable way. -/
theorem decode_detects {fmt : Format} {s t d d' : List UInt8} (hs : decode fmt s = some d) (ht : decode fmt t = some d')
    (e : lastBytes fmt.trailerSize t = lastBytes fmt.trailerSize s) : ¬ Detectable fmt d d' := by
  cases fmt with
  | gzip =>
    obtain ⟨a1, a2⟩ := gunzip_last hs
    obtain ⟨b1, b2⟩ := gunzip_last ht
    have e : lastBytes 8 t = lastBytes 8 s := e
    rw [e, a1] at b1
    rw [e, a2] at b2
    have hc : feed 0xFFFFFFFF (bytesBits d) = feed 0xFFFFFFFF (bytesBits d') := crc32_inj.mp (UInt32.toNat.inj (Option.some.inj b1))
    rintro (h | h | h)
    · exact h (Option.some.inj b2)
    · exact feed_burst h hc
    · exact feed_two h hc
  | zlib =>
    have a := zlib_last hs
    have b := zlib_last ht
    have e : lastBytes 4 t = lastBytes 4 s := e
    rw [e, a] at b
    rintro (h | h)
    · exact adler_one h (Option.some.inj b)
    · exact adler_two h (Option.some.inj b)
  | deflate => exact id

theorem le32_inj {a b : List UInt8} {n : Nat} (ha : le32? a = some n) (hb : le32? b = some n) : a = b := by
  have la := le32_length ha
  have lb := le32_length hb
  rcases a with _ | ⟨a0, _ | ⟨a1, _ | ⟨a2, _ | ⟨a3, _ | ⟨a4, a⟩⟩⟩⟩⟩ <;> simp at la
  rcases b with _ | ⟨b0, _ | ⟨b1, _ | ⟨b2, _ | ⟨b3, _ | ⟨b4, b⟩⟩⟩⟩⟩ <;> simp at lb
  have h := ha.trans hb.symm
  have h : a0.toNat + 256 * a1.toNat + 65536 * a2.toNat + 16777216 * a3.toNat = b0.toNat + 256 * b1.toNat + 65536 * b2.toNat + 16777216 * b3.toNat :=
    Option.some.inj h
  have := a0.toNat_lt
  have := a1.toNat_lt
  have := a2.toNat_lt
  have := a3.toNat_lt
  have := b0.toNat_lt
  have := b1.toNat_lt
  have := b2.toNat_lt
  have := b3.toNat_lt
  have e0 : a0 = b0 := UInt8.toNat.inj (by omega)
  have e1 : a1 = b1 := UInt8.toNat.inj (by omega)
  have e2 : a2 = b2 := UInt8.toNat.inj (by omega)
  have e3 : a3 = b3 := UInt8.toNat.inj (by omega)
  rw [e0, e1, e2, e3]

/-- A complete body after the header, followed by another trailer, is rejected. -/
theorem decode_trailer {fmt : Format} {body data t : List UInt8} {blocks : List Block} (h : ValidStream body blocks data)
    (ht : t ≠ (trailer fmt data).flatten) : decode fmt (header fmt ++ body ++ t) = none := by
  cases hd : decode fmt (header fmt ++ body ++ t) with
  | none => rfl
  | some d =>
    exfalso
    apply ht
    cases fmt with
    | gzip =>
      have hd : gunzip (31 :: 139 :: 8 :: 0 :: 0 :: 0 :: 0 :: 0 :: 2 :: 3 :: (body ++ t)) = some d := hd
      unfold gunzip at hd
      simp only at hd
      rw [h.inflatePrefix, some_bind] at hd
      simp only [Option.bind_eq_bind, Option.bind_eq_some_iff] at hd
      obtain ⟨crc, h2, isize, h3, h4⟩ := hd
      split at h4
      · rename_i hc
        have q1 := le32_inj (h2.trans (congrArg some hc.1)) (show le32? (toLeBytes (crcFinalize (data.foldl crcUpdate 0xFFFFFFFF))) = _ by rw [le32_toLeBytes, crc_eq])
        have q2 := le32_inj (h3.trans (congrArg some hc.2)) (show le32? (toLeBytes (UInt32.ofNat data.length)) = _ by rw [le32_toLeBytes, UInt32.toNat_ofNat'])
        rw [← List.take_append_drop 4 t, q1, q2, trailer, List.flatten_cons, List.flatten_cons, List.flatten_nil, List.append_nil]
      · cases h4
    | zlib =>
      have hd : zlibDecode (120 :: 218 :: (body ++ t)) = some d := by
        rw [← hd]
        show _ = zlibDecode ((zlibHeader ++ body) ++ t)
        rw [show zlibHeader = [120, 218] by decide, List.append_assoc]
        rfl
      unfold zlibDecode at hd
      dsimp only at hd
      rw [if_neg (by decide), if_neg (by decide), if_neg (by decide), h.inflatePrefix, some_bind] at hd
      simp only [Option.bind_eq_bind, Option.bind_eq_some_iff] at hd
      obtain ⟨adler, h2, h3⟩ := hd
      split at h3
      · rename_i hc
        have q := le32_inj (h2.trans (congrArg some hc)) (show le32? (toBeBytes (data.foldl Adler.update .new).finish).reverse = _ by
          have := be32_toBeBytes (data.foldl Adler.update .new).finish
          rw [be32?, adler_eq] at this
          exact this)
        rw [← List.reverse_inj, q, trailer, List.flatten_cons, List.flatten_nil, List.append_nil]
      · cases h3
    | deflate =>
      have hd : inflate (([] ++ body) ++ t) = some d := hd
      rw [List.nil_append] at hd
      have := inflate_iff.mp hd
      rw [h.inflatePrefix] at this
      cases this
      rfl

theorem lastBytes_trailer (fmt : Format) (pre data : List UInt8) : lastBytes fmt.trailerSize (pre ++ (trailer fmt data).flatten) = (trailer fmt data).flatten := by
  have := lastBytes_suffix (List.suffix_append pre (trailer fmt data).flatten)
  rwa [trailer_size fmt data] at this

/-- **C53** Whatever is damaged before the trailer of a stream, the data the decoder returns for it (if any) does not differ from
the original in a detectable way (`Detectable`); and if only the trailer is damaged, the stream is rejected. -/
theorem C53_damage_detected (hlog : Log2Ok log2) (hS : Reliable S I log patience) (o : Options) (bt : BlockType) (fmt : Format) (calls : List Call) (ending : Ending)
    (hfit : Fits (writesOf calls)) (s : σ) (hs : I s) :
    ∃ s' stream, session ⟨ieee log2, S, o, bt⟩ fmt calls ending s = some (.ok (), s') ∧ log s' = log s ++ stream ∧
      decode fmt stream = some (writesOf calls).flatten ∧
      (∀ damaged data', lastBytes fmt.trailerSize damaged = lastBytes fmt.trailerSize stream → Detectable fmt (writesOf calls).flatten data' →
        decode fmt damaged ≠ some data') ∧
      (∀ trailer', trailer' ≠ lastBytes fmt.trailerSize stream → decode fmt (stream.take (stream.length - fmt.trailerSize) ++ trailer') = none) := by
  obtain ⟨stream, body, blocks, h1, h2, h3⟩ := streamOf_exists (ieeeLaws hlog) o bt fmt (writesOf calls) hfit
  obtain ⟨s', g1, g2, g3⟩ := session_reliable ⟨ieee log2, S, o, bt⟩ hS fmt calls ending hs h1
  have hd := h1.decode (ieeeLaws hlog) hfit
  refine ⟨s', stream, g1, g2, hd, fun damaged data' e hdet hdec => decode_detects hd hdec e hdet, fun t ht => ?_⟩
  have hl : stream.take (stream.length - fmt.trailerSize) = header fmt ++ body := by
    rw [h2]
    have := trailer_size fmt (writesOf calls).flatten
    rw [List.length_append, this, Nat.add_sub_cancel, List.take_left]
  rw [hl]
  refine decode_trailer h3 fun e => ht ?_
  rw [h2, lastBytes_trailer, e]

theorem stored_valid {writes : List (List UInt8)} (hfit : Fits writes) : ∃ blocks, ValidStream (storedStream writes) blocks writes.flatten := by
  obtain ⟨stream, body, blocks, h1, h2, h3⟩ := streamOf_exists (ieeeLaws floorLog2_ok) Options.default .uncompressed .deflate writes hfit
  have := h1.unique (streamOf_stored _ _ _ _)
  rw [h2, show (trailer .deflate writes.flatten).flatten = [] from rfl, List.append_nil, List.append_nil, List.append_cancel_left_eq] at this
  exact ⟨blocks, this ▸ h3⟩

/-- **C53** In stored mode the bits of the data are in the stream as they are: if they are damaged in a detectable way, the stream is
rejected. (`damaged` are the written buffers after the damage; header and trailer are those written.) -/
theorem C53_stored_damage (hS : Reliable S I log patience) (o : Options) (fmt : Format) (calls : List Call) (ending : Ending) (hfit : Fits (writesOf calls))
    (s : σ) (hs : I s) :
    ∃ s' stream header trailer, session ⟨ieee log2, S, o, .uncompressed⟩ fmt calls ending s = some (.ok (), s') ∧ log s' = log s ++ stream ∧
      stream = header ++ storedStream (writesOf calls) ++ trailer ∧ header.length = fmt.headerSize ∧ trailer.length = fmt.trailerSize ∧
      ∀ damaged, Fits damaged → Detectable fmt (writesOf calls).flatten damaged.flatten → decode fmt (header ++ storedStream damaged ++ trailer) = none := by
  obtain ⟨s', g1, g2, g3⟩ := session_reliable ⟨ieee log2, S, o, .uncompressed⟩ hS fmt calls ending hs (streamOf_stored _ o fmt (writesOf calls))
  refine ⟨s', _, header fmt, (trailer fmt (writesOf calls).flatten).flatten, g1, g2, rfl, header_size fmt, trailer_size fmt _, fun damaged hfit' hdet => ?_⟩
  obtain ⟨b1, v1⟩ := stored_valid hfit
  obtain ⟨b2, v2⟩ := stored_valid hfit'
  refine decode_trailer v2 fun e => ?_
  refine decode_detects (decode_container v1 (fmt := fmt)) (decode_container v2 (fmt := fmt)) ?_ hdet
  rw [lastBytes_trailer, lastBytes_trailer, e]

/-! ## The hypotheses are met -/

example := C53_damage_detected floorLog2_ok stutterSink_reliable Options.default .dynamic .gzip exampleCalls .drop exampleCalls_fit ([9], 1) trivial
example := C53_stored_damage (log2 := floorLog2) stutterSink_reliable Options.default .zlib exampleCalls .drop exampleCalls_fit ([9], 1) trivial

/-- A changed byte is detectable in both formats; two inverted bits are. -/
example (pre post : List UInt8) (a b : UInt8) (h : a ≠ b) : Detectable .zlib (pre ++ a :: post) (pre ++ b :: post) := .inl ⟨pre, a, b, post, rfl, rfl, h⟩

example (pre post : List UInt8) (a b : UInt8) (h : a ≠ b) : Detectable .gzip (pre ++ [a] ++ post) (pre ++ [b] ++ post) := by
  refine .inr (.inl ⟨bytesBits pre, byteBits a, byteBits b, bytesBits post, ?_, ?_, rfl, by simp [byteBits], fun e => h (byteBits_inj e)⟩)
  · rw [bytesBits_append, bytesBits_append]; simp [bytesBits]
  · rw [bytesBits_append, bytesBits_append]; simp [bytesBits]

/-- Two bits in different bytes. -/
example : Detectable .gzip ([0, 7, 7, 7, 7, 7, 7] ++ [0]) ([1, 7, 7, 7, 7, 7, 7] ++ [1]) := by
  refine .inr (.inr ⟨[], false, (byteBits 0).drop 1 ++ bytesBits [7, 7, 7, 7, 7, 7], false, (byteBits 0).drop 1, by decide, by decide, by decide⟩)

end Zopfli
