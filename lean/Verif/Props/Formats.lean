import Verif.Spec.Framing
import Verif.Props.StreamShape
/-!
# C56: the formats differ in their framing only; C57: options matter in dynamic mode only
-/

namespace Zopfli
open Rfc

variable {log2 : Fp → Fp}

theorem toLeBytes_lowFirst (x : UInt32) : toLeBytes x = lowFirst x.toNat := by
  have h : ∀ k : Nat, k < 32 → (x >>> (UInt32.ofNat k)).toUInt8 = UInt8.ofNat (x.toNat / 2 ^ k) := by
    intro k hk
    apply UInt8.toNat_inj.mp
    rw [UInt32.toNat_toUInt8, UInt32.toNat_shiftRight, UInt32.toNat_ofNat', UInt8.toNat_ofNat', Nat.shiftRight_eq_div_pow,
      Nat.mod_eq_of_lt (b := 2 ^ 32) (by omega), Nat.mod_eq_of_lt (b := 32) hk]
  have h0 : x.toUInt8 = UInt8.ofNat x.toNat := by
    apply UInt8.toNat_inj.mp
    rw [UInt32.toNat_toUInt8, UInt8.toNat_ofNat']
  unfold toLeBytes lowFirst
  rw [h0]
  have h8 := h 8 (by omega)
  have h16 := h 16 (by omega)
  have h24 := h 24 (by omega)
  rw [← h8, ← h16, ← h24]
  rfl

theorem framed_eq (fmt : Format) (body data : List UInt8) : header fmt ++ body ++ (trailer fmt data).flatten = framed body data fmt := by
  cases fmt with
  | deflate => simp [header, trailer, framed]
  | gzip =>
    simp only [header, trailer, framed, List.flatten_cons, List.flatten_nil, List.append_nil, toLeBytes_lowFirst, crc_eq, UInt32.toNat_ofNat']
    rw [List.append_assoc (_ ++ body)]
    rfl
  | zlib =>
    simp only [header, trailer, framed, List.flatten_cons, List.flatten_nil, List.append_nil, toBeBytes, toLeBytes_lowFirst, adler_eq]
    have : zlibHeader = [0x78, 0xDA] := by decide
    rw [this]

/-- **C56** For given options, block type and written buffers, there is one DEFLATE stream such that every session, in whatever format,
writes it, between the header and the trailer of the format. -/
theorem C56_same_body (hlog : Log2Ok log2) (o : Options) (bt : BlockType) (writes : List (List UInt8)) (hfit : Fits writes) :
    ∃ body, inflate body = some writes.flatten ∧
      ∀ (fmt : Format) (σ : Type) (S : Sink σ) (I : σ → Prop) (log : σ → List UInt8) (patience : σ → Nat), Reliable S I log patience →
      ∀ (calls : List Call) (ending : Ending) (s : σ), writesOf calls = writes → I s →
        ∃ s', session ⟨ieee log2, S, o, bt⟩ fmt calls ending s = some (.ok (), s') ∧ log s' = log s ++ framed body writes.flatten fmt := by
  obtain ⟨stream, body, blocks, h1, h2, -⟩ := streamOf_exists (ieeeLaws hlog) o bt .deflate writes hfit
  have hs : stream = body := by rw [h2]; simp [header, trailer]
  subst hs
  refine ⟨stream, h1.decode (ieeeLaws hlog) hfit, ?_⟩
  intro fmt σ S I log patience hS calls ending s hw hs
  subst hw
  obtain ⟨cs, c, cs', e1, e2, e3⟩ := h1.core
  have h3 : StreamOf (ieee log2) o bt fmt (writesOf calls) (framed stream (writesOf calls).flatten fmt) := by
    refine ⟨cs, c, cs', e1, e2, ?_⟩
    rw [← framed_eq, e3]
    simp [header, trailer]
  obtain ⟨s', g1, g2, -⟩ := session_reliable ⟨ieee log2, S, o, bt⟩ hS fmt calls ending hs h3
  exact ⟨s', g1, g2⟩

/-- **C56** So a gzip stream is 18 bytes longer than the bare DEFLATE stream, and a zlib stream 6 bytes. -/
theorem C56_overhead (body data : List UInt8) :
    (framed body data .gzip).length = body.length + 18 ∧ (framed body data .zlib).length = body.length + 6 := by
  constructor
  · simp only [framed, lowFirst, List.length_append, List.length_cons, List.length_nil]; omega
  · simp only [framed, lowFirst, List.length_append, List.length_cons, List.length_nil, List.length_reverse]; omega

/-! ## C57 -/

variable {σ : Type}

/-- The same encoder with other options. -/
def Env.withOptions (env : Env σ) (o : Options) : Env σ := { env with options := o }

section
variable [Checks] {env : Env σ} (h : env.btype ≠ .dynamic) (o : Options)
include h

theorem compressChunk_options (e : DeflateEncoder σ) (l : Bool) : e.compressChunk (env.withOptions o) l = e.compressChunk env l := by
  have hp : ∀ f d a b, deflatePart env.F o env.btype f d a b = deflatePart env.F env.options env.btype f d a b := by
    intro f d a b
    unfold deflatePart
    cases hb : env.btype with
    | dynamic => exact absurd hb h
    | fixed => rfl
    | uncompressed => rfl
  unfold DeflateEncoder.compressChunk
  simp only [Env.withOptions, hp]

theorem finishInner_options (e : DeflateEncoder σ) : e.finishInner (env.withOptions o) = e.finishInner env := by
  unfold DeflateEncoder.finishInner
  simp only [compressChunk_options h o]
  rfl

theorem dropWith_options (e : DeflateEncoder σ) (s : σ) : e.dropWith (env.withOptions o) s = e.dropWith env s := by
  unfold DeflateEncoder.dropWith
  rw [finishInner_options h o]

theorem deflateFinish_options (e : DeflateEncoder σ) : e.finish (env.withOptions o) = e.finish env := by
  unfold DeflateEncoder.finish
  simp only [finishInner_options h o, dropWith_options h o]

theorem encoderWrite_options (e : Encoder σ) (buf : List UInt8) : e.write (env.withOptions o) buf = e.write env buf := by
  have hd : ∀ d : DeflateEncoder σ, d.write (env.withOptions o) buf = d.write env buf := by
    intro d
    unfold DeflateEncoder.write
    simp only [compressChunk_options h o]
  cases e with
  | gzip e => simp only [Encoder.write, GzipEncoder.write, hd]
  | zlib e => simp only [Encoder.write, ZlibEncoder.write, hd]
  | deflate e => simp only [Encoder.write, hd]

theorem encoderFinish_options (e : Encoder σ) : e.finish (env.withOptions o) = e.finish env := by
  cases e with
  | gzip e => simp only [Encoder.finish, GzipEncoder.finish, GzipEncoder.finishInner, deflateFinish_options h o]; rfl
  | zlib e => simp only [Encoder.finish, ZlibEncoder.finish, ZlibEncoder.finishInner, deflateFinish_options h o]; rfl
  | deflate e => simp only [Encoder.finish, deflateFinish_options h o]

theorem encoderDrop_options (e : Encoder σ) : e.drop (env.withOptions o) = e.drop env := by
  cases e with
  | gzip e => simp only [Encoder.drop, GzipEncoder.drop, GzipEncoder.finishInner, deflateFinish_options h o]; rfl
  | zlib e => simp only [Encoder.drop, ZlibEncoder.drop, ZlibEncoder.finishInner, deflateFinish_options h o]; rfl
  | deflate e => simp only [Encoder.drop, DeflateEncoder.drop, dropWith_options h o]

theorem run_options : ∀ (calls : List Call) (e : Encoder σ), e.run (env.withOptions o) calls = e.run env calls
  | [], _ => rfl
  | .write buf :: l, e => by
    simp only [Encoder.run, encoderWrite_options h o, run_options l]
  | .flush :: l, e => by
    have : e.flush (env.withOptions o) = e.flush env := rfl
    simp only [Encoder.run, this, run_options l]

end

/-- **C57** The options have no influence except in dynamic mode: in the stored and the fixed mode every session, on any sink, even
one that fails, does the same with any two option values, with and without overflow checks. -/
theorem C57_options_ignored [Checks] (F : FloatOps) (S : Sink σ) (bt : BlockType) (h : bt ≠ .dynamic) (o o' : Options) (fmt : Format)
    (calls : List Call) (ending : Ending) (s : σ) : session ⟨F, S, o, bt⟩ fmt calls ending s = session ⟨F, S, o', bt⟩ fmt calls ending s := by
  have h' : (Env.mk F S o' bt).btype ≠ .dynamic := h
  show session ((Env.mk F S o' bt).withOptions o) fmt calls ending s = _
  have hn : Encoder.new ((Env.mk F S o' bt).withOptions o) fmt s = Encoder.new (Env.mk F S o' bt) fmt s := rfl
  unfold session
  simp only [hn, run_options h' o, encoderFinish_options h' o, encoderDrop_options h' o]

/-! ## Concrete cases -/

example := C56_same_body floorLog2_ok Options.default .dynamic (writesOf exampleCalls) exampleCalls_fit
example : lowFirst 0x12345678 = [0x78, 0x56, 0x34, 0x12] := by decide

/-- The empty gzip file of the test suite: the body of an empty stream between its header and two zeros. -/
example : framed [3, 0] [] .gzip = [0x1F, 0x8B, 8, 0, 0, 0, 0, 0, 2, 3, 3, 0, 0, 0, 0, 0, 0, 0, 0, 0] := by decide

example (F : FloatOps) := C57_options_ignored F stutterSink .fixed (by decide) Options.default ⟨1, 1, 0⟩ .gzip exampleCalls .drop ([9], 1)

end Zopfli
