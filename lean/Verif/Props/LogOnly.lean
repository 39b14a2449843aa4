import Verif.Proofs.LogOnly
import Verif.Proofs.LogBoundedEncoder
import Verif.Proofs.Ieee
import Verif.Model.Main
import Verif.Props.Formats
/-!
# C76: what the platform's logarithm can influence

`f64::log2` is the one operation of the code whose result Rust leaves to the platform (IEEE 754 fixes all others).
-/

namespace Zopfli

variable {σ : Type}

/-- Two logarithms that give the same results for integers (as far as these fit in a `usize`). They may differ for all other
numbers. -/
def AgreeOnIntegers (log2 log2' : Fp → Fp) : Prop := ∀ n : Nat, n < 2 ^ 64 → log2' (Fp.round64 n) = log2 (Fp.round64 n)

theorem ieee_withLog (log2 log2' : Fp → Fp) : FloatOps.withLog (ieee log2) log2' = ieee log2' := rfl
theorem ieeeDebug_withLog (log2 log2' : Fp → Fp) : FloatOps.withLog (ieeeDebug log2) log2' = ieeeDebug log2' := rfl

section
variable [Checks] {log2 log2' : Fp → Fp}

theorem AgreeOnIntegers.parts (h : AgreeOnIntegers log2 log2') (S : Sink σ) (o : Options) (bt : BlockType) :
    SameParts ⟨ieee log2, S, o, bt⟩ ⟨ieee log2', S, o, bt⟩ :=
  ⟨rfl, fun f d a b => deflatePart_log (F := ieee log2) (l := log2') (fun n => h _ (Nat.mod_lt _ (by norm_num))) o bt f d a b⟩

theorem AgreeOnIntegers.debugParts (h : AgreeOnIntegers log2 log2') (S : Sink σ) (o : Options) (bt : BlockType) :
    SameParts ⟨ieeeDebug log2, S, o, bt⟩ ⟨ieeeDebug log2', S, o, bt⟩ :=
  ⟨rfl, fun f d a b => deflatePart_log (F := ieeeDebug log2) (l := log2') (fun n => h _ (Nat.mod_lt _ (by norm_num))) o bt f d a b⟩

theorem noLogParts (F : FloatOps) (l : F.F64 → F.F64) (S : Sink σ) (o : Options) {bt : BlockType} (h : bt ≠ .dynamic) :
    SameParts ⟨F, S, o, bt⟩ ⟨F.withLog l, S, o, bt⟩ :=
  ⟨rfl, fun f d a b => deflatePart_no_log o h f d a b⟩

theorem SameParts.compress {ρ : Type} {F F' : FloatOps} {S : Sink σ} {o : Options} (h : SameParts ⟨F, S, o, .dynamic⟩ ⟨F', S, o, .dynamic⟩)
    (R : Reader ρ) (fmt : Format) (r : ρ) (s : σ) : compress F' S R o fmt r s = compress F S R o fmt r s := by
  unfold Zopfli.compress
  simp only [h.new, h.copyLoop, h.dropBuffered, h.flushBuf, h.finish]

theorem SameParts.compressFrom {ρ : Type} {F F' : FloatOps} {S : Sink σ} {o : Options} (h : SameParts ⟨F, S, o, .dynamic⟩ ⟨F', S, o, .dynamic⟩)
    (src : Source ρ) (fmt : Format) (r : ρ) (s : σ) : compressFrom F' S src o fmt r s = compressFrom F S src o fmt r s := by
  unfold Zopfli.compressFrom
  simp only [h.bufNew, h.copyTo, h.bufDrop, h.bufFinish]

/-- **C57** With encoders made by `new_buffered`, too, the options have no influence except in dynamic mode, on any sink, even one
that fails. -/
theorem C57_options_ignored_buffered (F : FloatOps) (S : Sink σ) (bt : BlockType) (h : bt ≠ .dynamic) (o o' : Options) (fmt : Format)
    (calls : List Call) (ending : Ending) (s : σ) :
    bufferedSession ⟨F, S, o, bt⟩ fmt calls ending s = bufferedSession ⟨F, S, o', bt⟩ fmt calls ending s := by
  refine SameParts.bufferedSession (env := ⟨F, S, o', bt⟩) (env' := ⟨F, S, o, bt⟩) ⟨rfl, fun f d a b => ?_⟩ fmt calls ending s
  cases bt with
  | uncompressed => rfl
  | fixed => rfl
  | dynamic => exact absurd rfl h

/-- **C76** In the stored and in the fixed mode no session, buffered or not, on any sink, even one that fails, depends on the
logarithm, whatever the rest of the arithmetic is. -/
theorem C76_no_logarithm (F : FloatOps) (l : F.F64 → F.F64) (S : Sink σ) (o : Options) (bt : BlockType) (h : bt ≠ .dynamic) (fmt : Format)
    (calls : List Call) (ending : Ending) (s : σ) :
    session ⟨{ F with log2 := l }, S, o, bt⟩ fmt calls ending s = session ⟨F, S, o, bt⟩ fmt calls ending s ∧
      bufferedSession ⟨{ F with log2 := l }, S, o, bt⟩ fmt calls ending s = bufferedSession ⟨F, S, o, bt⟩ fmt calls ending s :=
  ⟨(noLogParts F l S o h).session fmt calls ending s, (noLogParts F l S o h).bufferedSession fmt calls ending s⟩

/-- **C76** In every mode two platforms whose logarithms agree on integers do the same, in release and in debug builds: the same
bytes arrive at the sink in the same portions, and the same results are reported, even if the sink fails. -/
theorem C76_sessions (h : AgreeOnIntegers log2 log2') (S : Sink σ) (o : Options) (bt : BlockType) (fmt : Format) (calls : List Call)
    (ending : Ending) (s : σ) :
    session ⟨ieee log2', S, o, bt⟩ fmt calls ending s = session ⟨ieee log2, S, o, bt⟩ fmt calls ending s ∧
      session ⟨ieeeDebug log2', S, o, bt⟩ fmt calls ending s = session ⟨ieeeDebug log2, S, o, bt⟩ fmt calls ending s ∧
      bufferedSession ⟨ieee log2', S, o, bt⟩ fmt calls ending s = bufferedSession ⟨ieee log2, S, o, bt⟩ fmt calls ending s ∧
      bufferedSession ⟨ieeeDebug log2', S, o, bt⟩ fmt calls ending s = bufferedSession ⟨ieeeDebug log2, S, o, bt⟩ fmt calls ending s :=
  ⟨(h.parts S o bt).session fmt calls ending s, (h.debugParts S o bt).session fmt calls ending s,
    (h.parts S o bt).bufferedSession fmt calls ending s, (h.debugParts S o bt).bufferedSession fmt calls ending s⟩

/-- **C76** The same of `compress`, with any reader, also one that lends its buffer. -/
theorem C76_compress (h : AgreeOnIntegers log2 log2') (S : Sink σ) (o : Options) (fmt : Format) {ρ : Type} (R : Reader ρ) (src : Source ρ)
    (r : ρ) (s : σ) :
    compress (ieee log2') S R o fmt r s = compress (ieee log2) S R o fmt r s ∧
      compressFrom (ieee log2') S src o fmt r s = compressFrom (ieee log2) S src o fmt r s :=
  ⟨(h.parts S o .dynamic).compress R fmt r s, (h.parts S o .dynamic).compressFrom src fmt r s⟩

/-- **C76** And of the program: it leaves the same files behind. -/
theorem C76_program (h : AgreeOnIntegers log2 log2') (os : Os) : ∀ (args : List String) (w : World),
    main (ieee log2') os args w = main (ieee log2) os args w
  | [], _ => rfl
  | a :: l, w => by
    have hc : compressFile (ieee log2') os a w = compressFile (ieee log2) os a w := by
      unfold compressFile
      simp only [(h.parts _ _ .dynamic).compress]
    simp only [main, hc, C76_program h os l]

end

/-! ## Finitely many logarithms -/

/-- Two logarithms that give the same results for the integers from 1 to `B`. -/
def AgreeUpTo (B : Nat) (log2 log2' : Fp → Fp) : Prop := ∀ n : Nat, 1 ≤ n → n ≤ B → log2' (Fp.round64 n) = log2 (Fp.round64 n)

section
attribute [local instance] releaseBuild
variable {log2 log2' : Fp → Fp}

theorem AgreeUpTo.parts {N : Nat} (hlog : Log2Ok log2) (hN : N < 2 ^ 47) (h : AgreeUpTo (576 * (N + 1)) log2 log2') (S : Sink σ) (o : Options)
    (bt : BlockType) : LogBounded.SamePartsUpTo N ⟨ieee log2, S, o, bt⟩ ⟨ieee log2', S, o, bt⟩ := by
  refine ⟨rfl, fun f d a h1 h2 h3 => ?_⟩
  have hA : LogBounded.Agree (F := ieee log2) log2' (576 * (N + 1) + 1) := by
    intro n hn1 hn2
    show log2' (Fp.round64 ((n % 2 ^ 64 : Nat) : Rat)) = log2 (Fp.round64 ((n % 2 ^ 64 : Nat) : Rat))
    rw [Nat.mod_eq_of_lt (by omega)]
    exact h n hn1 (by omega)
  exact LogBounded.deflatePart_log (F := ieee log2) (l := log2') hA (ieeeLaws hlog) o bt f h1 (Nat.le_refl _) (ieee_size hlog (by omega)) (by omega)

/-- **C76** As long as no write has more than `N` bytes, only the logarithms of the integers from 1 to `576 * (N + 1)` can
influence anything, whatever the number of writes: the same bytes arrive at the sink in the same portions, and the same results
are reported, even if the sink fails. -/
theorem C76_sessions_finite {N : Nat} (hlog : Log2Ok log2) (hN : N < 2 ^ 47) (h : AgreeUpTo (576 * (N + 1)) log2 log2') (S : Sink σ) (o : Options)
    (bt : BlockType) (fmt : Format) (calls : List Call) (hb : ∀ b ∈ writesOf calls, b.length ≤ N) (ending : Ending) (s : σ) :
    session ⟨ieee log2', S, o, bt⟩ fmt calls ending s = session ⟨ieee log2, S, o, bt⟩ fmt calls ending s ∧
      (1000000 ≤ N → bufferedSession ⟨ieee log2', S, o, bt⟩ fmt calls ending s = bufferedSession ⟨ieee log2, S, o, bt⟩ fmt calls ending s) :=
  ⟨(h.parts hlog hN S o bt).session fmt calls hb ending s, fun hN' => (h.parts hlog hN S o bt).bufferedSession hN' fmt calls hb ending s⟩

theorem AgreeUpTo.block (h : AgreeUpTo (2 ^ 30) log2 log2') : AgreeUpTo (576 * (1000000 + 1)) log2 log2' :=
  fun n h1 h2 => h n h1 (Nat.le_trans h2 (by norm_num))

/-- **C76** `compress` asks for the logarithms of integers from 1 to 2^30 at most, however long the input is. -/
theorem C76_compress_finite (hlog : Log2Ok log2) (h : AgreeUpTo (2 ^ 30) log2 log2') (S : Sink σ) (o : Options) (fmt : Format) {ρ : Type}
    (R : Reader ρ) (r : ρ) (s : σ) : compress (ieee log2') S R o fmt r s = compress (ieee log2) S R o fmt r s :=
  (h.block.parts hlog (by norm_num) S o .dynamic).compress (Nat.le_refl _) R fmt r s

/-- **C76** So does the program: two builds of it whose logarithms agree up to 2^30 leave the same files behind. -/
theorem C76_program_finite (hlog : Log2Ok log2) (h : AgreeUpTo (2 ^ 30) log2 log2') (os : Os) : ∀ (args : List String) (w : World),
    main (ieee log2') os args w = main (ieee log2) os args w
  | [], _ => rfl
  | a :: l, w => by
    have hc : compressFile (ieee log2') os a w = compressFile (ieee log2) os a w := by
      unfold compressFile
      simp only [C76_compress_finite hlog h]
    simp only [main, hc, C76_program_finite hlog h os l]

end

/-! ## Concrete cases -/

/-- A logarithm that is 17 for infinity and for what is not a number, and floorLog2 otherwise. -/
def oddLog2 : Fp → Fp
  | .fin q => floorLog2 (.fin q)
  | _ => .fin 17

theorem oddLog2_agrees : AgreeOnIntegers floorLog2 oddLog2 := by
  intro n hn
  obtain ⟨v, hv, -⟩ := Fp.round64_pow (q := n) (k := 64) (by norm_num) (by
    rw [abs_of_nonneg (by positivity)]
    exact_mod_cast hn.le)
  rw [hv]
  rfl

example := C57_options_ignored_buffered (ieee floorLog2) stutterSink .fixed (by decide) Options.default ⟨1, 2, 3⟩ .zlib exampleCalls .drop ([9], 1)
example : oddLog2 (.inf false) ≠ floorLog2 (.inf false) := by decide
example := C76_sessions oddLog2_agrees stutterSink Options.default .dynamic .gzip exampleCalls .drop ([9], 1)
example := C76_no_logarithm (ieee floorLog2) (fun _ => .nan) stutterSink Options.default .fixed (by decide) .gzip exampleCalls .finish ([9], 1)

/-- A logarithm that is right up to 2^30 only. -/
def shortLog2 (x : Fp) : Fp :=
  match x with
  | .fin q => if q ≤ 2 ^ 30 then floorLog2 (.fin q) else .fin 17
  | _ => .fin 17

theorem shortLog2_agrees : AgreeUpTo (2 ^ 30) floorLog2 shortLog2 := by
  intro n _ hn
  obtain ⟨v, hv, hle⟩ := Fp.round64_pow (q := n) (k := 30) (by norm_num) (by
    rw [abs_of_nonneg (by positivity)]
    exact_mod_cast hn)
  rw [hv]
  show (if v ≤ 2 ^ 30 then floorLog2 (.fin v) else .fin 17) = _
  rw [if_pos (le_trans (le_abs_self v) (by exact_mod_cast hle))]

example (R : Reader Nat) := C76_compress_finite floorLog2_ok shortLog2_agrees stutterSink Options.default .gzip R 0 ([9], 1)
example : shortLog2 (.fin (2 ^ 31)) ≠ floorLog2 (.fin (2 ^ 31)) := by decide +kernel

end Zopfli
