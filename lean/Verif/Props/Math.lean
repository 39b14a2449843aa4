import Verif.Props.Debug
import Verif.Proofs.MathFacts
/-!
# C45: the mathematics of `no_std` builds

Without the standard library the crate brings its own base-2 logarithm and absolute value of `f64`.  The logarithm is
near the real logarithm, so that nothing need be assumed of a platform: what is proved for builds with a logarithm of
the platform (`Log2Ok`, `Log2Mono`) holds for `no_std` builds outright.

A finite binary64 number is a rational number that rounding leaves alone: `Fp.round64 q = .fin q`.
-/

namespace Zopfli

variable {σ : Type} {S : Sink σ} {I : σ → Prop} {log : σ → List UInt8} {patience : σ → Nat}

/-- **C45** The logarithm of every positive finite number, subnormal ones included, is a finite number within
`2^-49 + 2^-53 |log2 q|` of the real logarithm. -/
theorem C45_log2_accuracy {q : ℚ} (h : Fp.round64 q = .fin q) (hq : 0 < q) :
    ∃ v, Fp.log2NoStd (.fin q) = .fin v ∧ |(v : ℝ) - Real.logb 2 q| ≤ 1 / 2 ^ 49 + |Real.logb 2 q| / 2 ^ 53 :=
  Fp.log2NoStd_near h hq

/-- **C45** Powers of two have exact logarithms. -/
theorem C45_log2_powers {k : ℤ} (h1 : -1074 ≤ k) (h2 : k ≤ 1023) : Fp.log2NoStd (.fin (2 ^ k)) = .fin k :=
  Fp.log2NoStd_pow h1 h2

/-- **C45** Numbers that have no logarithm: zero, negative numbers, infinities, and what is not a number. -/
theorem C45_log2_special :
    Fp.log2NoStd (.fin 0) = .inf true ∧ Fp.log2NoStd (.inf false) = .inf false ∧ Fp.log2NoStd (.inf true) = .nan ∧
    Fp.log2NoStd .nan = .nan ∧ ∀ q : ℚ, Fp.round64 q = .fin q → q < 0 → Fp.log2NoStd (.fin q) = .nan := by
  refine ⟨by decide +kernel, by decide +kernel, by decide +kernel, by decide +kernel, ?_⟩
  intro q h hq
  obtain ⟨M, e, hr⟩ := Fp.IsDouble.repr h hq.ne
  have hpos := hr.pos
  have hlt := hr.lt
  have hle := hr.le
  have hge := hr.ge
  have hE : (e + 1074).toNat ≤ 2045 := by omega
  have hb : Fp.toBits (.fin q) = 2 ^ 63 + ((e + 1074).toNat * 2 ^ 52 + M) := by rw [hr.bits, if_pos hq]
  unfold Fp.log2NoStd
  dsimp only
  rw [hb]
  generalize (e + 1074).toNat = E at hE
  have h1 : 0 < (2 ^ 63 + (E * 2 ^ 52 + M)) / 2 ^ 32 / 2 ^ 31 := by omega
  have h2 : ¬ (2 ^ 63 + (E * 2 ^ 52 + M)) * 2 % 2 ^ 64 = 0 := by omega
  rw [if_pos (.inr h1), if_neg h2, if_pos h1]
  have h3 : Fp.sub64 (.fin q) (.fin q) = .fin 0 := by
    show Fp.round64 (q + -q) = _
    rw [add_neg_cancel]
    exact Fp.round64_zero
  rw [h3]
  rfl

/-- **C45** The logarithm does not decrease on the integers up to `2^45`. -/
theorem C45_log2_monotone {m n : Nat} (hm : 1 ≤ m) (hmn : m ≤ n) (hn : n ≤ 2 ^ 45) :
    ∃ v w, Fp.log2NoStd (Fp.round64 m) = .fin v ∧ Fp.log2NoStd (Fp.round64 n) = .fin w ∧ v ≤ w := by
  have h := Fp.log2NoStd_mono hm hmn hn
  obtain ⟨v, hv, -⟩ := Fp.log2NoStd_ok m hm (by omega)
  obtain ⟨w, hw, -⟩ := Fp.log2NoStd_ok n (by omega) (by omega)
  rw [hv, hw] at h
  exact ⟨v, w, hv, hw, of_decide_eq_true h⟩

/-- **C45** The absolute value is the absolute value. -/
theorem C45_abs {q : ℚ} (h : Fp.round64 q = .fin q) : Fp.absNoStd (.fin q) = .fin |q| := Fp.absNoStd_eq h

/-- **C45** The assumptions on a platform's logarithm hold. -/
theorem C45_log2_ok : Log2Ok Fp.log2NoStd ∧ Log2Mono Fp.log2NoStd (2 ^ 45) :=
  ⟨Fp.log2NoStd_ok, fun _ _ h1 h2 h3 => Fp.log2NoStd_mono h1 h2 h3.le⟩

/-- **C45** Hence a `no_std` build does not panic or hang, with debug assertions or without, and writes a stream that
decodes to the data, whatever the platform. -/
theorem C45_no_std_session (hS : Reliable S I log patience) (o : Options) (bt : BlockType) (fmt : Format) (calls : List Call) (ending : Ending)
    (s : σ) (hs : I s) :
    (Fits (writesOf calls) → ∃ s' stream, session ⟨ieee Fp.log2NoStd, S, o, bt⟩ fmt calls ending s = some (.ok (), s') ∧ log s' = log s ++ stream ∧
      decode fmt stream = some (writesOf calls).flatten) ∧
    ((∀ w ∈ writesOf calls, w.length < 2 ^ 34) → ∃ s' stream, session ⟨ieeeDebug Fp.log2NoStd, S, o, bt⟩ fmt calls ending s = some (.ok (), s') ∧
      log s' = log s ++ stream ∧ decode fmt stream = some (writesOf calls).flatten) := by
  constructor
  · intro hfit
    obtain ⟨stream, body, blocks, h1, h2, h3⟩ := streamOf_exists (ieeeLaws Fp.log2NoStd_ok) o bt fmt (writesOf calls) hfit
    obtain ⟨s', g1, g2, g3⟩ := session_reliable ⟨ieee Fp.log2NoStd, S, o, bt⟩ hS fmt calls ending hs h1
    exact ⟨s', stream, g1, g2, h1.decode (ieeeLaws Fp.log2NoStd_ok) hfit⟩
  · intro hfit
    have hm : Log2Mono Fp.log2NoStd (2 ^ 11 * 2 ^ 34) := C45_log2_ok.2
    exact C40_debug_build Fp.log2NoStd_ok (by norm_num) (by norm_num) hm hS o bt fmt calls ending hfit s hs

/-! ## Concrete cases -/

example : Fp.log2NoStd (.fin 3) = .fin (892254565955501 / 562949953421312) := by decide +kernel

/-- a third, which is not a binary64 number -/
example : Fp.round64 (1 / 3) ≠ .fin (1 / 3) := by decide +kernel

example : ∃ v, Fp.log2NoStd (.fin 1000000) = .fin v ∧ |(v : ℝ) - Real.logb 2 (1000000 : ℚ)| ≤ 1 / 2 ^ 49 + |Real.logb 2 (1000000 : ℚ)| / 2 ^ 53 :=
  C45_log2_accuracy (by decide +kernel) (by norm_num)

/-- the smallest subnormal number -/
example : Fp.log2NoStd (.fin (2 ^ (-1074 : ℤ))) = .fin (-1074 : ℤ) := C45_log2_powers (by norm_num) (by norm_num)

example : Fp.log2NoStd (.fin (-3)) = .nan := C45_log2_special.2.2.2.2 _ (by decide +kernel) (by norm_num)

example : Fp.absNoStd (.fin (-5 / 4)) = .fin (5 / 4) := by
  rw [C45_abs (by decide +kernel)]
  norm_num [abs_of_neg]

example : ∃ s' stream, session ⟨ieeeDebug Fp.log2NoStd, stutterSink, Options.default, .dynamic⟩ .zlib [.write [1, 2, 3], .flush, .write [1, 2, 3]] .drop ([9], 1) =
    some (.ok (), s') ∧ s'.1 = [9] ++ stream ∧ decode .zlib stream = some [1, 2, 3, 1, 2, 3] :=
  (C45_no_std_session stutterSink_reliable Options.default .dynamic .zlib _ .drop _ trivial).2
    (by intro w hw; simp [writesOf] at hw; rcases hw with rfl | rfl <;> decide)

end Zopfli
