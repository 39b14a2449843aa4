import Verif.Proofs.WorkEncoder
import Verif.Props.Faults
/-!
# C65: the amount of work is linear in the data

`Model/Work.lean` and `Model/WorkEncoder.lean` are the functions of the model with a clock.  The theorems below say of each run that the
functions with the clock return exactly what the functions of the model return, and how many steps they take at most.  `E` is the cost of
one operation on tables of a fixed size (288 + 32 symbols), and can be any number.
-/

namespace Zopfli

variable {log2 : Fp → Fp} {σ : Type} {S : Sink σ} {I : σ → Prop} {patience : σ → Nat}

/-- The steps for each byte of the data, with `I` iterations. -/
def workPerByte (o : Options) : Nat := 548014 * max o.iterationCount 1 + 1096409

/-- The steps for each chunk of the data whatever its size, with `I` iterations and at most `M` blocks. -/
def workPerChunk (o : Options) (E : Nat) : Nat :=
  425985 + 2 * ((2 * o.maximumBlockSplits + 1) * (6147 * E + 1025 + 18 * o.maximumBlockSplits)) +
    max 1 o.maximumBlockSplits * (max o.iterationCount 1 * (787044 + 6 * E) + 1774791 + 13 * E)

theorem workPerChunk_eq (o : Options) (E K : Nat) (h : K = Work.stepsPerPart o.iterationCount o.maximumBlockSplits E) :
    workPerChunk o E = K + 32768 := by
  subst h
  unfold workPerChunk Work.stepsPerPart
  generalize 2 * ((2 * o.maximumBlockSplits + 1) * (6147 * E + 1025 + 18 * o.maximumBlockSplits)) = x
  generalize max 1 o.maximumBlockSplits * (max o.iterationCount 1 * (787044 + 6 * E) + 1774791 + 13 * E) = y
  omega

/-- **C65** (sessions) Whatever is written in whatever portions to whatever sink, also one that fails: the encoder returns after a number of
steps that is bounded by a constant for each byte and a constant for each call; the constants depend on the options only, not on what the
data are.  After an error the data held back may be compressed again (up to twice, when the sink fails in `finish` and the encoder is
dropped); if there is none, they are compressed once. -/
theorem C65_linear_work (hlog : Log2Ok log2) (hS : Honest S I patience) (o : Options) (bt : BlockType) (fmt : Format) (calls : List Call)
    (ending : Ending) (hfit : Fits (writesOf calls)) (s : σ) (hs : I s) (E : Nat) :
    ∃ r s' steps, session ⟨ieee log2, S, o, bt⟩ fmt calls ending s = some (r, s') ∧
      Work.session E ⟨ieee log2, S, o, bt⟩ fmt calls ending s = some ((r, s'), steps) ∧
      steps ≤ (3 * workPerByte o + 2) * (writesOf calls).flatten.length + (calls.length + 2) * workPerChunk o E ∧
      (r = .ok () → ending = .finish →
        steps ≤ (workPerByte o + 2) * (writesOf calls).flatten.length + (calls.length + 1) * workPerChunk o E) := by
  obtain ⟨r, s', h⟩ := C05_no_panic_failing hlog hS o bt fmt calls ending hfit s hs
  obtain ⟨t, e, p⟩ := (Work.session_cost E ⟨ieee log2, S, o, bt⟩ (ieeeLaws hlog) (workPerByte o) _ (workPerChunk o E)
    (workPerChunk_eq o E _ rfl) (fun n => rfl) fmt calls ending s hfit).get _ h
  refine ⟨r, s', t, h, e, ?_⟩
  rw [List.length_flatten]
  exact p

/-- **C65** (parts) The same for one call of the compressor of a part of the data, for any floating point arithmetic that satisfies the laws. -/
theorem C65_part {F : FloatOps} (L : FloatLaws F) (E : Nat) (o : Options) (bt : BlockType) (final : Bool) (data : Array UInt8)
    (instart inend : Nat) (h1 : instart ≤ inend) (h2 : inend ≤ data.size) (hsz : data.size < 2 * L.lim) (hn : inend - instart < 2 ^ 64) :
    ∃ ops steps, deflatePart F o bt final data instart inend = some ops ∧
      Work.deflatePart E F o bt final data instart inend = some (ops, steps) ∧
      steps ≤ workPerByte o * (inend - instart) + workPerChunk o E := by
  obtain ⟨ops, h, -⟩ := deflatePart_spec L o bt final h1 h2 hsz
  obtain ⟨t, e, p⟩ := (Work.deflatePart_cost L E o bt final h1 h2 hsz hn).get _ h
  refine ⟨ops, t, h, e, Nat.le_trans p ?_⟩
  rw [workPerChunk_eq o E _ rfl]
  exact Nat.add_le_add_left (Nat.le_add_right _ _) _

/-- **C65** (matches) One search for a match takes at most 273000 steps, however long the chains of candidates are and whatever the data: the
number of candidates looked at is limited. -/
theorem C65_match_search (lmc : Cache) (h : ZopfliHash) (data : Array UInt8) (pos size blockstart limit : Nat) (hl : limit ≤ 258)
    (r : LongestMatch × Cache × Option (Array Nat))
    (hr : findLongestMatch lmc h data pos size blockstart limit none = some r) :
    ∃ steps, Work.findLongestMatch lmc h data pos size blockstart limit none = some (r, steps) ∧ steps ≤ 273000 := by
  obtain ⟨t, e, p⟩ := (Work.findLongestMatch_cost lmc h data pos size blockstart limit none nofun hl).get _ hr
  exact ⟨t, e, p.2.2.2⟩

/-! ## The hypotheses are met -/

/-- A sink that fails once. -/
example : ∃ r s' steps, session ⟨ieee floorLog2, glitchSink 3, Options.default, .dynamic⟩ .gzip [.write [1, 2, 3], .flush, .write [4]] .drop ([], 0) = some (r, s') ∧
    Work.session 1000 ⟨ieee floorLog2, glitchSink 3, Options.default, .dynamic⟩ .gzip [.write [1, 2, 3], .flush, .write [4]] .drop ([], 0) = some ((r, s'), steps) := by
  obtain ⟨r, s', t, h1, h2, -⟩ := C65_linear_work floorLog2_ok (glitch_honest 3) Options.default .dynamic .gzip [.write [1, 2, 3], .flush, .write [4]] .drop (by
    intro w hw; simp [writesOf] at hw; rcases hw with rfl | rfl <;> decide) ([], 0) trivial 1000
  exact ⟨r, s', t, h1, h2⟩

/-- A part. -/
example : ∃ ops steps, deflatePart (ieee floorLog2) Options.default .dynamic true #[1, 2, 1, 2, 1, 2] 0 6 = some ops ∧
    Work.deflatePart 1000 (ieee floorLog2) Options.default .dynamic true #[1, 2, 1, 2, 1, 2] 0 6 = some (ops, steps) := by
  obtain ⟨ops, t, h1, h2, -⟩ := C65_part (ieeeLaws floorLog2_ok) 1000 Options.default .dynamic true #[1, 2, 1, 2, 1, 2] 0 6 (by decide) (by decide)
    (by rw [ieeeLaws_lim]; decide) (by decide)
  exact ⟨ops, t, h1, h2⟩

/-- What the bound says for 15 iterations and 15 blocks: some 9.3 million steps for each byte. -/
example : workPerByte Options.default = 9316619 := by
  rfl

end Zopfli
