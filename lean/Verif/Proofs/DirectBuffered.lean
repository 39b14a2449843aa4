import Verif.Model.DirectBuffered
import Verif.Proofs.DirectEncoder
import Verif.Spec.Buffered
/-!
# Buffered encoders and the program that write while they compute do what those do that compute first
-/

namespace Zopfli.Direct
open Words (flush_holds new_wrap room_lt)

variable {σ ρ : Type}

variable {N : Nat} {env : Env σ} {L : FloatLaws env.F}

theorem bufWrite_eq [Checks] (hR : Enough N L) (hN : MASTER_BLOCK_SIZE ≤ N) {b : BufEncoder σ} (hg : Words.HoldsE N b.inner) (hb : b.buf.length ≤ MASTER_BLOCK_SIZE)
    {data : List UInt8} (hd : data.length ≤ N) :
    bufWrite env b data = (b.write env data) ∧
      ∀ r b', b.write env data = some (r, b') → Words.HoldsE N b'.inner ∧ b'.buf.length ≤ MASTER_BLOCK_SIZE := by
  obtain ⟨e, buf⟩ := b
  dsimp only at hg hb
  unfold bufWrite BufEncoder.write
  dsimp only
  split
  · rename_i h
    refine ⟨rfl, fun r b' h' => ?_⟩
    cases h'
    exact ⟨hg, by dsimp only; rw [List.length_append]; exact room_lt hb (Nat.le_of_lt h)⟩
  · rename_i h
    have key : ∀ (e1 : Encoder σ) (buf1 : List UInt8), Words.HoldsE N e1 → buf1.length ≤ MASTER_BLOCK_SIZE →
        (data.length < MASTER_BLOCK_SIZE → buf1.length + data.length ≤ MASTER_BLOCK_SIZE) →
        (if data.length ≥ MASTER_BLOCK_SIZE then do
              let (r, e) ← write env e1 data
              return (r, ⟨e, buf1⟩)
            else (return (.ok data.length, ⟨e1, buf1 ++ data⟩) : Option (Except ErrKind Nat × BufEncoder σ))) =
          (if data.length ≥ MASTER_BLOCK_SIZE then do
              let (r, e) ← e1.write env data
              return (r, ⟨e, buf1⟩)
            else (return (.ok data.length, ⟨e1, buf1 ++ data⟩) : Option (Except ErrKind Nat × BufEncoder σ))) ∧
        ∀ r b', (if data.length ≥ MASTER_BLOCK_SIZE then do
              let (r, e) ← e1.write env data
              return (r, ⟨e, buf1⟩)
            else (return (.ok data.length, ⟨e1, buf1 ++ data⟩) : Option (Except ErrKind Nat × BufEncoder σ))) = some (r, b') →
          Words.HoldsE N b'.inner ∧ b'.buf.length ≤ MASTER_BLOCK_SIZE := by
      intro e1 buf1 g1 g2 g3
      split
      · rw [write_eq hR g1]
        cases hx : e1.write env data with
        | none => exact ⟨rfl, fun r b' h' => by cases h'⟩
        | some p => exact ⟨rfl, fun r b' h' => by cases h'; exact ⟨write_holds hx hd g1, g2⟩⟩
      · rename_i h1
        refine ⟨rfl, fun r b' h' => ?_⟩
        cases h'
        exact ⟨g1, by dsimp only; rw [List.length_append]; exact g3 (Nat.lt_of_not_le h1)⟩
    by_cases h2 : data.length > MASTER_BLOCK_SIZE - buf.length
    · rw [if_pos h2, if_pos h2, flushBuf_eq hR hg (Nat.le_trans hb hN)]
      cases hx : Zopfli.flushBuf env e buf with
      | none => exact ⟨rfl, fun r b' h' => by cases h'⟩
      | some p =>
        obtain ⟨q, e1, buf1⟩ := p
        obtain ⟨-, g1, g2⟩ := flushBuf_holds hR hg (Nat.le_trans hb hN) hx
        dsimp only at g1 g2
        rw [some_bind, some_bind]
        dsimp only
        cases q with
        | error k => exact ⟨rfl, fun r b' h' => by cases h'; exact ⟨g1, Nat.le_trans g2 hb⟩⟩
        | ok u =>
          have h0 := flushBuf_ok_nil env hx
          subst h0
          exact key e1 [] g1 (Nat.zero_le _) (fun h => by rw [List.length_nil, Nat.zero_add]; exact Nat.le_of_lt h)
    · rw [if_neg h2, if_neg h2, some_bind, some_bind]
      exact key e buf hg hb (fun _ => room_lt hb (Nat.le_of_not_lt h2))

theorem bufFlush_eq [Checks] (hR : Enough N L) (hN : MASTER_BLOCK_SIZE ≤ N) {b : BufEncoder σ} (hg : Words.HoldsE N b.inner) (hb : b.buf.length ≤ MASTER_BLOCK_SIZE) :
    bufFlush env b = (b.flush env) ∧
      ∀ r b', b.flush env = some (r, b') → Words.HoldsE N b'.inner ∧ b'.buf.length ≤ MASTER_BLOCK_SIZE := by
  obtain ⟨e, buf⟩ := b
  dsimp only at hg hb
  unfold bufFlush BufEncoder.flush
  dsimp only
  rw [flushBuf_eq hR hg (Nat.le_trans hb hN)]
  cases hx : Zopfli.flushBuf env e buf with
  | none => exact ⟨rfl, fun r b' h' => by cases h'⟩
  | some p =>
    obtain ⟨q, e1, buf1⟩ := p
    obtain ⟨-, g1, g2⟩ := flushBuf_holds hR hg (Nat.le_trans hb hN) hx
    dsimp only at g1 g2
    rw [some_bind, some_bind]
    cases q with
    | error k => exact ⟨rfl, fun r b' h' => by cases h'; exact ⟨g1, Nat.le_trans g2 hb⟩⟩
    | ok u =>
      dsimp only
      cases hy : e1.flush env with
      | none => exact ⟨rfl, fun r b' h' => by cases h'⟩
      | some p =>
        obtain ⟨q, e2⟩ := p
        exact ⟨rfl, fun r b' h' => by cases h'; exact ⟨flush_holds hy g1, Nat.le_trans g2 hb⟩⟩

theorem bufRun_eq [Checks] (hR : Enough N L) (hN : MASTER_BLOCK_SIZE ≤ N) : ∀ (calls : List Call) (b : BufEncoder σ), Words.HoldsE N b.inner →
    b.buf.length ≤ MASTER_BLOCK_SIZE → (∀ d ∈ writesOf calls, d.length ≤ N) →
    bufRun env calls b = (b.run env calls) ∧
      ∀ r b', b.run env calls = some (r, b') → Words.HoldsE N b'.inner ∧ b'.buf.length ≤ MASTER_BLOCK_SIZE
  | [], b, hg, hb, _ => ⟨rfl, fun r b' h => by cases h; exact ⟨hg, hb⟩⟩
  | .write data :: l, b, hg, hb, hd => by
    obtain ⟨a1, a2⟩ := bufWrite_eq (env := env) hR hN hg hb (hd data (by simp [writesOf]))
    rw [bufRun, BufEncoder.run, a1]
    cases hx : b.write env data with
    | none => exact ⟨rfl, fun r b' h => by cases h⟩
    | some p =>
      obtain ⟨r, b1⟩ := p
      obtain ⟨g1, g2⟩ := a2 _ _ hx
      rw [some_bind, some_bind]
      cases r with
      | error k => exact ⟨rfl, fun r e' h => by cases h; exact ⟨g1, g2⟩⟩
      | ok n => exact bufRun_eq hR hN l b1 g1 g2 fun d h => hd d (by simp [writesOf, h])
  | .flush :: l, b, hg, hb, hd => by
    obtain ⟨a1, a2⟩ := bufFlush_eq (env := env) hR hN hg hb
    rw [bufRun, BufEncoder.run, a1]
    cases hx : b.flush env with
    | none => exact ⟨rfl, fun r b' h => by cases h⟩
    | some p =>
      obtain ⟨r, b1⟩ := p
      obtain ⟨g1, g2⟩ := a2 _ _ hx
      rw [some_bind, some_bind]
      cases r with
      | error k => exact ⟨rfl, fun r e' h => by cases h; exact ⟨g1, g2⟩⟩
      | ok n => exact bufRun_eq hR hN l b1 g1 g2 hd

theorem bufferedSession_eq [Checks] (hR : Enough N L) (hN : MASTER_BLOCK_SIZE ≤ N) (fmt : Format) (calls : List Call)
    (hd : ∀ d ∈ writesOf calls, d.length ≤ N) (ending : Ending) (s : σ) :
    bufferedSession env fmt calls ending s = Zopfli.bufferedSession env fmt calls ending s := by
  unfold bufferedSession Zopfli.bufferedSession BufEncoder.new
  cases hn : Encoder.new env fmt s with
  | none => rfl
  | some p =>
    obtain ⟨r, s'⟩ := p
    rw [some_bind]
    cases r with
    | error k => rfl
    | ok e =>
      have h2 := (new_wrap 0 N hn).2
      obtain ⟨g1, g2⟩ := bufRun_eq (env := env) hR hN calls ⟨e, []⟩ h2 (Nat.zero_le _) hd
      show (bufRun env calls ⟨e, []⟩ >>= _) = (BufEncoder.run env calls ⟨e, []⟩ >>= _)
      rw [g1]
      cases hx : BufEncoder.run env calls ⟨e, []⟩ with
      | none => rfl
      | some p =>
        obtain ⟨r, ⟨e1, buf1⟩⟩ := p
        obtain ⟨g3, g4⟩ := g2 r _ hx
        dsimp only at g3 g4
        rw [some_bind, some_bind]
        have hdrop := dropBuffered_eq (env := env) hR g3 (Nat.le_trans g4 hN)
        have hfin := intoInnerFinish_eq (env := env) hR g3 (Nat.le_trans g4 hN)
        dsimp only [onSnd, BufEncoder.drop]
        cases r with
        | error k => dsimp only; rw [hdrop]
        | ok u =>
          cases ending with
          | finish => exact hfin
          | drop => dsimp only; rw [hdrop]

/-! ## The program -/

theorem compressFile_eq [Checks] {F : FloatOps} {L : FloatLaws F} (hR : Enough N L) (hN : MASTER_BLOCK_SIZE ≤ N) (os : Os) (filename : String) (w : World) :
    compressFile F os filename w = Zopfli.compressFile F os filename w := by
  unfold compressFile Zopfli.compressFile
  cases os.openFile w filename with
  | some k => rfl
  | none =>
    cases w.disk filename with
    | none => rfl
    | some content =>
      dsimp only
      cases os.metadata w filename with
      | some k => rfl
      | none =>
        dsimp only
        cases os.createFile w (outName filename) with
        | some k => rfl
        | none =>
          dsimp only
          rw [compress_eq hR hN]
          cases Zopfli.compress F (Zopfli.writeStatistics (fileSink os (outName filename))) (fileReader os filename) Options.default .gzip
            (readable os filename content, 0) ((⟨w.disk.set (outName filename) [], w.time⟩ : World), 0) with
          | none => rfl
          | some p =>
            obtain ⟨r, w', n⟩ := p
            cases r <;> rfl

theorem main_eq [Checks] {F : FloatOps} {L : FloatLaws F} (hR : Enough N L) (hN : MASTER_BLOCK_SIZE ≤ N) (os : Os) : ∀ (args : List String) (w : World),
    main F os args w = Zopfli.main F os args w
  | [], _ => rfl
  | a :: l, w => by
    rw [main, Zopfli.main, compressFile_eq hR hN]
    cases Zopfli.compressFile F os a w with
    | none => rfl
    | some p =>
      obtain ⟨r, w'⟩ := p
      cases r with
      | error e => rfl
      | ok n => exact main_eq hR hN os l w'

end Zopfli.Direct
