import Verif.Proofs.UnwindBuffered
import Verif.Props.Lending
/-!
# `compress` with a reader that lends its buffer and a sink that panics, as a buffered session
-/

namespace Zopfli

variable {σ ρ : Type}

/-- What the reader lends, part by part, and how it ends. -/
inductive Lends (src : Source ρ) (res : Except ErrKind Unit) : ρ → List (List UInt8) → Prop
  | stop {r r' : ρ} : src.next r = (res.map fun _ => [], r') → Lends src res r []
  | again {r r' : ρ} {fs : List (List UInt8)} : src.next r = (.error .interrupted, r') → Lends src res r' fs → Lends src res r fs
  | part {r r' : ρ} {x : UInt8} {xs : List UInt8} {fs : List (List UInt8)} : src.next r = (.ok (x :: xs), r') → Lends src res r' fs →
      Lends src res r ((x :: xs) :: fs)

theorem Supplies.lends {src : Source ρ} {J : ρ → Prop} {data : ρ → List UInt8} {res : Except ErrKind Unit} {patienceR : ρ → Nat}
    (hR : Supplies src J data res patienceR) (r : ρ) (hr : J r) : ∃ fs : List (List UInt8), fs.flatten = data r ∧ Fits fs ∧ Lends src res r fs := by
  induction hn : (data r).length using Nat.strong_induction_on generalizing r with
  | _ n ih =>
    induction hp : patienceR r using Nat.strong_induction_on generalizing r with
    | _ p ihp =>
      rcases hR.next r hr with ⟨l, r', h1, h2, h3, h4, h5⟩ | ⟨r', h1, h2, h3, h4⟩ | ⟨r', h1, h2⟩
      · have hl : 0 < l.length := List.length_pos_iff.mpr h2
        obtain ⟨fs, g1, g2, g3⟩ := ih (data r').length (by rw [← hn, h4, List.length_append]; omega) r' h5 rfl
        cases l with
        | nil => exact absurd rfl h2
        | cons x xs =>
          refine ⟨(x :: xs) :: fs, by rw [List.flatten_cons, g1, h4], fun w hw => ?_, .part h1 g3⟩
          rcases List.mem_cons.mp hw with rfl | hw
          · exact h3
          · exact g2 w hw
      · obtain ⟨fs, g1, g2, g3⟩ := ihp (patienceR r') (by omega) r' h4 (by rw [h2]; exact hn) rfl
        exact ⟨fs, by rw [g1, h2], g2, .again h1 g3⟩
      · exact ⟨[], by rw [h2]; rfl, by simp [Fits], .stop h1⟩

theorem Lends.copyTo [Checks] {src : Source ρ} {res : Except ErrKind Unit} (hni : res ≠ .error .interrupted) {r : ρ} {fs : List (List UInt8)}
    (h : Lends src res r fs) (env : Env σ) (b : BufEncoder σ) :
    copyTo env src r b = do
      let (x, b) ← b.run env (fs.map .write)
      return (answer res x, b) := by
  induction h generalizing b with
  | stop h1 =>
    rw [Zopfli.copyTo, h1]
    cases res with
    | ok u => rfl
    | error k =>
      cases k with
      | interrupted => exact absurd rfl hni
      | writeZero => rfl
      | other j => rfl
  | again h1 _ ih =>
    rw [Zopfli.copyTo, h1]
    exact ih b
  | part h1 _ ih =>
    rw [Zopfli.copyTo, h1]
    dsimp only
    rw [BufEncoder.writeAll_eq env b (by simp), List.map_cons, BufEncoder.run]
    cases b.write env (_ :: _) with
    | none => rfl
    | some y =>
      obtain ⟨q, b'⟩ := y
      cases q with
      | error k => rfl
      | ok m => exact ih b'

namespace Unwind

theorem write_result (env : WildEnv σ) {e : Encoder σ} {buf : List UInt8} {r : Except Fault Nat × Encoder σ} (h : Unwind.write env e buf = some r) :
    r.1 = .ok buf.length ∨ ∃ f, f ≠ .error .interrupted ∧ r.1 = .error f := by
  have hk : ErrKind.other 0 ≠ .interrupted := by nofun
  have h1 := write_tame env hk e buf
  rw [h] at h1
  obtain ⟨q, e'⟩ := r
  rcases Encoder.write_result _ h1 with h2 | ⟨k, h2, h3⟩
  · left
    rcases q with (_ | _) | n
    · cases h2
    · cases h2
    · cases h2; rfl
  · right
    rcases q with f | n
    · refine ⟨f, ?_, rfl⟩
      rintro rfl
      cases h3
      exact h2 rfl
    · cases h3

theorem flushBuf_once (env : WildEnv σ) (e : Encoder σ) {p : List UInt8} (hp : p ≠ []) : Unwind.flushBuf env e p = do
    let (r, e) ← Unwind.write env e p
    match r with
    | .ok _ => return (.ok (), e, [])
    | .error f => return (.error f, e, p) := by
  rw [Unwind.flushBuf, if_neg hp]
  cases hw : Unwind.write env e p with
  | none => rfl
  | some x =>
    have := write_result env hw
    obtain ⟨r, e'⟩ := x
    rw [some_bind, some_bind]
    dsimp only at this ⊢
    have hl : p.length ≠ 0 := by simpa using hp
    obtain ⟨n, hn⟩ : ∃ n, p.length = n + 1 := ⟨p.length - 1, by omega⟩
    rcases this with rfl | ⟨f, h1, rfl⟩
    · rw [hn]
      dsimp only
      rw [← hn, List.drop_length, Unwind.flushBuf, if_pos rfl]
      rfl
    · rcases f with k | _
      · cases k with
        | interrupted => exact absurd rfl h1
        | writeZero => rfl
        | other j => rfl
      · rfl

theorem bufWriteAll_eq (env : WildEnv σ) (b : BufEncoder σ) {data : List UInt8} (hd : data ≠ []) :
    Unwind.bufWriteAll env b data = (Unwind.bufWrite env b data).map fun x => (x.1.map fun _ => (), x.2) := by
  unfold Unwind.bufWriteAll Unwind.bufWrite
  dsimp only
  split
  · rfl
  · generalize (if data.length > MASTER_BLOCK_SIZE - b.buf.length then Unwind.flushBuf env b.inner b.buf else some (.ok (), b.inner, b.buf)) = z
    cases z with
    | none => rfl
    | some z =>
      obtain ⟨r, e, buf⟩ := z
      rw [some_bind, some_bind]
      cases r with
      | error f => rcases f with _ | _ <;> rfl
      | ok u =>
        dsimp only
        split
        · rw [flushBuf_once env e hd]
          cases Unwind.write env e data with
          | none => rfl
          | some x =>
            obtain ⟨r, e'⟩ := x
            rcases r with (_ | _) | _ <;> rfl
        · rfl

/-- What copying ends with. -/
def answerFault (res : Except ErrKind Unit) : Except Fault Unit → Except Fault Unit
  | .ok _ => match res with
    | .ok _ => .ok ()
    | .error k => .error (.error k)
  | .error f => .error f

/-- The flag after copying: only a panic sets it. -/
theorem bufRun_ok_flag {env : WildEnv σ} {calls : List Call} {b : BufEncoder σ} {u : Unit} {b' : BufEncoder σ} {p : Bool}
    (h : Unwind.bufRun env calls b = some (.ok u, b', p)) : p = false := by
  cases p with
  | false => rfl
  | true => have := bufRun_flag h rfl; cases this

theorem Lends.copyTo {src : Source ρ} {res : Except ErrKind Unit} (hni : res ≠ .error .interrupted) {r : ρ} {fs : List (List UInt8)}
    (h : Lends src res r fs) (env : WildEnv σ) (b : BufEncoder σ) :
    Unwind.copyTo env src r b = do
      let (x, b, p) ← Unwind.bufRun env (fs.map .write) b
      return (answerFault res x, b, p) := by
  induction h generalizing b with
  | stop h1 =>
    rw [Unwind.copyTo, h1]
    cases res with
    | ok u => rfl
    | error k =>
      cases k with
      | interrupted => exact absurd rfl hni
      | writeZero => rfl
      | other j => rfl
  | again h1 _ ih =>
    rw [Unwind.copyTo, h1]
    exact ih b
  | part h1 _ ih =>
    rw [Unwind.copyTo, h1]
    dsimp only
    rw [bufWriteAll_eq env b (by simp), List.map_cons, Unwind.bufRun]
    cases Unwind.bufWrite env b (_ :: _) with
    | none => rfl
    | some y =>
      obtain ⟨q, b', p⟩ := y
      cases q with
      | error k => rfl
      | ok m => exact ih b'

/-- How `compress` ends, if the session with the buffered encoder ends with `x` and the reader with `res`. -/
def answerFate (res : Except ErrKind Unit) : Fate → Fate
  | .returned x => .returned (answer res x)
  | .panicked => .panicked
  | .aborted => .aborted

theorem abandon_answer (res : Except ErrKind Unit) (env : WildEnv σ) (e : Encoder σ) (buf : List UInt8) (p : Bool) (f : Fault) :
    (Unwind.compress.abandon env e buf p f).map (fun x => (answerFate res x.1, x.2)) = Unwind.compress.abandon env e buf p f := by
  rcases f with k | _
  · unfold Unwind.compress.abandon
    rcases Unwind.dropBuffered env false e buf p with _ | ⟨_ | _ | _, s⟩ <;> rfl
  · unfold Unwind.compress.abandon
    rcases Unwind.dropBuffered env true e buf p with _ | ⟨_ | _ | _, s⟩ <;> rfl

theorem drop_returned {env : WildEnv σ} {u : Bool} {e : Encoder σ} {r : Except ErrKind Unit} {s : σ} (h : Unwind.drop env u e = some (.returned r, s)) :
    r = .ok () := by
  rcases e with e | e | e <;> simp only [Unwind.drop, Option.bind_eq_bind, Option.bind_eq_some_iff, Prod.exists] at h <;>
    obtain ⟨q, t, -, h⟩ := h <;> rcases q with _ | _ | _ <;> cases h <;> rfl

theorem dropBuffered_returned {env : WildEnv σ} {u : Bool} {e : Encoder σ} {buf : List UInt8} {p : Bool} {r : Except ErrKind Unit} {s : σ}
    (h : Unwind.dropBuffered env u e buf p = some (.returned r, s)) : r = .ok () := by
  unfold Unwind.dropBuffered at h
  split at h
  · exact drop_returned h
  · simp only [Option.bind_eq_bind, Option.bind_eq_some_iff, Prod.exists] at h
    obtain ⟨q, e', b', -, h⟩ := h
    rcases q with (k | _) | _
    · exact drop_returned h
    · dsimp only at h
      split at h
      · simp only [Option.bind_eq_some_iff, Prod.exists] at h
        obtain ⟨d, s', -, h⟩ := h
        cases h
      · simp only [Option.bind_eq_some_iff, Prod.exists] at h
        obtain ⟨d, s', -, h⟩ := h
        rcases d with _ | _ | _ <;> cases h
    · exact drop_returned h

/-- `compress` with such a reader is a session with a buffered encoder. -/
theorem Lends.compressFrom {src : Source ρ} {res : Except ErrKind Unit} (hni : res ≠ .error .interrupted) {r : ρ} {fs : List (List UInt8)}
    (h : Lends src res r fs) (F : FloatOps) (S : WildSink σ) (o : Options) (fmt : Format) (s : σ) :
    Unwind.compressFrom F S src o fmt r s =
      (Unwind.bufferedSession ⟨F, S, o, .dynamic⟩ fmt (fs.map .write) (endingOf res) s).map fun x => (answerFate res x.1, x.2) := by
  unfold Unwind.compressFrom Unwind.bufferedSession
  dsimp only
  cases Unwind.bufNew ⟨F, S, o, .dynamic⟩ fmt s with
  | none => rfl
  | some x =>
    obtain ⟨q, s1⟩ := x
    rw [some_bind, some_bind]
    cases q with
    | error f => rcases f with _ | _ <;> rfl
    | ok b =>
      dsimp only
      rw [Lends.copyTo hni h]
      cases hr : Unwind.bufRun ⟨F, S, o, .dynamic⟩ (fs.map .write) b with
      | none => rfl
      | some y =>
        obtain ⟨q, b', p⟩ := y
        rw [some_bind, some_bind]
        cases q with
        | error f => 
          dsimp only [answerFault, pure]
          rw [some_bind]
          exact (abandon_answer res _ _ _ _ _).symm
        | ok u =>
          have hp := bufRun_ok_flag hr
          subst hp
          cases res with
          | ok u =>
            dsimp only [answerFault, pure, endingOf]
            rw [some_bind]
            dsimp only
            rcases Unwind.flushBuf ⟨F, S, o, .dynamic⟩ b'.inner b'.buf with _ | ⟨f | _, e, buf⟩
            · rfl
            · rw [some_bind]
              exact (abandon_answer (.ok u) _ _ _ _ _).symm
            · rw [some_bind]
              dsimp only
              rcases Unwind.finish ⟨F, S, o, .dynamic⟩ false e with _ | ⟨(_ | _) | _ | _, t⟩ <;> rfl
          | error k =>
            dsimp only [answerFault, pure, endingOf]
            rw [some_bind]
            dsimp only [Unwind.compress.abandon]
            rcases hd : Unwind.dropBuffered ⟨F, S, o, .dynamic⟩ false b'.inner b'.buf false with _ | ⟨q | _ | _, t⟩
            · rfl
            · rw [dropBuffered_returned hd]; rfl
            · rfl
            · rfl

end Unwind

/-- The same without panics (as `compressFrom_eq`, with the parts given). -/
theorem Lends.compressFrom [Checks] {src : Source ρ} {res : Except ErrKind Unit} (hni : res ≠ .error .interrupted) {r : ρ} {fs : List (List UInt8)}
    (h : Lends src res r fs) (F : FloatOps) (S : Sink σ) (o : Options) (fmt : Format) (s : σ) :
    Zopfli.compressFrom F S src o fmt r s =
      (bufferedSession ⟨F, S, o, .dynamic⟩ fmt (fs.map .write) (endingOf res) s).map fun x => (answer res x.1, x.2) := by
  unfold Zopfli.compressFrom bufferedSession
  dsimp only
  cases BufEncoder.new ⟨F, S, o, .dynamic⟩ fmt s with
  | none => rfl
  | some x =>
    obtain ⟨q, s1⟩ := x
    rw [some_bind, some_bind]
    cases q with
    | error k => rfl
    | ok b =>
      dsimp only
      rw [h.copyTo hni]
      cases b.run ⟨F, S, o, .dynamic⟩ (fs.map .write) with
      | none => rfl
      | some y =>
        obtain ⟨q, b'⟩ := y
        rw [some_bind, some_bind]
        cases q with
        | error k =>
          dsimp only [answer, pure]
          rw [some_bind]
          dsimp only
          cases b'.drop ⟨F, S, o, .dynamic⟩ <;> rfl
        | ok u =>
          cases res with
          | ok u =>
            dsimp only [answer, pure, endingOf]
            rw [some_bind]
            dsimp only
            cases hb : b'.intoInnerFinish ⟨F, S, o, .dynamic⟩ with
            | none => rfl
            | some z =>
              obtain ⟨z1, z2⟩ := z
              cases z1 <;> rfl
          | error k =>
            dsimp only [answer, pure, endingOf]
            rw [some_bind]
            dsimp only
            cases b'.drop ⟨F, S, o, .dynamic⟩ <;> rfl

end Zopfli
