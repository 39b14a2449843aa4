import Verif.Model.HandingBuffered
import Verif.Spec.Buffered
import Verif.Proofs.Handing
/-! # Handing data to a buffered encoder in other ways -/

namespace Zopfli

variable {σ : Type}

theorem BufEncoder.run_append [Checks] (env : Env σ) : ∀ (a c : List Call) (b : BufEncoder σ), b.run env (a ++ c) = do
    let (r, b) ← b.run env a
    match r with
    | .ok () => b.run env c
    | .error k => return (.error k, b)
  | [], c, b => rfl
  | .write d :: a, c, b => by
    rw [List.cons_append, BufEncoder.run, BufEncoder.run]
    cases b.write env d with
    | none => rfl
    | some x =>
      obtain ⟨r, b'⟩ := x
      cases r with
      | ok n => exact BufEncoder.run_append env a c b'
      | error k => rfl
  | .flush :: a, c, b => by
    rw [List.cons_append, BufEncoder.run, BufEncoder.run]
    cases b.flush env with
    | none => rfl
    | some x =>
      obtain ⟨r, b'⟩ := x
      cases r with
      | ok n => exact BufEncoder.run_append env a c b'
      | error k => rfl

theorem BufEncoder.run_one [Checks] (env : Env σ) (b : BufEncoder σ) (data : List UInt8) :
    b.run env [.write data] = (b.write env data).map fun x => (x.1.map fun _ => (), x.2) := by
  rw [BufEncoder.run]
  cases b.write env data with
  | none => rfl
  | some x =>
    obtain ⟨r, b'⟩ := x
    cases r <;> rfl

/-- An empty write does nothing. -/
theorem BufEncoder.write_nil [Checks] (env : Env σ) (b : BufEncoder σ) : b.write env [] = some (.ok 0, b) := by
  unfold BufEncoder.write
  dsimp only
  rw [List.length_nil, List.append_nil]
  split
  · rfl
  · rw [if_neg (Nat.not_lt_zero _), some_bind]
    dsimp only
    rw [if_neg (by decide), List.append_nil]
    rfl

theorem BufEncoder.run_filter [Checks] (env : Env σ) : ∀ (bufs : List (List UInt8)) (b : BufEncoder σ),
    b.run env ((bufs.filter fun d => !d.isEmpty).map .write) = b.run env (bufs.map .write)
  | [], b => rfl
  | [] :: bufs, b => by
    rw [List.filter_cons_of_neg (by simp), List.map_cons, BufEncoder.run, BufEncoder.write_nil]
    exact BufEncoder.run_filter env bufs b
  | (x :: d) :: bufs, b => by
    rw [List.filter_cons_of_pos (by simp), List.map_cons, List.map_cons, BufEncoder.run, BufEncoder.run]
    cases b.write env (x :: d) with
    | none => rfl
    | some y =>
      obtain ⟨r, b'⟩ := y
      cases r with
      | ok n => exact BufEncoder.run_filter env bufs b'
      | error k => rfl

/-- Flushing the buffer succeeds and leaves it empty, or fails with an error other than `Interrupted` and leaves it as it was. -/
theorem flushBuf_result [Checks] (env : Env σ) {e e' : Encoder σ} {p p' : List UInt8} {r : Except ErrKind Unit} (h : flushBuf env e p = some (r, e', p')) :
    r = .ok () ∧ p' = [] ∨ ∃ k, k ≠ .interrupted ∧ r = .error k ∧ p' = p := by
  by_cases hp : p = []
  · rw [flushBuf, if_pos hp] at h
    cases h
    exact .inl ⟨rfl, rfl⟩
  · rw [flushBuf_once env e hp] at h
    cases hw : e.write env p with
    | none => rw [hw] at h; cases h
    | some x =>
      have := Encoder.write_result env hw
      obtain ⟨q, e1⟩ := x
      rw [hw, some_bind] at h
      rcases this with hq | ⟨k, hk, hq⟩
      · dsimp only at hq
        subst hq
        cases h
        exact .inl ⟨rfl, rfl⟩
      · dsimp only at hq
        subst hq
        cases h
        exact .inr ⟨k, hk, rfl, rfl⟩

/-- What `write` returns, and the buffer after it. -/
theorem BufEncoder.write_result [Checks] (env : Env σ) {b b' : BufEncoder σ} {data : List UInt8} {r : Except ErrKind Nat}
    (hb : b.buf.length ≤ MASTER_BLOCK_SIZE) (h : b.write env data = some (r, b')) :
    b'.buf.length ≤ MASTER_BLOCK_SIZE ∧
      (r = .ok data.length ∧ (data.length < MASTER_BLOCK_SIZE → data ≠ [] → b'.buf ≠ []) ∨ ∃ k, k ≠ .interrupted ∧ r = .error k) := by
  unfold BufEncoder.write at h
  dsimp only at h
  split at h
  · next hlt =>
    cases h
    refine ⟨?_, .inl ⟨rfl, fun _ hd => ?_⟩⟩
    · rw [List.length_append]
      omega
    · simp [hd]
  · next hlt =>
    have key : ∀ (e : Encoder σ) (buf : List UInt8), buf.length ≤ MASTER_BLOCK_SIZE → buf.length + data.length ≤ MASTER_BLOCK_SIZE ∨ MASTER_BLOCK_SIZE ≤ data.length →
        (if data.length ≥ MASTER_BLOCK_SIZE then do
          let (r, e) ← e.write env data
          return (r, (⟨e, buf⟩ : BufEncoder σ))
        else return (.ok data.length, ⟨e, buf ++ data⟩)) = some (r, b') →
        b'.buf.length ≤ MASTER_BLOCK_SIZE ∧
          (r = .ok data.length ∧ (data.length < MASTER_BLOCK_SIZE → data ≠ [] → b'.buf ≠ []) ∨ ∃ k, k ≠ .interrupted ∧ r = .error k) := by
      intro e buf h1 h2 h
      split at h
      · next hge =>
        cases hw : e.write env data with
        | none => rw [hw] at h; cases h
        | some x =>
          have := Encoder.write_result env hw
          obtain ⟨q, e1⟩ := x
          rw [hw, some_bind] at h
          cases h
          refine ⟨h1, ?_⟩
          rcases this with hq | hq
          · exact .inl ⟨hq, fun hc => absurd hc (Nat.not_lt.mpr hge)⟩
          · exact .inr hq
      · next hge =>
        cases h
        refine ⟨?_, .inl ⟨rfl, fun _ hd => by simp [hd]⟩⟩
        dsimp only
        rw [List.length_append]
        omega
    split at h
    · next hgt =>
      cases hf : flushBuf env b.inner b.buf with
      | none => rw [hf] at h; cases h
      | some x =>
        obtain ⟨q, e1, p1⟩ := x
        rw [hf, some_bind] at h
        rcases flushBuf_result env hf with ⟨rfl, rfl⟩ | ⟨k, hk, rfl, rfl⟩
        · refine key e1 [] (Nat.zero_le _) ?_ h
          rw [List.length_nil]
          omega
        · cases h
          exact ⟨hb, .inr ⟨k, hk, rfl⟩⟩
    · next hgt =>
      rw [some_bind] at h
      exact key b.inner b.buf hb (by omega) h

/-- The buffers `write_vectored` copies after the first one are those that `write` would copy. -/
theorem appendMore_run [Checks] (env : Env σ) (e : Encoder σ) : ∀ (bufs : List (List UInt8)) (buf : List UInt8), buf ≠ [] → buf.length ≤ MASTER_BLOCK_SIZE →
    ∃ taken left, bufs = taken ++ left ∧ appendMore buf bufs = (buf ++ taken.flatten, taken.flatten.length) ∧
      BufEncoder.run env (taken.map .write) ⟨e, buf⟩ = some (.ok (), ⟨e, buf ++ taken.flatten⟩) ∧ (buf ++ taken.flatten).length ≤ MASTER_BLOCK_SIZE
  | [], buf, hne, hlen => ⟨[], [], rfl, by simp [appendMore], by simp [BufEncoder.run], by simpa using hlen⟩
  | d :: bufs, buf, hne, hlen => by
    by_cases hd : d.length ≤ MASTER_BLOCK_SIZE - buf.length
    · obtain ⟨taken, left, h1, h2, h3, h4⟩ := appendMore_run env e bufs (buf ++ d) (by simp [hne]) (by rw [List.length_append]; omega)
      have hw : BufEncoder.write env ⟨e, buf⟩ d = some (.ok d.length, ⟨e, buf ++ d⟩) := by
        unfold BufEncoder.write
        dsimp only
        split
        · rfl
        · have hpos : 0 < buf.length := List.length_pos_iff.mpr hne
          rw [if_neg (by omega), some_bind]
          dsimp only
          rw [if_neg (by omega)]
          rfl
      refine ⟨d :: taken, left, by rw [h1]; rfl, ?_, ?_, ?_⟩
      · rw [appendMore, if_pos hd, h2]
        dsimp only
        rw [List.flatten_cons, List.append_assoc, List.length_append]
      · rw [List.map_cons, BufEncoder.run, hw, some_bind]
        dsimp only
        rw [h3, List.flatten_cons, List.append_assoc]
      · rw [List.flatten_cons, ← List.append_assoc]
        exact h4
    · refine ⟨[], d :: bufs, rfl, ?_, ?_, ?_⟩
      · rw [appendMore, if_neg hd]
        simp
      · simp [BufEncoder.run]
      · simpa using hlen

/-- `write_vectored` starts like `write` of the first buffer. -/
theorem BufEncoder.writeVectored_cons [Checks] (env : Env σ) (b : BufEncoder σ) {data : List UInt8} {rest : List (List UInt8)} (hd : data ≠ []) :
    b.writeVectored env (data :: rest) = do
      let (r, b) ← b.write env data
      match r with
      | .error k => return (.error k, b)
      | .ok n =>
        if data.length ≥ MASTER_BLOCK_SIZE then return (.ok n, b)
        else return (.ok (n + (appendMore b.buf rest).2), ⟨b.inner, (appendMore b.buf rest).1⟩) := by
  have hdw : (data :: rest).dropWhile List.isEmpty = data :: rest := by
    rw [List.dropWhile_cons_of_neg (by simpa using hd)]
  unfold BufEncoder.writeVectored BufEncoder.write
  rw [hdw]
  dsimp only
  by_cases h1 : data.length < MASTER_BLOCK_SIZE - b.buf.length
  · rw [if_pos h1, if_neg (by omega), some_bind, some_bind]
    dsimp only
    rw [if_neg (by omega), if_neg (by omega)]
  · rw [if_neg h1]
    generalize (if data.length > MASTER_BLOCK_SIZE - b.buf.length then flushBuf env b.inner b.buf else some (.ok (), b.inner, b.buf)) = z
    cases z with
    | none => rfl
    | some z =>
      obtain ⟨r, e, buf⟩ := z
      rw [some_bind, some_bind]
      cases r with
      | error k => rfl
      | ok u =>
        dsimp only
        by_cases h2 : data.length ≥ MASTER_BLOCK_SIZE
        · rw [if_pos h2, if_pos h2]
          cases e.write env data with
          | none => rfl
          | some x =>
            obtain ⟨q, e1⟩ := x
            rw [some_bind]
            dsimp only [pure]
            rw [some_bind]
            dsimp only
            cases q with
            | ok m => dsimp only; rw [if_pos h2]
            | error k => rfl
        · rw [if_neg h2, if_neg h2]
          dsimp only [pure]
          rw [some_bind]
          dsimp only
          rw [if_neg h2]

/-- `write_vectored` takes some of the buffers, from the first one on; it takes something if there is something. -/
theorem BufEncoder.writeVectored_eq [Checks] (env : Env σ) (b : BufEncoder σ) (hb : b.buf.length ≤ MASTER_BLOCK_SIZE) (bufs : List (List UInt8)) :
    ∃ taken left, bufs = taken ++ left ∧ (taken.flatten = [] → left = []) ∧
      b.writeVectored env bufs = (b.run env (taken.map .write)).map fun x => (x.1.map fun _ => taken.flatten.length, x.2) := by
  induction bufs with
  | nil => exact ⟨[], [], rfl, fun _ => rfl, rfl⟩
  | cons data rest ih =>
    by_cases hd : data = []
    · obtain ⟨taken, left, h1, h2, h3⟩ := ih
      subst hd
      refine ⟨[] :: taken, left, by rw [h1]; rfl, by simpa using h2, ?_⟩
      have hv : b.writeVectored env ([] :: rest) = b.writeVectored env rest := by
        unfold BufEncoder.writeVectored
        rw [List.dropWhile_cons_of_pos (by simp)]
      rw [hv, h3, List.map_cons, BufEncoder.run, BufEncoder.write_nil, some_bind, List.flatten_cons, List.nil_append]
    · rw [BufEncoder.writeVectored_cons env b hd]
      cases hw : b.write env data with
      | none =>
        refine ⟨data :: rest, [], by simp, fun _ => rfl, ?_⟩
        rw [List.map_cons, BufEncoder.run, hw]
        rfl
      | some x =>
        obtain ⟨r, b'⟩ := x
        obtain ⟨h1, h2⟩ := BufEncoder.write_result env hb hw
        cases r with
        | error k =>
          refine ⟨data :: rest, [], by simp, fun _ => rfl, ?_⟩
          rw [List.map_cons, BufEncoder.run, hw]
          rfl
        | ok n =>
          rcases h2 with ⟨h2, h3⟩ | ⟨k, -, h2⟩
          · injection h2 with h2
            subst h2
            rw [some_bind]
            dsimp only
            by_cases hge : data.length ≥ MASTER_BLOCK_SIZE
            · refine ⟨[data], rest, rfl, fun h => absurd (by simpa using h) hd, ?_⟩
              rw [if_pos hge, List.map_cons, List.map_nil, BufEncoder.run_one, hw]
              simp [Except.map]
            · obtain ⟨taken, left, g1, g2, g3, g4⟩ := appendMore_run env b'.inner rest b'.buf (h3 (by omega) hd) h1
              refine ⟨data :: taken, left, by rw [g1]; rfl, fun h => absurd (by simpa using (List.append_eq_nil_iff.mp h).1) hd, ?_⟩
              rw [if_neg hge, g2, List.map_cons, BufEncoder.run, hw, some_bind]
              dsimp only
              rw [g3, List.flatten_cons, List.length_append]
              rfl
          · cases h2

theorem BufEncoder.run_writes_result [Checks] (env : Env σ) : ∀ (ws : List (List UInt8)) {b b' : BufEncoder σ} {r : Except ErrKind Unit},
    b.buf.length ≤ MASTER_BLOCK_SIZE → b.run env (ws.map .write) = some (r, b') → b'.buf.length ≤ MASTER_BLOCK_SIZE ∧ r ≠ .error .interrupted
  | [], b, b', r, hb, h => by
    cases h
    exact ⟨hb, by simp⟩
  | w :: ws, b, b', r, hb, h => by
    rw [List.map_cons, BufEncoder.run] at h
    cases hw : b.write env w with
    | none => rw [hw] at h; cases h
    | some x =>
      obtain ⟨q, b1⟩ := x
      obtain ⟨h1, h2⟩ := BufEncoder.write_result env hb hw
      rw [hw, some_bind] at h
      rcases h2 with ⟨rfl, -⟩ | ⟨k, hk, rfl⟩
      · exact BufEncoder.run_writes_result env ws h1 h
      · cases h
        refine ⟨h1, ?_⟩
        intro h
        injection h with h
        exact hk h

theorem advanceSlices_append : ∀ (taken left : List (List UInt8)), advanceSlices (taken ++ left) taken.flatten.length = advanceSlices left 0
  | [], left => rfl
  | t :: taken, left => by
    rw [List.cons_append, advanceSlices, if_pos (by rw [List.flatten_cons, List.length_append]; omega), List.flatten_cons, List.length_append,
      Nat.add_sub_cancel_left]
    exact advanceSlices_append taken left

theorem BufEncoder.writeAllVectoredLoop_eq [Checks] (env : Env σ) : ∀ (n : Nat) (bufs : List (List UInt8)), bufs.length ≤ n → (∀ d t, bufs = d :: t → d ≠ []) →
    ∀ (b : BufEncoder σ), b.buf.length ≤ MASTER_BLOCK_SIZE → b.writeAllVectoredLoop env bufs = b.run env (bufs.map .write)
  | _, [], _, _, b, _ => by
    rw [BufEncoder.writeAllVectoredLoop, if_pos rfl]
    rfl
  | 0, _ :: _, h, _, _, _ => by simp at h
  | n + 1, d :: bs, hl, hne, b, hb => by
    have hd := hne d bs rfl
    obtain ⟨taken, left, h1, h2, h3⟩ := BufEncoder.writeVectored_eq env b hb (d :: bs)
    rw [BufEncoder.writeAllVectoredLoop, if_neg (by simp), h3, h1, List.map_append, BufEncoder.run_append]
    have hne : taken.flatten ≠ [] := by
      intro h
      have hleft := h2 h
      rw [hleft, List.append_nil] at h1
      rw [← h1, List.flatten_cons] at h
      exact hd (List.append_eq_nil_iff.mp h).1
    cases hr : b.run env (taken.map .write) with
    | none => rfl
    | some x =>
      obtain ⟨r, b'⟩ := x
      obtain ⟨g1, g2⟩ := BufEncoder.run_writes_result env taken hb hr
      rw [Option.map_some, some_bind, some_bind]
      cases r with
      | ok u =>
        dsimp only [Except.map]
        have hpos : taken.flatten.length ≠ 0 := fun h => hne (List.eq_nil_of_length_eq_zero h)
        obtain ⟨m, hm⟩ : ∃ m, taken.flatten.length = m + 1 := ⟨taken.flatten.length - 1, by omega⟩
        rw [hm]
        dsimp only
        rw [← hm, advanceSlices_append]
        obtain ⟨l, k1, k2, k3, k4⟩ := advanceSlices_zero left
        have hlt : left.length ≤ n := by
          have : taken ≠ [] := by rintro rfl; exact hne rfl
          have h5 := congrArg List.length h1
          have h6 : 0 < taken.length := List.length_pos_iff.mpr this
          rw [List.length_append] at h5
          omega
        rw [k1, some_bind, BufEncoder.writeAllVectoredLoop_eq env n l (by omega) k4 b' g1, ← BufEncoder.run_filter, k2, BufEncoder.run_filter]
      | error k =>
        cases k with
        | interrupted => exact absurd rfl g2
        | writeZero => rfl
        | other j => rfl

theorem BufEncoder.writeAllVectored_eq [Checks] (env : Env σ) (b : BufEncoder σ) (hb : b.buf.length ≤ MASTER_BLOCK_SIZE) (bufs : List (List UInt8)) :
    b.writeAllVectored env bufs = b.run env (bufs.map .write) := by
  unfold BufEncoder.writeAllVectored
  obtain ⟨l, h1, h2, h3, h4⟩ := advanceSlices_zero bufs
  rw [h1, some_bind, BufEncoder.writeAllVectoredLoop_eq env _ l (Nat.le_refl _) h4 b hb, ← BufEncoder.run_filter, h2, BufEncoder.run_filter]

end Zopfli
