import Verif.Model.Unwind
import Verif.Spec.Unwind
import Verif.Proofs.Session
/-!
# A sink that panics, seen as a sink that fails
-/

namespace Zopfli
open Unwind

variable {σ : Type} {α : Type}

theorem tameR_ok {k : ErrKind} {a : α} : tameR k (.ok a : Except Fault α) = .ok a := rfl
theorem tameR_error {k e : ErrKind} : tameR k (.error (.error e) : Except Fault α) = .error e := rfl
theorem tameR_panic {k : ErrKind} : tameR k (.error .panic : Except Fault α) = .error k := rfl

/-- what is seen of the result -/
abbrev tameP (k : ErrKind) {τ : Type} (x : Except Fault α × τ) : Except ErrKind α × τ := (tameR k x.1, x.2)

theorem writeAll_of_tame {S : WildSink σ} {k : ErrKind} (hk : k ≠ .interrupted) (s : σ) (buf : List UInt8) (x) :
    (tame k S).writeAll s buf = some x → ∃ y, Unwind.writeAll S s buf = some y ∧ x = tameP k y := by
  refine Sink.writeAll.partial_correctness (S := tame k S) (motive := fun s buf x => ∃ y, Unwind.writeAll S s buf = some y ∧ x = tameP k y) ?_ s buf x
  intro rec ih s buf x h
  rw [Unwind.writeAll]
  split at h
  · rw [if_pos ‹_›]; cases h; exact ⟨_, rfl, rfl⟩
  · rw [if_neg ‹_›]
    revert h
    rcases hw : S.write s buf with ⟨r, t⟩
    have ht : (tame k S).write s buf = (match (r, t) with
      | (.ok n, s) => if n ≤ buf.length then (.ok n, s) else (.error k, s)
      | (.error f, s) => (.error (f.tame k), s)) := by
      simp only [tame, hw]
      rcases r with _ | _ <;> rfl
    rw [ht]
    rcases r with (e | _) | n
    · intro h
      by_cases he : e = .interrupted
      · subst he
        exact ih _ _ _ h
      · cases e with
        | interrupted => exact absurd rfl he
        | _ => cases h; exact ⟨_, rfl, rfl⟩
    · intro h
      cases k with
      | interrupted => exact absurd rfl hk
      | _ => cases h; exact ⟨_, rfl, rfl⟩
    · rcases n with _ | n
      · intro h
        simp only [Nat.zero_le, if_true] at h
        cases h
        exact ⟨_, rfl, rfl⟩
      · dsimp only
        by_cases hn : n + 1 ≤ buf.length
        · rw [if_pos hn]
          intro h
          simp only [hn, if_true] at h ⊢
          exact ih _ _ _ h
        · rw [if_neg hn]
          intro h
          simp only [hn, if_false] at h ⊢
          cases k with
          | interrupted => exact absurd rfl hk
          | _ => cases h; exact ⟨_, rfl, rfl⟩

theorem writeAll_tame_of {S : WildSink σ} {k : ErrKind} (hk : k ≠ .interrupted) (s : σ) (buf : List UInt8) (y) :
    Unwind.writeAll S s buf = some y → (tame k S).writeAll s buf = some (tameP k y) := by
  refine Unwind.writeAll.partial_correctness (S := S) (motive := fun s buf y => (tame k S).writeAll s buf = some (tameP k y)) ?_ s buf y
  intro rec ih s buf x h
  rw [Sink.writeAll]
  split at h
  · rw [if_pos ‹_›]; cases h; rfl
  · rw [if_neg ‹_›]
    revert h
    rcases hw : S.write s buf with ⟨r, t⟩
    have ht : (tame k S).write s buf = (match (r, t) with
      | (.ok n, s) => if n ≤ buf.length then (.ok n, s) else (.error k, s)
      | (.error f, s) => (.error (f.tame k), s)) := by
      simp only [tame, hw]
      rcases r with _ | _ <;> rfl
    rw [ht]
    rcases r with (e | _) | n
    · intro h
      cases e with
      | interrupted => exact ih _ _ _ h
      | _ => cases h; rfl
    · intro h
      cases k with
      | interrupted => exact absurd rfl hk
      | _ => cases h; rfl
    · rcases n with _ | n
      · intro h
        simp only [Nat.zero_le, if_true]
        cases h
        rfl
      · dsimp only
        by_cases hn : n + 1 ≤ buf.length
        · rw [if_pos hn]
          intro h
          simp only [hn, if_true]
          exact ih _ _ _ h
        · rw [if_neg hn]
          intro h
          simp only [hn, if_false]
          cases k with
          | interrupted => exact absurd rfl hk
          | _ => cases h; rfl

theorem writeAll_tame {S : WildSink σ} {k : ErrKind} (hk : k ≠ .interrupted) (s : σ) (buf : List UInt8) :
    (tame k S).writeAll s buf = (Unwind.writeAll S s buf).map (tameP k) := by
  cases h : Unwind.writeAll S s buf with
  | some y => exact writeAll_tame_of hk s buf y h
  | none =>
    cases h' : (tame k S).writeAll s buf with
    | none => rfl
    | some x =>
      obtain ⟨y, h2, -⟩ := writeAll_of_tame hk s buf x h'
      rw [h] at h2
      cases h2

theorem addBytes_tame {S : WildSink σ} {k : ErrKind} (hk : k ≠ .interrupted) (w : BitwiseWriter σ) (l : List UInt8) :
    w.addBytes (tame k S) l = (Unwind.addBytes S w l).map (tameP k) := by
  simp only [BitwiseWriter.addBytes, Unwind.addBytes, writeAll_tame hk]
  cases Unwind.writeAll S w.out l <;> rfl

theorem finishPartialBits_tame {S : WildSink σ} {k : ErrKind} (hk : k ≠ .interrupted) (w : BitwiseWriter σ) :
    w.finishPartialBits (tame k S) = (Unwind.finishPartialBits S w).map (tameP k) := by
  simp only [BitwiseWriter.finishPartialBits, Unwind.finishPartialBits, addBytes_tame hk]
  split
  · rcases Unwind.addBytes S w [w.bit] with _ | ⟨(e | _) | _, w'⟩ <;> rfl
  · rfl

theorem addBit_wild (S : WildSink σ) (w : BitwiseWriter σ) (b : Bool) :
    Unwind.addBit S w b = if w.bp + 1 = 8 then Unwind.finishPartialBits S { w with bit := w.bit ||| ((if b then 1 else 0) <<< w.bp), bp := w.bp + 1 }
      else some (.ok (), { w with bit := w.bit ||| ((if b then 1 else 0) <<< w.bp), bp := w.bp + 1 }) :=
  if_neg fun h => by cases h.1

theorem exec_tame {S : WildSink σ} {k : ErrKind} (hk : k ≠ .interrupted) (w : BitwiseWriter σ) (op : WOp) :
    w.exec (tame k S) op = (Unwind.exec S w op).map (tameP k) := by
  cases op with
  | bit b =>
    simp only [BitwiseWriter.exec, Unwind.exec, addBit_release, addBit_wild, finishPartialBits_tame hk]
    split
    · rfl
    · rfl
  | align => exact finishPartialBits_tame hk w
  | bytes l => exact addBytes_tame hk w l

theorem execAll_tame {S : WildSink σ} {k : ErrKind} (hk : k ≠ .interrupted) (ops : List WOp) (w : BitwiseWriter σ) :
    w.execAll (tame k S) ops = (Unwind.execAll S w ops).map (tameP k) := by
  induction ops generalizing w with
  | nil => rfl
  | cons op ops ih =>
    simp only [BitwiseWriter.execAll, Unwind.execAll, exec_tame hk]
    rcases Unwind.exec S w op with _ | ⟨(e | _) | _, w'⟩
    · rfl
    · rfl
    · rfl
    · exact ih w'

/-- the same encoder over the tamed sink -/
abbrev WildEnv.tame (env : WildEnv σ) (k : ErrKind) : Env σ := ⟨env.F, Zopfli.tame k env.S, env.options, env.btype⟩

theorem compressChunk_tame (env : WildEnv σ) {k : ErrKind} (hk : k ≠ .interrupted) (e : DeflateEncoder σ) (last : Bool) :
    e.compressChunk (WildEnv.tame env k) last = (Unwind.compressChunk env e last).map (tameP k) := by
  simp only [DeflateEncoder.compressChunk, Unwind.compressChunk]
  rcases e.bitwiseWriter with _ | w
  · rfl
  · simp only [some_bind]
    rcases deflatePart env.F env.options env.btype last e.windowAndChunk e.chunkStart e.windowAndChunk.size with _ | ops
    · rfl
    · simp only [some_bind, execAll_tame hk]
      rcases Unwind.execAll env.S w ops with _ | ⟨r, w'⟩ <;> rfl

theorem finishInner_tame (env : WildEnv σ) {k : ErrKind} (hk : k ≠ .interrupted) (e : DeflateEncoder σ) :
    e.finishInner (WildEnv.tame env k) = (Unwind.finishInner env e).map (tameP k) := by
  simp only [DeflateEncoder.finishInner, Unwind.finishInner]
  rcases e.bitwiseWriter with _ | w
  · rfl
  · dsimp only
    rw [compressChunk_tame env hk]
    rcases Unwind.compressChunk env e true with _ | ⟨(e | _) | _, e'⟩
    · rfl
    · rfl
    · rfl
    · simp only [Option.map_some, some_bind, tameP, tameR_ok]
      rcases e'.bitwiseWriter with _ | w
      · rfl
      · simp only [some_bind]
        rw [finishPartialBits_tame hk]
        rcases Unwind.finishPartialBits env.S w with _ | ⟨(e | _) | _, w'⟩ <;> rfl

theorem deflateWrite_tame (env : WildEnv σ) {k : ErrKind} (hk : k ≠ .interrupted) (e : DeflateEncoder σ) (buf : List UInt8) :
    e.write (WildEnv.tame env k) buf = (Unwind.deflateWrite env e buf).map (tameP k) := by
  simp only [DeflateEncoder.write, Unwind.deflateWrite]
  by_cases h : e.haveChunk = true
  · simp only [h, if_true]
    rw [compressChunk_tame env hk]
    rcases Unwind.compressChunk env e false with _ | ⟨(e | _) | _, e'⟩ <;> rfl
  · simp only [h]
    rfl

theorem deflateFlush_tame (env : WildEnv σ) {k : ErrKind} (e : DeflateEncoder σ) :
    e.flush (WildEnv.tame env k) = (Unwind.deflateFlush env e).map (tameP k) := by
  simp only [DeflateEncoder.flush, Unwind.deflateFlush]
  rcases e.bitwiseWriter with _ | w
  · rfl
  · rfl

theorem write_tame (env : WildEnv σ) {k : ErrKind} (hk : k ≠ .interrupted) (e : Encoder σ) (buf : List UInt8) :
    e.write (WildEnv.tame env k) buf = (Unwind.write env e buf).map (tameP k) := by
  rcases e with ⟨d, c, n⟩ | ⟨d, a⟩ | d
  · simp only [Encoder.write, GzipEncoder.write, Unwind.write]
    rcases d with _ | d
    · rfl
    · simp only [some_bind]
      rw [deflateWrite_tame env hk]
      rcases Unwind.deflateWrite env d buf with _ | ⟨(e | _) | _, e'⟩ <;> rfl
  · simp only [Encoder.write, ZlibEncoder.write, Unwind.write]
    rcases d with _ | d
    · rfl
    · simp only [some_bind]
      rw [deflateWrite_tame env hk]
      rcases Unwind.deflateWrite env d buf with _ | ⟨(e | _) | _, e'⟩ <;> rfl
  · simp only [Encoder.write, Unwind.write]
    rw [deflateWrite_tame env hk]
    rcases Unwind.deflateWrite env d buf with _ | ⟨(e | _) | _, e'⟩ <;> rfl

theorem flush_tame (env : WildEnv σ) {k : ErrKind} (e : Encoder σ) :
    e.flush (WildEnv.tame env k) = (Unwind.flush env e).map (tameP k) := by
  rcases e with ⟨d, c, n⟩ | ⟨d, a⟩ | d
  · simp only [Encoder.flush, GzipEncoder.flush, Unwind.flush]
    rcases d with _ | d
    · rfl
    · simp only [some_bind]
      rw [deflateFlush_tame env]
      rcases Unwind.deflateFlush env d with _ | ⟨(e | _) | _, e'⟩ <;> rfl
  · simp only [Encoder.flush, ZlibEncoder.flush, Unwind.flush]
    rcases d with _ | d
    · rfl
    · simp only [some_bind]
      rw [deflateFlush_tame env]
      rcases Unwind.deflateFlush env d with _ | ⟨(e | _) | _, e'⟩ <;> rfl
  · simp only [Encoder.flush, Unwind.flush]
    rw [deflateFlush_tame env]
    rcases Unwind.deflateFlush env d with _ | ⟨(e | _) | _, e'⟩ <;> rfl

theorem run_tame (env : WildEnv σ) {k : ErrKind} (hk : k ≠ .interrupted) (calls : List Call) (e : Encoder σ) :
    e.run (WildEnv.tame env k) calls = (Unwind.run env calls e).map (tameP k) := by
  induction calls generalizing e with
  | nil => rfl
  | cons c l ih =>
    cases c with
    | write buf =>
      simp only [Encoder.run, Unwind.run]
      rw [write_tame env hk]
      rcases Unwind.write env e buf with _ | ⟨(e | _) | _, e'⟩
      · rfl
      · rfl
      · rfl
      · exact ih e'
    | flush =>
      simp only [Encoder.run, Unwind.run]
      rw [flush_tame env]
      rcases Unwind.flush env e with _ | ⟨(e | _) | _, e'⟩
      · rfl
      · rfl
      · rfl
      · exact ih e'

theorem new_tame (env : WildEnv σ) {k : ErrKind} (hk : k ≠ .interrupted) (fmt : Format) (s : σ) :
    Encoder.new (WildEnv.tame env k) fmt s = (Unwind.new env fmt s).map (tameP k) := by
  cases fmt with
  | gzip =>
    simp only [Encoder.new, GzipEncoder.new, Unwind.new]
    rw [writeAll_tame hk]
    rcases Unwind.writeAll env.S s gzipHeader with _ | ⟨(e | _) | _, t⟩ <;> rfl
  | zlib =>
    simp only [Encoder.new, ZlibEncoder.new, Unwind.new]
    rw [writeAll_tame hk]
    rcases Unwind.writeAll env.S s zlibHeader with _ | ⟨(e | _) | _, t⟩ <;> rfl
  | deflate => rfl

theorem dropWith_tame (env : WildEnv σ) {k : ErrKind} (hk : k ≠ .interrupted) (u : Bool) (e : DeflateEncoder σ) (s : σ) :
    e.dropWith (WildEnv.tame env k) s = (Unwind.dropWith env u e s).map (·.2) := by
  simp only [DeflateEncoder.dropWith, Unwind.dropWith]
  rw [finishInner_tame env hk]
  rcases Unwind.finishInner env e with _ | ⟨r, e', s'⟩ <;> rfl

/-! ## `finish`, `drop`, sessions -/

theorem finishInner_ok {env : WildEnv σ} {e e' : DeflateEncoder σ} {t : σ} {s : Option σ}
    (h : Unwind.finishInner env e = some (.ok (some t), e', s)) : e'.bitwiseWriter = none ∧ s = some t := by
  unfold Unwind.finishInner at h
  split at h
  · cases h
  · rcases hc : Unwind.compressChunk env e true with _ | ⟨(f | _) | _, e1⟩ <;> rw [hc] at h
    · cases h
    · cases h
    · cases h
    · simp only [some_bind] at h
      rcases hw : e1.bitwiseWriter with _ | w <;> rw [hw] at h
      · cases h
      · simp only [some_bind] at h
        rcases hp : Unwind.finishPartialBits env.S w with _ | ⟨(f | _) | _, w'⟩ <;> rw [hp] at h
        · cases h
        · cases h
        · cases h
        · cases h; exact ⟨rfl, rfl⟩

theorem dropWith_none {env : WildEnv σ} {u : Bool} {e : DeflateEncoder σ} {s : σ} (h : e.bitwiseWriter = none) :
    Unwind.dropWith env u e s = some (.returned (.ok ()), s) := by
  simp only [Unwind.dropWith, Unwind.finishInner, h]
  rfl

/-- What a session with the tamed sink ends with. -/
def TameFate (o : Fate) (r : Except ErrKind Unit) : Prop :=
  match o with
  | .returned r' => r = r'
  | .panicked => ∃ k, r = .error k
  | .aborted => False

/-- `TameFate`, and the final states agree, unless the process is aborted -/
def Agree (x : Option (Fate × σ)) (y : Option (Except ErrKind Unit × σ)) : Prop :=
  match x with
  | none => y = none
  | some (o, s) => o = .aborted ∨ ∃ r, y = some (r, s) ∧ TameFate o r

theorem deflateFinish_tame (env : WildEnv σ) {k : ErrKind} (hk : k ≠ .interrupted) (u : Bool) (e : DeflateEncoder σ) :
    Agree (Unwind.deflateFinish env u e) (e.finish (WildEnv.tame env k)) := by
  simp only [DeflateEncoder.finish, Unwind.deflateFinish]
  rw [finishInner_tame env hk]
  rcases hf : Unwind.finishInner env e with _ | ⟨(f | _) | (_ | t), e', s'⟩
  · rfl
  · rcases s' with _ | s'
    · rfl
    · simp only [Option.map_some, some_bind, tameP, tameR_error]
      rw [dropWith_tame env hk u]
      rcases Unwind.dropWith env u e' s' with _ | ⟨d, t⟩
      · rfl
      · rcases d with r' | _ | _
        · exact .inr ⟨_, rfl, rfl⟩
        · cases u
          · exact .inr ⟨_, rfl, _, rfl⟩
          · exact .inl rfl
        · exact .inl rfl
  · rcases s' with _ | s'
    · cases u <;> rfl
    · cases u
      · simp only [Option.map_some, some_bind, tameP, tameR_panic]
        rw [dropWith_tame env hk true]
        rw [if_neg (by decide)]
        rcases Unwind.dropWith env true e' s' with _ | ⟨d, t⟩
        · rfl
        · rcases d with r' | _ | _
          · exact .inr ⟨_, rfl, _, rfl⟩
          · exact .inl rfl
          · exact .inl rfl
      · exact .inl rfl
  · rfl
  · obtain ⟨h1, h2⟩ := finishInner_ok hf
    subst h2
    simp only [Option.map_some, some_bind, tameP, tameR_ok]
    rw [dropWith_tame env hk u, dropWith_none h1]
    exact .inr ⟨_, rfl, rfl⟩

theorem deflateDrop_tame (env : WildEnv σ) {k : ErrKind} (hk : k ≠ .interrupted) (u : Bool) (e : DeflateEncoder σ) :
    e.drop (WildEnv.tame env k) = (Unwind.deflateDrop env u e).map (·.2) := by
  simp only [DeflateEncoder.drop, Unwind.deflateDrop]
  rcases e.bitwiseWriter with _ | w
  · rfl
  · simp only [some_bind]
    exact dropWith_tame env hk u e w.out

/-- the checksums over the tamed sink -/
def trailerTame (S : Sink σ) (s : σ) : List (List UInt8) → Option (Except ErrKind Unit × σ)
  | [] => some (.ok (), s)
  | l :: rest => do
    let (r, s) ← S.writeAll s l
    match r with
    | .ok () => trailerTame S s rest
    | .error k => return (.error k, s)

theorem trailer_tame (env : WildEnv σ) {k : ErrKind} (hk : k ≠ .interrupted) (u : Bool) (l : List (List UInt8)) (s : σ) :
    Agree (Unwind.finishFramed.trailerLoop env u s l) (trailerTame (Zopfli.tame k env.S) s l) := by
  induction l generalizing s with
  | nil => exact .inr ⟨_, rfl, rfl⟩
  | cons b rest ih =>
    simp only [Unwind.finishFramed.trailerLoop, trailerTame]
    rw [writeAll_tame hk]
    rcases Unwind.writeAll env.S s b with _ | ⟨(f | _) | _, t⟩
    · rfl
    · exact .inr ⟨_, rfl, rfl⟩
    · cases u
      · exact .inr ⟨_, rfl, _, rfl⟩
      · exact .inl rfl
    · exact ih t

theorem finishFramed_tame (env : WildEnv σ) {k : ErrKind} (hk : k ≠ .interrupted) (u : Bool) (d : DeflateEncoder σ) (l : List (List UInt8)) :
    Agree (Unwind.finishFramed env u d l)
      (d.finish (WildEnv.tame env k) >>= fun x => match x.1 with
        | .error k => some (.error k, x.2)
        | .ok () => trailerTame (Zopfli.tame k env.S) x.2 l) := by
  have h := deflateFinish_tame env hk u d
  simp only [Unwind.finishFramed]
  generalize Unwind.deflateFinish env u d = x at h ⊢
  rcases x with _ | ⟨o, s⟩
  · have h : d.finish (WildEnv.tame env k) = none := h
    rw [h]
    rfl
  · rcases h with rfl | ⟨r, h1, h2⟩
    · exact .inl rfl
    · rw [h1]
      rcases o with (e | _) | _ | _
      · cases h2; exact .inr ⟨_, rfl, rfl⟩
      · cases h2; exact trailer_tame env hk u l s
      · obtain ⟨e, rfl⟩ := h2; exact .inr ⟨_, rfl, _, rfl⟩
      · exact h2.elim

theorem trailerTame_two (S : Sink σ) (s : σ) (a b : List UInt8) :
    trailerTame S s [a, b] = (S.writeAll s a >>= fun x => match x.1 with
      | .error k => some (.error k, x.2)
      | .ok () => S.writeAll x.2 b) := by
  simp only [trailerTame]
  rcases S.writeAll s a with _ | ⟨_ | _, t⟩
  · rfl
  · rfl
  · simp only [some_bind]
    rcases S.writeAll t b with _ | ⟨_ | _, t⟩ <;> rfl

theorem trailerTame_one (S : Sink σ) (s : σ) (a : List UInt8) : trailerTame S s [a] = S.writeAll s a := by
  simp only [trailerTame]
  rcases S.writeAll s a with _ | ⟨_ | _, t⟩ <;> rfl

theorem finish_tame (env : WildEnv σ) {k : ErrKind} (hk : k ≠ .interrupted) (u : Bool) (e : Encoder σ) :
    Agree (Unwind.finish env u e) (e.finish (WildEnv.tame env k)) := by
  rcases e with ⟨d, c, n⟩ | ⟨d, a⟩ | d
  · simp only [Encoder.finish, GzipEncoder.finish, Unwind.finish]
    rcases d with _ | d
    · rfl
    · have h := finishFramed_tame env hk u d [toLeBytes (crcFinalize c), toLeBytes n]
      simp only [trailerTame_two] at h
      exact h
  · simp only [Encoder.finish, ZlibEncoder.finish, Unwind.finish]
    rcases d with _ | d
    · rfl
    · have h := finishFramed_tame env hk u d [toBeBytes a.finish]
      simp only [trailerTame_one] at h
      exact h
  · exact deflateFinish_tame env hk u d

/-- the same for `drop`, which hides errors -/
def AgreeDrop (x : Option (Fate × σ)) (y : Option σ) : Prop :=
  match x with
  | none => y = none
  | some (o, s) => o = .aborted ∨ y = some s ∧ (o = .returned (.ok ()) ∨ o = .panicked)

theorem drop_tame (env : WildEnv σ) {k : ErrKind} (hk : k ≠ .interrupted) (u : Bool) (e : Encoder σ) :
    AgreeDrop (Unwind.drop env u e) (e.drop (WildEnv.tame env k)) := by
  have key : ∀ {x : Option (Fate × σ)} {y}, Agree x y →
      AgreeDrop (do
        let (r, s) ← x
        match r with
        | .returned _ => return (.returned (.ok ()), s)
        | r => return (r, s)) (y.map (·.2)) := by
    intro x y h
    rcases x with _ | ⟨o, s⟩
    · have h : y = none := h
      rw [h]
      rfl
    · rcases h with rfl | ⟨r, h1, h2⟩
      · exact .inl rfl
      · rw [h1]
        rcases o with _ | _ | _
        · exact .inr ⟨rfl, .inl rfl⟩
        · exact .inr ⟨rfl, .inr rfl⟩
        · exact h2.elim
  rcases e with ⟨d, c, n⟩ | ⟨d, a⟩ | d
  · have h := key (finish_tame env hk u (.gzip ⟨d, c, n⟩))
    have h2 : (Encoder.gzip ⟨d, c, n⟩).drop (WildEnv.tame env k) = ((Encoder.gzip ⟨d, c, n⟩).finish (WildEnv.tame env k)).map (·.2) := by
      simp only [Encoder.drop, Encoder.finish, GzipEncoder.drop, GzipEncoder.finish]
      rcases d with _ | d
      · rfl
      · simp only [some_bind]
        rcases GzipEncoder.finishInner (WildEnv.tame env k) _ d with _ | _ <;> rfl
    rw [h2]
    exact h
  · have h := key (finish_tame env hk u (.zlib ⟨d, a⟩))
    have h2 : (Encoder.zlib ⟨d, a⟩).drop (WildEnv.tame env k) = ((Encoder.zlib ⟨d, a⟩).finish (WildEnv.tame env k)).map (·.2) := by
      simp only [Encoder.drop, Encoder.finish, ZlibEncoder.drop, ZlibEncoder.finish]
      rcases d with _ | d
      · rfl
      · simp only [some_bind]
        rcases ZlibEncoder.finishInner (WildEnv.tame env k) _ d with _ | _ <;> rfl
    rw [h2]
    exact h
  · simp only [Encoder.drop, Unwind.drop]
    rw [deflateDrop_tame env hk u]
    rcases Unwind.deflateDrop env u d with _ | ⟨o, s⟩
    · rfl
    · rcases o with _ | _ | _
      · exact .inr ⟨rfl, .inl rfl⟩
      · exact .inr ⟨rfl, .inr rfl⟩
      · exact .inl rfl

/-- what the result of the session becomes -/
def SessionFate (ending : Ending) (o : Fate) (r : Except ErrKind Unit) : Prop :=
  match o with
  | .returned r' => r = r'
  | .panicked => (∃ k, r = .error k) ∨ (ending = .drop ∧ r = .ok ())
  | .aborted => False

theorem session_tame (env : WildEnv σ) {k : ErrKind} (hk : k ≠ .interrupted) (fmt : Format) (calls : List Call) (ending : Ending) (s : σ) :
    match Unwind.session env fmt calls ending s with
    | none => session (WildEnv.tame env k) fmt calls ending s = none
    | some (o, s') => o = .aborted ∨ ∃ r, session (WildEnv.tame env k) fmt calls ending s = some (r, s') ∧ SessionFate ending o r := by
  simp only [session, Unwind.session]
  rw [new_tame env hk]
  rcases Unwind.new env fmt s with _ | ⟨(f | _) | e, t⟩
  · rfl
  · exact .inr ⟨_, rfl, rfl⟩
  · exact .inr ⟨_, rfl, .inl ⟨_, rfl⟩⟩
  · simp only [Option.map_some, some_bind, tameP, tameR_ok]
    rw [run_tame env hk]
    rcases Unwind.run env calls e with _ | ⟨(f | _) | _, e'⟩
    · rfl
    · simp only [Option.map_some, some_bind, tameP, tameR_error]
      have h := drop_tame env hk false e'
      generalize Unwind.drop env false e' = x at h ⊢
      rcases x with _ | ⟨o, s'⟩
      · have h : e'.drop (WildEnv.tame env k) = none := h
        rw [h]
        rfl
      · rcases h with rfl | ⟨h1, rfl | rfl⟩
        · exact .inl rfl
        · rw [h1]; exact .inr ⟨_, rfl, rfl⟩
        · rw [h1]; exact .inr ⟨_, rfl, .inl ⟨_, rfl⟩⟩
    · simp only [Option.map_some, some_bind, tameP, tameR_panic]
      have h := drop_tame env hk true e'
      generalize Unwind.drop env true e' = x at h ⊢
      rcases x with _ | ⟨o, s'⟩
      · have h : e'.drop (WildEnv.tame env k) = none := h
        rw [h]
        rfl
      · rcases h with rfl | ⟨h1, rfl | rfl⟩
        · exact .inl rfl
        · rw [h1]; exact .inr ⟨_, rfl, .inl ⟨_, rfl⟩⟩
        · exact .inl rfl
    · simp only [Option.map_some, some_bind, tameP, tameR_ok]
      cases ending with
      | finish =>
        have h := finish_tame env hk false e'
        dsimp only
        generalize Unwind.finish env false e' = x at h ⊢
        rcases x with _ | ⟨o, s'⟩
        · exact h
        · rcases h with rfl | ⟨r, h1, h2⟩
          · exact .inl rfl
          · refine .inr ⟨r, h1, ?_⟩
            rcases o with _ | _ | _
            · exact h2
            · exact .inl h2
            · exact h2
      | drop =>
        have h := drop_tame env hk false e'
        dsimp only
        generalize Unwind.drop env false e' = x at h ⊢
        rcases x with _ | ⟨o, s'⟩
        · have h : e'.drop (WildEnv.tame env k) = none := h
          rw [h]
          rfl
        · rcases h with rfl | ⟨h1, rfl | rfl⟩
          · exact .inl rfl
          · rw [h1]; exact .inr ⟨_, rfl, rfl⟩
          · rw [h1]; exact .inr ⟨_, rfl, .inr ⟨rfl, rfl⟩⟩

/-! ## Sinks that panic at most once -/

variable {I Q : σ → Prop}

/-- The call takes the sink from `s` to `s'`. -/
def Post (I Q : σ → Prop) (s : σ) (r : Except Fault α) (s' : σ) : Prop :=
  (I s → I s' ∧ (r = .error .panic → Q s')) ∧ (Q s → Q s' ∧ r ≠ .error .panic)

theorem Post.refl {s : σ} {r : Except Fault α} (h : r ≠ .error .panic) : Post I Q s r s :=
  ⟨fun h1 => ⟨h1, fun h2 => absurd h2 h⟩, fun h1 => ⟨h1, h⟩⟩

theorem Post.trans {β : Type} {s t u : σ} {r : Except Fault α} {r' : Except Fault β} (h1 : Post I Q s r t) (h2 : Post I Q t r' u) :
    Post I Q s r' u :=
  ⟨fun h => h2.1 (h1.1 h).1, fun h => h2.2 (h1.2 h).1⟩

theorem Post.congr {β : Type} {s t : σ} {r : Except Fault α} {r' : Except Fault β} (h1 : Post I Q s r t)
    (h : r = .error .panic ↔ r' = .error .panic) : Post I Q s r' t :=
  ⟨fun h2 => ⟨(h1.1 h2).1, fun h3 => (h1.1 h2).2 (h.2 h3)⟩, fun h2 => ⟨(h1.2 h2).1, fun h3 => (h1.2 h2).2 (h.2 h3)⟩⟩

theorem writeAll_post {S : WildSink σ} (hS : PanicsAtMostOnce S I Q) (s : σ) (buf : List UInt8) (x) :
    Unwind.writeAll S s buf = some x → Post I Q s x.1 x.2 := by
  refine Unwind.writeAll.partial_correctness (S := S) (motive := fun s buf x => Post I Q s x.1 x.2) ?_ s buf x
  intro rec ih s buf x h
  have h1 := hS.write s buf
  split at h
  · cases h; exact .refl (by nofun)
  · have h2 := hS.write_quiet s buf ‹_›
    rcases hw : S.write s buf with ⟨r, t⟩
    rw [hw] at h h1 h2
    rcases r with (e | _) | n
    · have h3 : Post I Q s (.error (.error e) : Except Fault Unit) t :=
        ⟨fun g => ⟨(h1 g).1, by nofun⟩, fun g => ⟨(h2 g).1, by nofun⟩⟩
      cases e with
      | interrupted => exact h3.trans (ih _ _ _ h)
      | _ => cases h; exact h3
    · cases h
      exact ⟨fun g => ⟨(h1 g).1, fun _ => (h1 g).2 (.inl rfl)⟩, fun g => absurd (.inl rfl) (h2 g).2⟩
    · have h3 : n ≤ buf.length → Post I Q s (.ok () : Except Fault Unit) t := fun _ =>
        ⟨fun g => ⟨(h1 g).1, by nofun⟩, fun g => ⟨(h2 g).1, by nofun⟩⟩
      rcases n with _ | n
      · cases h
        exact (h3 (Nat.zero_le _)).congr (by constructor <;> nofun)
      · dsimp only at h
        by_cases hn : n + 1 ≤ buf.length
        · rw [if_pos hn] at h
          exact (h3 hn).trans (ih _ _ _ h)
        · rw [if_neg hn] at h
          cases h
          have hp : Panics (.ok (n + 1)) buf := .inr ⟨_, rfl, by omega⟩
          exact ⟨fun g => ⟨(h1 g).1, fun _ => (h1 g).2 hp⟩, fun g => absurd hp (h2 g).2⟩

theorem addBytes_post {S : WildSink σ} (hS : PanicsAtMostOnce S I Q) {w : BitwiseWriter σ} {l : List UInt8} {x}
    (h : Unwind.addBytes S w l = some x) : Post I Q w.out x.1 x.2.out := by
  simp only [Unwind.addBytes, Option.bind_eq_bind, Option.bind_eq_some_iff, Prod.exists] at h
  obtain ⟨r, t, h1, h2⟩ := h
  cases h2
  exact writeAll_post hS _ _ _ h1

theorem finishPartialBits_post {S : WildSink σ} (hS : PanicsAtMostOnce S I Q) {w : BitwiseWriter σ} {x}
    (h : Unwind.finishPartialBits S w = some x) : Post I Q w.out x.1 x.2.out := by
  unfold Unwind.finishPartialBits at h
  split at h
  · simp only [Option.bind_eq_bind, Option.bind_eq_some_iff, Prod.exists] at h
    obtain ⟨r, t, h1, h2⟩ := h
    have h3 := addBytes_post hS h1
    rcases r with e | _ <;> cases h2 <;> exact h3
  · cases h; exact .refl (by nofun)

theorem exec_post {S : WildSink σ} (hS : PanicsAtMostOnce S I Q) {w : BitwiseWriter σ} {op : WOp} {x}
    (h : Unwind.exec S w op = some x) : Post I Q w.out x.1 x.2.out := by
  cases op with
  | bit b =>
    rw [Unwind.exec, addBit_wild] at h
    split at h
    · have g := finishPartialBits_post hS h
      exact g
    · cases h; exact .refl (by nofun)
  | align => exact finishPartialBits_post hS h
  | bytes l => exact addBytes_post hS h

theorem execAll_post {S : WildSink σ} (hS : PanicsAtMostOnce S I Q) {ops : List WOp} {w : BitwiseWriter σ} {x}
    (h : Unwind.execAll S w ops = some x) : Post I Q w.out x.1 x.2.out := by
  induction ops generalizing w with
  | nil => cases h; exact .refl (by nofun)
  | cons op ops ih =>
    simp only [Unwind.execAll, Option.bind_eq_bind, Option.bind_eq_some_iff, Prod.exists] at h
    obtain ⟨r, t, h1, h2⟩ := h
    have h3 := exec_post hS h1
    rcases r with e | _
    · cases h2; exact h3
    · exact h3.trans (ih h2)

theorem compressChunk_post {env : WildEnv σ} (hS : PanicsAtMostOnce env.S I Q) {e : DeflateEncoder σ} {last : Bool} {x}
    (h : Unwind.compressChunk env e last = some x) : ∃ s t, e.sink? = some s ∧ x.2.sink? = some t ∧ Post I Q s x.1 t := by
  simp only [Unwind.compressChunk, Option.bind_eq_bind, Option.bind_eq_some_iff, Prod.exists] at h
  obtain ⟨w, h1, ops, -, r, w', h2, h3⟩ := h
  cases h3
  exact ⟨w.out, w'.out, by simp [DeflateEncoder.sink?, h1], rfl, execAll_post hS h2⟩

theorem finishInner_post {env : WildEnv σ} (hS : PanicsAtMostOnce env.S I Q) {e : DeflateEncoder σ} {s : σ} (hs : e.sink? = some s) {x}
    (h : Unwind.finishInner env e = some x) :
    ∃ t, x.2.2 = some t ∧ (x.2.1.sink? = some t ∨ x.2.1.bitwiseWriter = none) ∧ Post I Q s x.1 t := by
  unfold Unwind.finishInner at h
  split at h
  · rename_i hw
    simp [DeflateEncoder.sink?, hw] at hs
  · simp only [Option.bind_eq_bind, Option.bind_eq_some_iff, Prod.exists] at h
    obtain ⟨r, e1, h1, h2⟩ := h
    obtain ⟨s1, t, g1, g2, g3⟩ := compressChunk_post hS h1
    rw [hs] at g1
    cases g1
    have g2 : e1.sink? = some t := g2
    rcases r with k | _
    · cases h2
      exact ⟨t, g2, .inl g2, g3.congr (by simp)⟩
    · simp only [Option.bind_eq_some_iff, Prod.exists] at h2
      obtain ⟨w, h3, r, w', h4, h5⟩ := h2
      have g4 := finishPartialBits_post hS h4
      simp only [DeflateEncoder.sink?, h3, Option.map_some, Option.some.injEq] at g2
      subst g2
      have g5 := g3.trans g4
      rcases r with k | _
      · cases h5
        exact ⟨_, rfl, .inr rfl, g5.congr (by simp)⟩
      · cases h5
        exact ⟨_, rfl, .inr rfl, g5.congr (by constructor <;> nofun)⟩

theorem deflateWrite_post {env : WildEnv σ} (hS : PanicsAtMostOnce env.S I Q) {e : DeflateEncoder σ} {buf : List UInt8} {s : σ} (hs : e.sink? = some s) {x}
    (h : Unwind.deflateWrite env e buf = some x) : ∃ t, x.2.sink? = some t ∧ Post I Q s x.1 t := by
  simp only [Unwind.deflateWrite, Option.bind_eq_bind, Option.bind_eq_some_iff, Prod.exists] at h
  obtain ⟨r, e1, h1, h2⟩ := h
  have g : ∃ t, e1.sink? = some t ∧ Post I Q s r t := by
    split at h1
    · obtain ⟨s1, t, g1, g2, g3⟩ := compressChunk_post hS h1
      rw [hs] at g1
      cases g1
      exact ⟨t, g2, g3⟩
    · cases h1
      exact ⟨s, hs, .refl (by nofun)⟩
  obtain ⟨t, g1, g2⟩ := g
  rcases r with k | _
  · cases h2
    exact ⟨t, g1, g2.congr (by simp)⟩
  · cases h2
    exact ⟨t, g1, g2.congr (by constructor <;> nofun)⟩

theorem deflateFlush_post {env : WildEnv σ} (hS : PanicsAtMostOnce env.S I Q) {e : DeflateEncoder σ} {s : σ} (hs : e.sink? = some s) {x}
    (h : Unwind.deflateFlush env e = some x) : ∃ t, x.2.sink? = some t ∧ Post I Q s x.1 t := by
  simp only [Unwind.deflateFlush, Option.bind_eq_bind, Option.bind_eq_some_iff] at h
  obtain ⟨w, h1, h2⟩ := h
  simp only [DeflateEncoder.sink?, h1, Option.map_some, Option.some.injEq] at hs
  subst hs
  cases h2
  exact ⟨_, rfl, fun g => hS.flush _ g, fun g => hS.flush_quiet _ g⟩

theorem write_post {env : WildEnv σ} (hS : PanicsAtMostOnce env.S I Q) {e : Encoder σ} {buf : List UInt8} {s : σ} (hs : e.sink? = some s) {x}
    (h : Unwind.write env e buf = some x) : ∃ t, x.2.sink? = some t ∧ Post I Q s x.1 t := by
  rcases e with ⟨d, c, n⟩ | ⟨d, a⟩ | d
  · simp only [Unwind.write, Option.bind_eq_bind, Option.bind_eq_some_iff, Prod.exists] at h
    obtain ⟨d, rfl, r, d', h1, h2⟩ := h
    obtain ⟨t, g1, g2⟩ := deflateWrite_post hS hs h1
    rcases r with k | _ <;> cases h2 <;> exact ⟨t, g1, g2⟩
  · simp only [Unwind.write, Option.bind_eq_bind, Option.bind_eq_some_iff, Prod.exists] at h
    obtain ⟨d, rfl, r, d', h1, h2⟩ := h
    obtain ⟨t, g1, g2⟩ := deflateWrite_post hS hs h1
    rcases r with k | _ <;> cases h2 <;> exact ⟨t, g1, g2⟩
  · simp only [Unwind.write, Option.bind_eq_bind, Option.bind_eq_some_iff, Prod.exists] at h
    obtain ⟨r, d', h1, h2⟩ := h
    obtain ⟨t, g1, g2⟩ := deflateWrite_post hS hs h1
    cases h2
    exact ⟨t, g1, g2⟩

theorem flush_post {env : WildEnv σ} (hS : PanicsAtMostOnce env.S I Q) {e : Encoder σ} {s : σ} (hs : e.sink? = some s) {x}
    (h : Unwind.flush env e = some x) : ∃ t, x.2.sink? = some t ∧ Post I Q s x.1 t := by
  rcases e with ⟨d, c, n⟩ | ⟨d, a⟩ | d
  · simp only [Unwind.flush, Option.bind_eq_bind, Option.bind_eq_some_iff, Prod.exists] at h
    obtain ⟨d, rfl, r, d', h1, h2⟩ := h
    obtain ⟨t, g1, g2⟩ := deflateFlush_post hS hs h1
    cases h2
    exact ⟨t, g1, g2⟩
  · simp only [Unwind.flush, Option.bind_eq_bind, Option.bind_eq_some_iff, Prod.exists] at h
    obtain ⟨d, rfl, r, d', h1, h2⟩ := h
    obtain ⟨t, g1, g2⟩ := deflateFlush_post hS hs h1
    cases h2
    exact ⟨t, g1, g2⟩
  · simp only [Unwind.flush, Option.bind_eq_bind, Option.bind_eq_some_iff, Prod.exists] at h
    obtain ⟨r, d', h1, h2⟩ := h
    obtain ⟨t, g1, g2⟩ := deflateFlush_post hS hs h1
    cases h2
    exact ⟨t, g1, g2⟩

theorem run_post {env : WildEnv σ} (hS : PanicsAtMostOnce env.S I Q) {calls : List Call} {e : Encoder σ} {s : σ} (hs : e.sink? = some s) {x}
    (h : Unwind.run env calls e = some x) : ∃ t, x.2.sink? = some t ∧ Post I Q s x.1 t := by
  induction calls generalizing e s with
  | nil => cases h; exact ⟨s, hs, .refl (by nofun)⟩
  | cons c l ih =>
    cases c with
    | write buf =>
      simp only [Unwind.run, Option.bind_eq_bind, Option.bind_eq_some_iff, Prod.exists] at h
      obtain ⟨r, e1, h1, h2⟩ := h
      obtain ⟨t, g1, g2⟩ := write_post hS hs h1
      rcases r with k | _
      · cases h2
        exact ⟨t, g1, g2.congr (by simp)⟩
      · obtain ⟨u, g3, g4⟩ := ih g1 h2
        exact ⟨u, g3, g2.trans g4⟩
    | flush =>
      simp only [Unwind.run, Option.bind_eq_bind, Option.bind_eq_some_iff, Prod.exists] at h
      obtain ⟨r, e1, h1, h2⟩ := h
      obtain ⟨t, g1, g2⟩ := flush_post hS hs h1
      rcases r with k | _
      · cases h2
        exact ⟨t, g1, g2⟩
      · obtain ⟨u, g3, g4⟩ := ih g1 h2
        exact ⟨u, g3, g2.trans g4⟩

/-- Something that ends with a fate takes the sink from `s` to `s'`. -/
def FPost (I Q : σ → Prop) (unwinding : Bool) (s : σ) (o : Fate) (s' : σ) : Prop :=
  (Q s → Q s' ∧ ∃ r, o = .returned r) ∧ (unwinding = false → I s → I s' ∧ o ≠ .aborted ∧ (o = .panicked → Q s'))

theorem Post.fate {s t : σ} {r : Except Fault Unit} (h : Post I Q s r t) (u : Bool) : FPost I Q u s (outcome u r) t := by
  rcases r with (k | _) | _
  · exact ⟨fun g => ⟨(h.2 g).1, _, rfl⟩, fun _ g => ⟨(h.1 g).1, by nofun, by nofun⟩⟩
  · refine ⟨fun g => absurd rfl (h.2 g).2, ?_⟩
    rintro rfl g
    exact ⟨(h.1 g).1, by simp [outcome], fun _ => (h.1 g).2 rfl⟩
  · exact ⟨fun g => ⟨(h.2 g).1, _, rfl⟩, fun _ g => ⟨(h.1 g).1, by nofun, by nofun⟩⟩

theorem dropWith_post {env : WildEnv σ} (hS : PanicsAtMostOnce env.S I Q) {u : Bool} {e : DeflateEncoder σ} {s : σ}
    (hs : e.sink? = some s ∨ e.bitwiseWriter = none) {x} (h : Unwind.dropWith env u e s = some x) : FPost I Q u s x.1 x.2 := by
  rcases hs with hs | hs
  · simp only [Unwind.dropWith, Option.bind_eq_bind, Option.bind_eq_some_iff, Prod.exists] at h
    obtain ⟨r, e1, s1, h1, h2⟩ := h
    obtain ⟨t, g1, -, g2⟩ := finishInner_post hS hs h1
    have g1 : s1 = some t := g1
    subst g1
    cases h2
    refine Post.fate (g2.congr ?_) u
    rcases r with _ | _
    · simp [Except.map]
    · simp [Except.map]
  · rw [dropWith_none hs] at h
    cases h
    exact ⟨fun g => ⟨g, _, rfl⟩, fun _ g => ⟨g, by nofun, by nofun⟩⟩

theorem deflateFinish_post {env : WildEnv σ} (hS : PanicsAtMostOnce env.S I Q) {u : Bool} {e : DeflateEncoder σ} {s : σ}
    (hs : e.sink? = some s) {x} (h : Unwind.deflateFinish env u e = some x) : FPost I Q u s x.1 x.2 := by
  simp only [Unwind.deflateFinish, Option.bind_eq_bind, Option.bind_eq_some_iff, Prod.exists] at h
  obtain ⟨r, e1, s1, h1, h2⟩ := h
  obtain ⟨t, g1, g0, g2⟩ := finishInner_post hS hs h1
  have g1 : s1 = some t := g1
  have g0 : e1.sink? = some t ∨ e1.bitwiseWriter = none := g0
  subst g1
  rcases r with (k | _) | (_ | v)
  · simp only [Option.bind_eq_some_iff, Option.some.injEq, Prod.exists] at h2
    obtain ⟨_, rfl, d, s2, h3, h4⟩ := h2
    have g3 := dropWith_post hS g0 h3
    cases h4
    constructor
    · intro g
      obtain ⟨g4, r, g5⟩ := g3.1 (g2.2 g).1
      have g5 : d = .returned r := g5
      subst g5
      exact ⟨g4, _, rfl⟩
    · rintro rfl g
      obtain ⟨g4, g5, g6⟩ := g3.2 rfl (g2.1 g).1
      have g5 : d ≠ .aborted := g5
      rcases d with _ | _ | _
      · exact ⟨g4, by nofun, by nofun⟩
      · exact ⟨g4, by simp [afterDrop], fun _ => g6 rfl⟩
      · exact absurd rfl g5
  · cases u
    · simp only [Bool.false_eq_true, if_false, Option.bind_eq_some_iff, Option.some.injEq, Prod.exists] at h2
      obtain ⟨_, rfl, d, s2, h3, h4⟩ := h2
      have g3 := dropWith_post hS g0 h3
      cases h4
      constructor
      · intro g
        exact absurd rfl (g2.2 g).2
      · intro _ g
        obtain ⟨g4, r, g5⟩ := g3.1 ((g2.1 g).2 rfl)
        have g5 : d = .returned r := g5
        subst g5
        refine ⟨?_, by nofun, fun _ => g4⟩
        have h5 := h3
        simp only [Unwind.dropWith, Option.bind_eq_bind, Option.bind_eq_some_iff, Prod.exists] at h5
        obtain ⟨r1, e2, s3, h6, h7⟩ := h5
        simp only [Option.pure_def, Option.some.injEq, Prod.mk.injEq] at h7
        obtain ⟨-, h7⟩ := h7
        subst h7
        rcases g0 with g0 | g0
        · obtain ⟨t2, j1, -, j2⟩ := finishInner_post hS g0 h6
          have j1 : s3 = some t2 := j1
          subst j1
          exact (j2.1 (g2.1 g).1).1
        · unfold Unwind.finishInner at h6
          rw [g0] at h6
          cases h6
          exact (g2.1 g).1
    · simp only [if_true, Option.bind_eq_some_iff, Option.some.injEq] at h2
      obtain ⟨_, rfl, h4⟩ := h2
      cases h4
      exact ⟨fun g => absurd rfl (g2.2 g).2, by nofun⟩
  · cases h2
  · simp only [Option.bind_eq_some_iff, Option.some.injEq, Prod.exists] at h2
    obtain ⟨_, rfl, d, s2, h3, h4⟩ := h2
    have g3 := dropWith_post hS g0 h3
    cases h4
    constructor
    · intro g
      obtain ⟨g4, r, g5⟩ := g3.1 (g2.2 g).1
      have g5 : d = .returned r := g5
      subst g5
      exact ⟨g4, _, rfl⟩
    · rintro rfl g
      obtain ⟨g4, g5, g6⟩ := g3.2 rfl (g2.1 g).1
      have g5 : d ≠ .aborted := g5
      rcases d with _ | _ | _
      · exact ⟨g4, by nofun, by nofun⟩
      · exact ⟨g4, by simp [afterDrop], fun _ => g6 rfl⟩
      · exact absurd rfl g5

theorem trailer_post {env : WildEnv σ} (hS : PanicsAtMostOnce env.S I Q) {u : Bool} {l : List (List UInt8)} {s : σ} {x}
    (h : Unwind.finishFramed.trailerLoop env u s l = some x) : FPost I Q u s x.1 x.2 := by
  induction l generalizing s with
  | nil => cases h; exact ⟨fun g => ⟨g, _, rfl⟩, fun _ g => ⟨g, by nofun, by nofun⟩⟩
  | cons b rest ih =>
    simp only [Unwind.finishFramed.trailerLoop, Option.bind_eq_bind, Option.bind_eq_some_iff, Prod.exists] at h
    obtain ⟨r, t, h1, h2⟩ := h
    have g := writeAll_post hS _ _ _ h1
    rcases r with k | _
    · cases h2
      exact g.fate u
    · have g2 := ih h2
      exact ⟨fun j => g2.1 (g.2 j).1, fun j1 j2 => g2.2 j1 (g.1 j2).1⟩

theorem finishFramed_post {env : WildEnv σ} (hS : PanicsAtMostOnce env.S I Q) {u : Bool} {d : DeflateEncoder σ} {l : List (List UInt8)} {s : σ}
    (hs : d.sink? = some s) {x} (h : Unwind.finishFramed env u d l = some x) : FPost I Q u s x.1 x.2 := by
  simp only [Unwind.finishFramed, Option.bind_eq_bind, Option.bind_eq_some_iff, Prod.exists] at h
  obtain ⟨o, t, h1, h2⟩ := h
  have g := deflateFinish_post hS hs h1
  rcases o with (k | _) | _ | _
  · cases h2; exact g
  · have g2 := trailer_post hS h2
    exact ⟨fun j => g2.1 (g.1 j).1, fun j1 j2 => g2.2 j1 (g.2 j1 j2).1⟩
  · cases h2; exact g
  · cases h2; exact g

theorem finish_post {env : WildEnv σ} (hS : PanicsAtMostOnce env.S I Q) {u : Bool} {e : Encoder σ} {s : σ}
    (hs : e.sink? = some s) {x} (h : Unwind.finish env u e = some x) : FPost I Q u s x.1 x.2 := by
  rcases e with ⟨d, c, n⟩ | ⟨d, a⟩ | d
  · simp only [Unwind.finish, Option.bind_eq_bind, Option.bind_eq_some_iff] at h
    obtain ⟨d, rfl, h⟩ := h
    exact finishFramed_post hS hs h
  · simp only [Unwind.finish, Option.bind_eq_bind, Option.bind_eq_some_iff] at h
    obtain ⟨d, rfl, h⟩ := h
    exact finishFramed_post hS hs h
  · exact deflateFinish_post hS hs h

theorem drop_post {env : WildEnv σ} (hS : PanicsAtMostOnce env.S I Q) {u : Bool} {e : Encoder σ} {s : σ}
    (hs : e.sink? = some s) {x} (h : Unwind.drop env u e = some x) : FPost I Q u s x.1 x.2 := by
  have key : ∀ {y : Fate × σ}, FPost I Q u s y.1 y.2 →
      (match y.1 with
        | .returned _ => some (Fate.returned (.ok ()), y.2)
        | r => some (r, y.2)) = some x → FPost I Q u s x.1 x.2 := by
    rintro ⟨o, t⟩ h1 h2
    rcases o with _ | _ | _
    · cases h2
      exact ⟨fun g => ⟨(h1.1 g).1, _, rfl⟩, fun g1 g2 => ⟨(h1.2 g1 g2).1, by nofun, by nofun⟩⟩
    · cases h2; exact h1
    · cases h2; exact h1
  rcases e with ⟨d, c, n⟩ | ⟨d, a⟩ | d
  · simp only [Unwind.drop, Option.bind_eq_bind, Option.bind_eq_some_iff, Prod.exists] at h
    obtain ⟨o, t, h1, h2⟩ := h
    exact key (finish_post hS hs h1) h2
  · simp only [Unwind.drop, Option.bind_eq_bind, Option.bind_eq_some_iff, Prod.exists] at h
    obtain ⟨o, t, h1, h2⟩ := h
    exact key (finish_post hS hs h1) h2
  · simp only [Unwind.drop, Unwind.deflateDrop, Option.bind_eq_bind, Option.bind_eq_some_iff, Prod.exists] at h
    obtain ⟨o, t, ⟨w, h0, h1⟩, h2⟩ := h
    have hs' : d.sink? = some w.out := by simp [DeflateEncoder.sink?, h0]
    have hs : d.sink? = some s := hs
    rw [hs] at hs'
    cases hs'
    exact key (dropWith_post hS (.inl hs) h1) h2

theorem new_post {env : WildEnv σ} (hS : PanicsAtMostOnce env.S I Q) {fmt : Format} {s : σ} {x}
    (h : Unwind.new env fmt s = some x) : Post I Q s x.1 x.2 ∧ ∀ e, x.1 = .ok e → e.sink? = some x.2 := by
  cases fmt with
  | gzip =>
    simp only [Unwind.new, Option.bind_eq_bind, Option.bind_eq_some_iff, Prod.exists] at h
    obtain ⟨r, t, h1, h2⟩ := h
    have g := writeAll_post hS _ _ _ h1
    rcases r with k | _
    · cases h2
      exact ⟨g.congr (by simp), by nofun⟩
    · cases h2
      exact ⟨g.congr (by constructor <;> nofun), by rintro e ⟨⟩; rfl⟩
  | zlib =>
    simp only [Unwind.new, Option.bind_eq_bind, Option.bind_eq_some_iff, Prod.exists] at h
    obtain ⟨r, t, h1, h2⟩ := h
    have g := writeAll_post hS _ _ _ h1
    rcases r with k | _
    · cases h2
      exact ⟨g.congr (by simp), by nofun⟩
    · cases h2
      exact ⟨g.congr (by constructor <;> nofun), by rintro e ⟨⟩; rfl⟩
  | deflate =>
    cases h
    exact ⟨.refl (by nofun), by rintro e ⟨⟩; rfl⟩

theorem session_post {env : WildEnv σ} (hS : PanicsAtMostOnce env.S I Q) {fmt : Format} {calls : List Call} {ending : Ending} {s : σ} {x}
    (h : Unwind.session env fmt calls ending s = some x) : (Q s → ∃ r, x.1 = .returned r) ∧ (I s → x.1 ≠ .aborted ∧ (x.1 = .panicked → Q x.2)) := by
  simp only [Unwind.session, Option.bind_eq_bind, Option.bind_eq_some_iff, Prod.exists] at h
  obtain ⟨r, t, h1, h2⟩ := h
  obtain ⟨g1, g2⟩ := new_post hS h1
  rcases r with k | e
  · cases h2
    have g3 := (g1.congr (r' := (.error k : Except Fault Unit)) (by simp)).fate false
    exact ⟨fun j => (g3.1 j).2, fun j => (g3.2 rfl j).2⟩
  · simp only [Option.bind_eq_some_iff, Prod.exists] at h2
    obtain ⟨r, e', h3, h4⟩ := h2
    obtain ⟨v, g3, g4⟩ := run_post hS (g2 e rfl) h3
    have g5 := g1.trans g4
    rcases r with (k | _) | _
    · simp only [Option.bind_eq_some_iff, Prod.exists] at h4
      obtain ⟨o, s', h5, h6⟩ := h4
      have g6 := drop_post hS g3 h5
      cases h6
      constructor
      · intro j
        obtain ⟨-, r, j2⟩ := g6.1 (g5.2 j).1
        have j2 : o = .returned r := j2
        subst j2
        exact ⟨_, rfl⟩
      · intro j
        obtain ⟨-, j2, j3⟩ := g6.2 rfl (g5.1 j).1
        have j2 : o ≠ .aborted := j2
        rcases o with _ | _ | _
        · exact ⟨by nofun, by nofun⟩
        · exact ⟨by simp [afterDrop], fun _ => j3 rfl⟩
        · exact absurd rfl j2
    · simp only [Option.bind_eq_some_iff, Prod.exists] at h4
      obtain ⟨o, s', h5, h6⟩ := h4
      have g6 := drop_post hS g3 h5
      cases h6
      constructor
      · intro j
        exact absurd rfl (g5.2 j).2
      · intro j
        obtain ⟨j1, r, j2⟩ := g6.1 ((g5.1 j).2 rfl)
        have j2 : o = .returned r := j2
        subst j2
        exact ⟨by nofun, fun _ => j1⟩
    · cases ending with
      | finish =>
        have g6 := finish_post hS g3 h4
        exact ⟨fun j => (g6.1 (g5.2 j).1).2, fun j => (g6.2 rfl (g5.1 j).1).2⟩
      | drop =>
        have g6 := drop_post hS g3 h4
        exact ⟨fun j => (g6.1 (g5.2 j).1).2, fun j => (g6.2 rfl (g5.1 j).1).2⟩

/-! ## The record -/

theorem wildSpy_recorded (S : WildSink σ) {k : ErrKind} (hk : k ≠ .interrupted) :
    Recorded (tame k (wildSpy S)) WildSpy.log (fun s => s.failed.map (Fault.tame k)) := by
  obtain ⟨Sw, Sf⟩ := S
  have fl : ∀ s : WildSpy σ, s.failed.map (Fault.tame k) = none → s.failed = none := fun s h => by simpa using h
  have key : ∀ (s : WildSpy σ) buf r s', s.failed = none → (tame k (wildSpy ⟨Sw, Sf⟩)).write s buf = (r, s') →
      (∃ n, r = .ok n ∧ n ≤ buf.length ∧ (if n = 0 ∧ buf ≠ [] then s'.failed = some (.error .writeZero) ∧ s'.log = s.log else s'.failed = none ∧ s'.log = s.log ++ buf.take n)) ∨
      (r = .error .interrupted ∧ s'.failed = none ∧ s'.log = s.log) ∨
      ∃ f, r = .error (f.tame k) ∧ f ≠ .error .interrupted ∧ s'.failed = some f ∧ s'.log = s.log := by
    intro s buf r s' hs hw
    simp only [tame, wildSpy, hs] at hw
    generalize Sw s.sink buf = q at hw
    rcases q with ⟨(f | _) | n, t⟩
    · rcases f with _ | _ | m
      · cases hw; exact .inr (.inl ⟨rfl, rfl, rfl⟩)
      · cases hw; exact .inr (.inr ⟨.error .writeZero, rfl, by nofun, rfl, rfl⟩)
      · cases hw; exact .inr (.inr ⟨.error (.other m), rfl, by nofun, rfl, rfl⟩)
    · cases hw; exact .inr (.inr ⟨.panic, rfl, by nofun, rfl, rfl⟩)
    · dsimp only at hw
      by_cases hn : n ≤ buf.length
      · rw [if_pos hn, if_pos hn] at hw
        cases hw
        refine .inl ⟨n, rfl, hn, ?_⟩
        split
        · exact ⟨rfl, rfl⟩
        · exact ⟨rfl, rfl⟩
      · rw [if_neg hn, if_neg hn] at hw
        have h0 : ¬ (n = 0 ∧ buf ≠ []) := by omega
        rw [if_neg h0] at hw
        cases hw
        exact .inr (.inr ⟨.panic, rfl, by nofun, rfl, rfl⟩)
  refine ⟨?_, ?_, ?_, ?_, ?_, ?_, ?_, ?_⟩
  · intro s buf n s' hs hw hn
    rcases key s buf _ s' (fl s hs) hw with ⟨m, h1, h2, h3⟩ | ⟨h1, -⟩ | ⟨f, h1, -⟩
    · cases h1
      rw [if_neg (by rintro ⟨h4, h5⟩; rcases hn with hn | hn; exacts [hn h4, h5 hn])] at h3
      exact ⟨by rw [h3.1]; rfl, h3.2⟩
    · cases h1
    · cases h1
  · intro s buf s' hs hb hw
    rcases key s buf _ s' (fl s hs) hw with ⟨m, h1, h2, h3⟩ | ⟨h1, -⟩ | ⟨f, h1, -⟩
    · cases h1
      rw [if_pos ⟨rfl, hb⟩] at h3
      exact ⟨by rw [h3.1]; rfl, h3.2⟩
    · cases h1
    · cases h1
  · intro s buf s' hs hw
    rcases key s buf _ s' (fl s hs) hw with ⟨m, h1, h2, h3⟩ | ⟨h1, h2, h3⟩ | ⟨f, h1, h2, h3⟩
    · cases h1
    · exact ⟨by rw [h2]; rfl, h3⟩
    · rcases f with f | _
      · exact absurd (by injection h1 with h1; exact congrArg Fault.error h1.symm) h2
      · injection h1 with h1
        exact absurd h1.symm hk
  · intro s buf k' s' hs hk' hw
    rcases key s buf _ s' (fl s hs) hw with ⟨m, h1, h2, h3⟩ | ⟨h1, h2, h3⟩ | ⟨f, h1, h2, h3, h4⟩
    · cases h1
    · injection h1 with h1
      exact absurd h1 hk'
    · injection h1 with h1
      exact ⟨by rw [h3, h1]; rfl, h4⟩
  · intro s s' hs hw
    simp only [tame, wildSpy, fl s hs] at hw
    obtain ⟨hr, hw⟩ := Prod.mk.inj hw
    generalize Sf s.sink = q at hr hw
    rcases q with ⟨(f | _) | _, t⟩
    · cases hr
    · cases hr
    · subst hw; exact ⟨rfl, rfl⟩
  · intro s k' s' hs hw
    simp only [tame, wildSpy, fl s hs] at hw
    obtain ⟨hr, hw⟩ := Prod.mk.inj hw
    generalize Sf s.sink = q at hr hw
    rcases q with ⟨f | _, t⟩
    · subst hw
      injection hr with hr
      exact ⟨congrArg some hr, rfl⟩
    · cases hr
  · intro s buf k' hs
    rcases hf : s.failed with _ | f
    · simp [hf] at hs
    · simp only [hf, Option.map_some, Option.some.injEq] at hs
      simp only [tame, wildSpy, hf]
      rcases Sw s.sink buf with ⟨f' | n, t⟩
      · exact ⟨congrArg some hs, rfl⟩
      · dsimp only
        split
        · exact ⟨congrArg some hs, rfl⟩
        · exact ⟨congrArg some hs, rfl⟩
  · intro s k' hs
    rcases hf : s.failed with _ | f
    · simp [hf] at hs
    · simp only [hf, Option.map_some, Option.some.injEq] at hs
      simp only [tame, wildSpy, hf]
      exact ⟨congrArg some hs, trivial⟩

end Zopfli
