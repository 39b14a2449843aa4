import Verif.Spec.Persist
import Verif.Props.Formats
import Verif.Props.BitPacking
import Verif.Props.Faults
import Verif.Props.Integrity
/-!
# C60: what a client that goes on after errors can rely on
-/

namespace Zopfli
open Rfc

variable {log2 : Fp → Fp} {σ : Type} {S : Sink σ} {I : σ → Prop} {patience : σ → Nat}

/-! ## The tape -/

theorem tape_hom (S : Sink σ) : Hom (tape S) S Prod.fst where
  wr t b := by
    unfold tape
    dsimp only
    split <;> rename_i h <;> rw [h]
  fl t := rfl

theorem tape_writeAll {s : σ × List UInt8} {buf : List UInt8} {r : Except ErrKind Unit × σ × List UInt8}
    (h : (tape S).writeAll s buf = some r) : r.1 = .ok () → r.2.2 = s.2 ++ buf := by
  have := Sink.writeAll.partial_correctness (S := tape S) (motive := fun s buf r => r.1 = .ok () → r.2.2 = s.2 ++ buf) (by
    intro f ih s buf r hr hok
    split at hr
    · rename_i hb
      cases hr
      rw [hb, List.append_nil]
    · have hw : ∀ n t, (tape S).write s buf = (.ok n, t) → t.2 = s.2 ++ buf.take n := by
        intro n t e
        unfold tape at e
        dsimp only at e
        split at e
        · cases e; rfl
        · cases e
      have hk : ∀ k t, (tape S).write s buf = (.error k, t) → t.2 = s.2 := by
        intro k t e
        unfold tape at e
        dsimp only at e
        split at e
        · cases e
        · cases e; rfl
      split at hr
      · cases hr; cases hok
      · rename_i n s' e
        split at hr
        · rw [ih _ _ _ hr hok, hw _ _ e, List.append_assoc, List.take_append_drop]
        · cases hr
      · rename_i s' e
        rw [ih _ _ _ hr hok, hk _ _ e]
      · cases hr; cases hok)
  exact this s buf r h

theorem tape_grows (S : Sink σ) (p : List UInt8) : SinkInv (tape S) (fun t => p <+: t.2) := by
  constructor
  · intro s buf h
    unfold tape
    dsimp only
    split
    · exact h.trans (List.prefix_append _ _)
    · exact h
  · intro s h
    exact h

/-! ## What the encoder knows -/

/-- The encoder has acknowledged the buffers `done`: it holds the end of them, and the checksum of them. -/
def Encoder.Acks (e : Encoder σ) (fmt : Format) (done : List (List UInt8)) : Prop :=
  ∃ d : DeflateEncoder σ, (d.windowAndChunk.toList, d.chunkStart) = retainedAfter done ∧ e = match fmt with
    | .gzip => .gzip ⟨some d, done.flatten.foldl crcUpdate 0xFFFFFFFF, UInt32.ofNat done.flatten.length⟩
    | .zlib => .zlib ⟨some d, done.flatten.foldl Adler.update .new⟩
    | .deflate => .deflate d

theorem Encoder.Acks.retained {e : Encoder σ} {fmt : Format} {done : List (List UInt8)} (h : e.Acks fmt done) :
    e.retained = some (retainedAfter done) := by
  obtain ⟨d, h1, rfl⟩ := h
  rw [← h1]
  cases fmt <;> rfl

theorem Encoder.Acks.new {env : Env σ} {fmt : Format} {s s' : σ} {e : Encoder σ} (h : Encoder.new env fmt s = some (.ok e, s')) :
    e.Acks fmt [] := by
  cases fmt with
  | deflate => cases h; exact ⟨_, rfl, rfl⟩
  | gzip =>
    simp only [Encoder.new, GzipEncoder.new, Option.bind_eq_bind, Option.bind_eq_some_iff] at h
    obtain ⟨⟨r1, s1⟩, ⟨⟨r2, s2⟩, -, h2⟩, h⟩ := h
    cases r2 <;> cases h2 <;> cases h
    exact ⟨_, rfl, rfl⟩
  | zlib =>
    simp only [Encoder.new, ZlibEncoder.new, Option.bind_eq_bind, Option.bind_eq_some_iff] at h
    obtain ⟨⟨r1, s1⟩, ⟨⟨r2, s2⟩, -, h2⟩, h⟩ := h
    cases r2 <;> cases h2 <;> cases h
    exact ⟨_, rfl, rfl⟩

theorem DeflateEncoder.write_count {env : Env σ} {d d' : DeflateEncoder σ} {buf : List UInt8} {n : Nat}
    (h : d.write env buf = some (.ok n, d')) : n = buf.length := by
  unfold DeflateEncoder.write at h
  simp only [Option.bind_eq_bind, Option.bind_eq_some_iff] at h
  obtain ⟨⟨r1, e1⟩, h1, h⟩ := h
  cases r1 <;> cases h
  rfl

theorem DeflateEncoder.write_after {env : Env σ} {d d' : DeflateEncoder σ} {buf : List UInt8} {r : Except ErrKind Nat}
    {done : List (List UInt8)} (hd : (d.windowAndChunk.toList, d.chunkStart) = retainedAfter done) (h : d.write env buf = some (r, d')) :
    (r = .ok buf.length ∧ (d'.windowAndChunk.toList, d'.chunkStart) = retainedAfter (done ++ [buf])) ∨
    (∃ k, r = .error k ∧ (d'.windowAndChunk.toList, d'.chunkStart) = retainedAfter done) := by
  obtain ⟨k1, k2⟩ := DeflateEncoder.write_retained h
  cases r with
  | ok n =>
    obtain rfl := DeflateEncoder.write_count h
    refine .inl ⟨rfl, ?_⟩
    rw [retainedAfter_step, ← hd, (k1 _ rfl).1, (k1 _ rfl).2]
  | error k => exact .inr ⟨k, rfl, by rw [(k2 k rfl).1, (k2 k rfl).2, hd]⟩

theorem Encoder.Acks.write {env : Env σ} {fmt : Format} {e e' : Encoder σ} {done : List (List UInt8)} {buf : List UInt8}
    {r : Except ErrKind Nat} (ha : e.Acks fmt done) (h : e.write env buf = some (r, e')) :
    (r = .ok buf.length ∧ e'.Acks fmt (done ++ [buf])) ∨ (∃ k, r = .error k ∧ e'.Acks fmt done) := by
  obtain ⟨d, h1, rfl⟩ := ha
  cases fmt with
  | deflate =>
    simp only [Encoder.write, Option.bind_eq_bind, Option.bind_eq_some_iff] at h
    obtain ⟨⟨r1, d1⟩, h2, h⟩ := h
    cases h
    rcases DeflateEncoder.write_after h1 h2 with ⟨rfl, h3⟩ | ⟨k, rfl, h3⟩
    · exact .inl ⟨rfl, d1, h3, rfl⟩
    · exact .inr ⟨k, rfl, d1, h3, rfl⟩
  | gzip =>
    simp only [Encoder.write, GzipEncoder.write, Option.bind_eq_bind, Option.bind_eq_some_iff] at h
    obtain ⟨⟨r1, g1⟩, ⟨d, hd, ⟨r2, d1⟩, h2, h3⟩, h⟩ := h
    cases hd
    rcases DeflateEncoder.write_after h1 h2 with ⟨rfl, h4⟩ | ⟨k, rfl, h4⟩
    · cases h3
      cases h
      refine .inl ⟨rfl, d1, h4, ?_⟩
      rw [List.take_length, List.flatten_append, List.flatten_cons, List.flatten_nil, List.append_nil, List.foldl_append,
        List.length_append, UInt32.ofNat_add]
    · cases h3
      cases h
      exact .inr ⟨k, rfl, d1, h4, rfl⟩
  | zlib =>
    simp only [Encoder.write, ZlibEncoder.write, Option.bind_eq_bind, Option.bind_eq_some_iff] at h
    obtain ⟨⟨r1, g1⟩, ⟨d, hd, ⟨r2, d1⟩, h2, h3⟩, h⟩ := h
    cases hd
    rcases DeflateEncoder.write_after h1 h2 with ⟨rfl, h4⟩ | ⟨k, rfl, h4⟩
    · cases h3
      cases h
      refine .inl ⟨rfl, d1, h4, ?_⟩
      dsimp only
      rw [List.take_length, List.flatten_append, List.flatten_cons, List.flatten_nil, List.append_nil, List.foldl_append]
    · cases h3
      cases h
      exact .inr ⟨k, rfl, d1, h4, rfl⟩

theorem Encoder.Acks.flush {env : Env σ} {fmt : Format} {e e' : Encoder σ} {done : List (List UInt8)} {r : Except ErrKind Unit}
    (ha : e.Acks fmt done) (h : e.flush env = some (r, e')) : e'.Acks fmt done := by
  obtain ⟨d, h1, rfl⟩ := ha
  cases fmt with
  | deflate =>
    simp only [Encoder.flush, Option.bind_eq_bind, Option.bind_eq_some_iff] at h
    obtain ⟨⟨r1, d1⟩, h2, h⟩ := h
    cases h
    obtain ⟨k1, k2⟩ := DeflateEncoder.flush_retained h2
    exact ⟨d1, by rw [k1, k2, h1], rfl⟩
  | gzip =>
    simp only [Encoder.flush, GzipEncoder.flush, Option.bind_eq_bind, Option.bind_eq_some_iff] at h
    obtain ⟨⟨r1, g1⟩, ⟨d, hd, ⟨r2, d1⟩, h2, h3⟩, h⟩ := h
    cases hd
    cases h3
    cases h
    obtain ⟨k1, k2⟩ := DeflateEncoder.flush_retained h2
    exact ⟨d1, by rw [k1, k2, h1], rfl⟩
  | zlib =>
    simp only [Encoder.flush, ZlibEncoder.flush, Option.bind_eq_bind, Option.bind_eq_some_iff] at h
    obtain ⟨⟨r1, g1⟩, ⟨d, hd, ⟨r2, d1⟩, h2, h3⟩, h⟩ := h
    cases hd
    cases h3
    cases h
    obtain ⟨k1, k2⟩ := DeflateEncoder.flush_retained h2
    exact ⟨d1, by rw [k1, k2, h1], rfl⟩

theorem Encoder.Acks.runAll {env : Env σ} {fmt : Format} : ∀ (calls : List Call) {e e' : Encoder σ} {done : List (List UInt8)}
    {rs : List (Except ErrKind Nat)}, e.Acks fmt done → e.runAll env calls = some (rs, e') →
    AllOrNothing calls rs ∧ e'.Acks fmt (done ++ acknowledged calls rs)
  | [], e, e', done, rs, ha, h => by
    cases h
    exact ⟨rfl, by simpa [acknowledged] using ha⟩
  | .write buf :: l, e, e', done, rs, ha, h => by
    rw [Encoder.runAll] at h
    simp only [Option.bind_eq_bind, Option.bind_eq_some_iff] at h
    obtain ⟨⟨r1, e1⟩, h1, ⟨rs2, e2⟩, h2, h⟩ := h
    cases h
    rcases ha.write h1 with ⟨rfl, h3⟩ | ⟨k, rfl, h3⟩
    · obtain ⟨i1, i2⟩ := Encoder.Acks.runAll l h3 h2
      exact ⟨⟨.inl rfl, i1⟩, by rw [acknowledged, ← List.singleton_append, ← List.append_assoc]; exact i2⟩
    · obtain ⟨i1, i2⟩ := Encoder.Acks.runAll l h3 h2
      exact ⟨⟨.inr ⟨k, rfl⟩, i1⟩, by rw [acknowledged]; exact i2; simp⟩
  | .flush :: l, e, e', done, rs, ha, h => by
    rw [Encoder.runAll] at h
    simp only [Option.bind_eq_bind, Option.bind_eq_some_iff] at h
    obtain ⟨⟨r1, e1⟩, h1, ⟨rs2, e2⟩, h2, h⟩ := h
    cases h
    obtain ⟨i1, i2⟩ := Encoder.Acks.runAll l (ha.flush h1) h2
    exact ⟨i1, by rw [acknowledged]; exact i2; simp⟩

theorem flush_inv (env : Env σ) {I : σ → Prop} (hI : SinkInv env.S I) {e : Encoder σ} {r : Except ErrKind Unit × Encoder σ}
    (h : e.flush env = some r) {s : σ} (hs : e.sink? = some s) (hI0 : I s) : ∃ s', r.2.sink? = some s' ∧ I s' := by
  have key : ∀ {d d' : DeflateEncoder σ} {r : Except ErrKind Unit}, d.flush env = some (r, d') → d.sink? = some s → ∃ s', d'.sink? = some s' ∧ I s' := by
    intro d d' r h hs
    unfold DeflateEncoder.flush at h
    unfold DeflateEncoder.sink? at hs
    cases hw : d.bitwiseWriter with
    | none => rw [hw] at hs; cases hs
    | some w =>
      rw [hw] at h hs
      cases hs
      cases h
      exact ⟨_, rfl, hI.2 _ hI0⟩
  cases e with
  | deflate d =>
    simp only [Encoder.flush, Option.bind_eq_bind, Option.bind_eq_some_iff] at h
    obtain ⟨⟨r1, d1⟩, h1, h⟩ := h
    cases h
    exact key h1 hs
  | gzip g =>
    simp only [Encoder.flush, GzipEncoder.flush, Option.bind_eq_bind, Option.bind_eq_some_iff] at h
    obtain ⟨⟨r1, g1⟩, ⟨d, hd, ⟨r2, d1⟩, h2, h3⟩, h⟩ := h
    cases h3
    cases h
    rw [Encoder.sink?, hd] at hs
    exact key h2 hs
  | zlib g =>
    simp only [Encoder.flush, ZlibEncoder.flush, Option.bind_eq_bind, Option.bind_eq_some_iff] at h
    obtain ⟨⟨r1, g1⟩, ⟨d, hd, ⟨r2, d1⟩, h2, h3⟩, h⟩ := h
    cases h3
    cases h
    rw [Encoder.sink?, hd] at hs
    exact key h2 hs

theorem runAll_inv (env : Env σ) {I : σ → Prop} (hI : SinkInv env.S I) : ∀ (calls : List Call) {e e' : Encoder σ}
    {rs : List (Except ErrKind Nat)}, e.runAll env calls = some (rs, e') → ∀ {s : σ}, e.sink? = some s → I s → ∃ s', e'.sink? = some s' ∧ I s'
  | [], e, e', rs, h, s, hs, h0 => by cases h; exact ⟨s, hs, h0⟩
  | .write buf :: l, e, e', rs, h, s, hs, h0 => by
    rw [Encoder.runAll] at h
    simp only [Option.bind_eq_bind, Option.bind_eq_some_iff] at h
    obtain ⟨⟨r1, e1⟩, h1, ⟨rs2, e2⟩, h2, h⟩ := h
    cases h
    obtain ⟨s', g1, g2⟩ := Encoder.write_inv env hI h1 hs h0
    exact runAll_inv env hI l h2 g1 g2
  | .flush :: l, e, e', rs, h, s, hs, h0 => by
    rw [Encoder.runAll] at h
    simp only [Option.bind_eq_bind, Option.bind_eq_some_iff] at h
    obtain ⟨⟨r1, e1⟩, h1, ⟨rs2, e2⟩, h2, h⟩ := h
    cases h
    obtain ⟨s', g1, g2⟩ := flush_inv env hI h1 hs h0
    exact runAll_inv env hI l h2 g1 g2

/-- A successful `finish` ends the tape with the trailer for the acknowledged bytes. -/
theorem Encoder.Acks.finish {F : FloatOps} {o : Options} {bt : BlockType} {fmt : Format} {e : Encoder (σ × List UInt8)}
    {done : List (List UInt8)} {t t' : σ × List UInt8} {p : List UInt8} (ha : e.Acks fmt done) (hs : e.sink? = some t) (hp : p <+: t.2)
    (h : e.finish ⟨F, tape S, o, bt⟩ = some (.ok (), t')) : ∃ body, t'.2 = p ++ body ++ (trailer fmt done.flatten).flatten := by
  obtain ⟨d, h1, rfl⟩ := ha
  have hd : EncInv (fun t => p <+: t.2) d := by
    intro u hu
    have : d.sink? = some t := by cases fmt <;> exact hs
    rw [this] at hu
    cases hu
    exact hp
  cases fmt with
  | deflate =>
    have := finish_inv ⟨F, tape S, o, bt⟩ (tape_grows S p) h hd
    obtain ⟨b, hb⟩ := this
    exact ⟨b, by rw [← hb]; simp [trailer]⟩
  | gzip =>
    simp only [Encoder.finish, GzipEncoder.finish, GzipEncoder.finishInner, Option.bind_eq_bind, Option.bind_eq_some_iff] at h
    obtain ⟨d', hd', ⟨r1, t1⟩, g1, h⟩ := h
    cases hd'
    cases r1 with
    | error k => cases h
    | ok u =>
      simp only [Option.bind_eq_some_iff] at h
      obtain ⟨⟨r2, t2⟩, g2, h⟩ := h
      cases r2 with
      | error k => cases h
      | ok u =>
        obtain ⟨b, hb⟩ := finish_inv ⟨F, tape S, o, bt⟩ (tape_grows S p) g1 hd
        have i1 := tape_writeAll g2 rfl
        have i2 := tape_writeAll h rfl
        dsimp only at i1 i2
        refine ⟨b, ?_⟩
        rw [i2, i1, hb]
        simp [trailer]
  | zlib =>
    simp only [Encoder.finish, ZlibEncoder.finish, ZlibEncoder.finishInner, Option.bind_eq_bind, Option.bind_eq_some_iff] at h
    obtain ⟨d', hd', ⟨r1, t1⟩, g1, h⟩ := h
    cases hd'
    cases r1 with
    | error k => cases h
    | ok u =>
      obtain ⟨b, hb⟩ := finish_inv ⟨F, tape S, o, bt⟩ (tape_grows S p) g1 hd
      have i1 := tape_writeAll h rfl
      dsimp only at i1
      refine ⟨b, ?_⟩
      rw [i1, hb]
      simp [trailer]

theorem new_tape {F : FloatOps} {o : Options} {bt : BlockType} {fmt : Format} {s : σ} {e : Encoder (σ × List UInt8)} {t : σ × List UInt8}
    (h : Encoder.new ⟨F, tape S, o, bt⟩ fmt (s, []) = some (.ok e, t)) : ∃ t', e.sink? = some t' ∧ header fmt <+: t'.2 := by
  cases fmt with
  | deflate => cases h; exact ⟨_, rfl, List.nil_prefix⟩
  | gzip =>
    simp only [Encoder.new, GzipEncoder.new, Option.bind_eq_bind, Option.bind_eq_some_iff] at h
    obtain ⟨⟨r1, s1⟩, ⟨⟨r2, s2⟩, h1, h2⟩, h⟩ := h
    cases r2 <;> cases h2 <;> cases h
    refine ⟨_, rfl, ?_⟩
    have := tape_writeAll h1 rfl
    dsimp only at this
    show _ <+: s2.2
    rw [this]
    exact List.prefix_refl _
  | zlib =>
    simp only [Encoder.new, ZlibEncoder.new, Option.bind_eq_bind, Option.bind_eq_some_iff] at h
    obtain ⟨⟨r1, s1⟩, ⟨⟨r2, s2⟩, h1, h2⟩, h⟩ := h
    cases r2 <;> cases h2 <;> cases h
    refine ⟨_, rfl, ?_⟩
    have := tape_writeAll h1 rfl
    dsimp only at this
    show _ <+: s2.2
    rw [this]
    exact List.prefix_refl _

/-! ## The theorems -/

/-- **C60** Recording all that a sink ever accepts changes nothing. -/
theorem C60_tape_transparent (F : FloatOps) (S : Sink σ) (o : Options) (bt : BlockType) (fmt : Format) (calls : List Call) (ending : Ending)
    (t : σ × List UInt8) :
    persistent ⟨F, S, o, bt⟩ fmt calls ending t.1 =
      (persistent ⟨F, tape S, o, bt⟩ fmt calls ending t).map fun x => (x.1, x.2.1) := by
  have run : ∀ (calls : List Call) (e : Encoder (σ × List UInt8)),
      (e.mapSink Prod.fst).runAll ⟨F, S, o, bt⟩ calls = (e.runAll ⟨F, tape S, o, bt⟩ calls).map (onSnd (·.mapSink Prod.fst)) := by
    intro calls
    induction calls with
    | nil => intro e; rfl
    | cons c l ih =>
      intro e
      cases c with
      | write buf =>
        rw [Encoder.runAll, Encoder.runAll, (tape_hom S).writeE]
        cases e.write ⟨F, tape S, o, bt⟩ buf with
        | none => rfl
        | some p =>
          rw [Option.map_some, some_bind, some_bind]
          obtain ⟨r, e'⟩ := p
          dsimp only [onSnd]
          rw [ih]
          cases e'.runAll ⟨F, tape S, o, bt⟩ l <;> rfl
      | flush =>
        rw [Encoder.runAll, Encoder.runAll, (tape_hom S).flushE]
        cases e.flush ⟨F, tape S, o, bt⟩ with
        | none => rfl
        | some p =>
          rw [Option.map_some, some_bind, some_bind]
          obtain ⟨r, e'⟩ := p
          dsimp only [onSnd]
          rw [ih]
          cases e'.runAll ⟨F, tape S, o, bt⟩ l <;> rfl
  unfold persistent
  rw [(tape_hom S).newE]
  cases Encoder.new ⟨F, tape S, o, bt⟩ fmt t with
  | none => rfl
  | some p =>
    rw [Option.map_some, some_bind, some_bind]
    obtain ⟨r, t1⟩ := p
    cases r with
    | error k => rfl
    | ok e =>
      dsimp only [onSnd, Except.map]
      rw [run]
      cases e.runAll ⟨F, tape S, o, bt⟩ calls with
      | none => rfl
      | some p =>
        rw [Option.map_some, some_bind, some_bind]
        obtain ⟨rs, e'⟩ := p
        cases ending with
        | finish =>
          dsimp only [onSnd]
          rw [(tape_hom S).finishE]
          cases e'.finish ⟨F, tape S, o, bt⟩ <;> rfl
        | drop =>
          dsimp only [onSnd]
          rw [(tape_hom S).dropE]
          cases e'.drop ⟨F, tape S, o, bt⟩ <;> rfl

/-- **C60** No panic and no hang: with any sink that is honest about how much it accepts and does not interrupt for ever, a client may
go on calling after any number of errors, and finish or drop the encoder. -/
theorem C60_no_panic (hlog : Log2Ok log2) (hS : Honest S I patience) (o : Options) (bt : BlockType) (fmt : Format) (calls : List Call)
    (ending : Ending) (hfit : Fits (writesOf calls)) (s : σ) (hs : I s) :
    ∃ r s', persistent ⟨ieee log2, S, o, bt⟩ fmt calls ending s = some (r, s') := by
  have run : ∀ (calls : List Call) {e : Encoder σ}, ESane (ieeeLaws hlog).lim I e → (∀ w ∈ writesOf calls, w.length < (ieeeLaws hlog).lim) →
      Ret (e.runAll ⟨ieee log2, S, o, bt⟩ calls) fun r => ESane (ieeeLaws hlog).lim I r.2 := by
    intro calls
    induction calls with
    | nil => intro e h _; exact ⟨_, rfl, h⟩
    | cons c l ih =>
      intro e h hw
      cases c with
      | write buf =>
        rw [Encoder.runAll]
        refine Ret.bind' (h.write (env := ⟨ieee log2, S, o, bt⟩) (ieeeLaws hlog) hS (hw buf (by simp [writesOf]))) ?_
        rintro ⟨r, e'⟩ ⟨h1, -⟩
        exact Ret.bind' (ih h1 fun w hw' => hw w (by simp [writesOf, hw'])) fun r hr => ⟨_, rfl, hr⟩
      | flush =>
        rw [Encoder.runAll]
        refine Ret.bind' (h.flush (env := ⟨ieee log2, S, o, bt⟩) hS) ?_
        rintro ⟨r, e'⟩ h1
        exact Ret.bind' (ih h1 hw) fun r hr => ⟨_, rfl, hr⟩
  have key : Ret (persistent ⟨ieee log2, S, o, bt⟩ fmt calls ending s) fun _ => True := by
    unfold persistent
    refine Ret.bind' (ESane.new (env := ⟨ieee log2, S, o, bt⟩) (ieeeLaws hlog).lim_ge hS fmt hs) ?_
    rintro ⟨r, s'⟩ ⟨-, h2⟩
    cases r with
    | error k => exact ⟨_, rfl, trivial⟩
    | ok e =>
      dsimp only
      refine Ret.bind' (run calls (h2 e rfl) hfit) ?_
      rintro ⟨rs, e'⟩ h3
      cases ending with
      | finish => exact Ret.bind' (h3.finish_drop (env := ⟨ieee log2, S, o, bt⟩) (ieeeLaws hlog) hS).1 fun _ _ => ⟨_, rfl, trivial⟩
      | drop => exact Ret.bind' (h3.finish_drop (env := ⟨ieee log2, S, o, bt⟩) (ieeeLaws hlog) hS).2 fun _ _ => ⟨_, rfl, trivial⟩
  obtain ⟨⟨r, s'⟩, h, -⟩ := key
  exact ⟨r, s', h⟩

/-- **C60** With any sink and any calls: each `write` takes the whole buffer or fails. -/
theorem C60_all_or_nothing (env : Env σ) (fmt : Format) (s s' : σ) (e e' : Encoder σ) (calls : List Call) (rs : List (Except ErrKind Nat))
    (hnew : Encoder.new env fmt s = some (.ok e, s')) (hrun : e.runAll env calls = some (rs, e')) : AllOrNothing calls rs :=
  (Encoder.Acks.runAll calls (Encoder.Acks.new hnew) hrun).1

/-- **C60** With any sink and any calls, failed or not, the encoder holds the last buffer it has acknowledged and, before it, the last
32768 bytes of the other buffers it has acknowledged: nothing of a refused buffer, and nothing is lost. -/
theorem C60_window (env : Env σ) (fmt : Format) (s s' : σ) (e e' : Encoder σ) (calls : List Call) (rs : List (Except ErrKind Nat))
    (init : List (List UInt8)) (w : List UInt8)
    (hnew : Encoder.new env fmt s = some (.ok e, s')) (hrun : e.runAll env calls = some (rs, e')) (hw : acknowledged calls rs = init ++ [w]) :
    e'.retained = some (init.flatten.drop (init.flatten.length - 32768) ++ w, min 32768 init.flatten.length) := by
  rw [(Encoder.Acks.runAll calls (Encoder.Acks.new hnew) hrun).2.retained, List.nil_append, hw, retainedAfter_snoc]

/-- **C60** With any sink: if `finish` succeeds after any calls, failed or not, then all that the sink has ever accepted is framed with the
header of the format and the checksum (and length) of exactly the acknowledged bytes. -/
theorem C60_framed (F : FloatOps) (S : Sink σ) (o : Options) (bt : BlockType) (fmt : Format) (calls : List Call) (s s' : σ)
    (accepted : List UInt8) (rs : List (Except ErrKind Nat))
    (h : persistent ⟨F, tape S, o, bt⟩ fmt calls .finish (s, []) = some (.ok (rs, .ok ()), (s', accepted))) :
    ∃ body, accepted = framed body (acknowledged calls rs).flatten fmt := by
  unfold persistent at h
  simp only [Option.bind_eq_bind, Option.bind_eq_some_iff] at h
  obtain ⟨⟨r, t⟩, h1, h⟩ := h
  cases r with
  | error k => cases h
  | ok e =>
    simp only [Option.bind_eq_some_iff] at h
    obtain ⟨⟨rs', e'⟩, h2, ⟨r, t2⟩, h3, h⟩ := h
    cases h
    obtain ⟨t0, g1, g2⟩ := new_tape h1
    obtain ⟨t3, g3, g4⟩ := runAll_inv _ (tape_grows S (header fmt)) calls h2 g1 g2
    obtain ⟨-, a⟩ := Encoder.Acks.runAll calls (Encoder.Acks.new h1) h2
    obtain ⟨body, hb⟩ := a.finish g3 g4 h3
    refine ⟨body, ?_⟩
    rw [← framed_eq]
    exact hb

/-- **C60** So if a decoder accepts what the sink has received, then what it decodes has the checksum (and, for gzip, the length) of the
acknowledged bytes: the corruption that a retried `write` can cause (C25) does not go unnoticed unless the checksums collide. -/
theorem C60_checksum (F : FloatOps) (S : Sink σ) (o : Options) (bt : BlockType) (fmt : Format) (calls : List Call) (s s' : σ)
    (accepted data : List UInt8) (rs : List (Except ErrKind Nat))
    (h : persistent ⟨F, tape S, o, bt⟩ fmt calls .finish (s, []) = some (.ok (rs, .ok ()), (s', accepted)))
    (hd : decode fmt accepted = some data) :
    (fmt = .gzip → crc32 data = crc32 (acknowledged calls rs).flatten ∧ data.length % 2 ^ 32 = (acknowledged calls rs).flatten.length % 2 ^ 32) ∧
    (fmt = .zlib → adler32 data = adler32 (acknowledged calls rs).flatten) := by
  obtain ⟨body, hb⟩ := C60_framed F S o bt fmt calls s s' accepted rs h
  rw [← framed_eq] at hb
  constructor
  · rintro rfl
    obtain ⟨a1, a2⟩ := gunzip_last hd
    have hl : lastBytes 8 accepted = (trailer .gzip (acknowledged calls rs).flatten).flatten :=
      lastBytes_suffix (t := (trailer .gzip (acknowledged calls rs).flatten).flatten) (hb ▸ List.suffix_append _ _)
    rw [hl] at a1 a2
    simp only [trailer, List.flatten_cons, List.flatten_nil, List.append_nil] at a1 a2
    have e1 : ∀ a b : UInt32, (toLeBytes a ++ toLeBytes b).take 4 = toLeBytes a := fun a b => List.take_left' rfl
    have e2 : ∀ a b : UInt32, (toLeBytes a ++ toLeBytes b).drop 4 = toLeBytes b := fun a b => List.drop_left' rfl
    rw [e1, le32_toLeBytes, crc_eq] at a1
    rw [e2, le32_toLeBytes, UInt32.toNat_ofNat'] at a2
    exact ⟨(UInt32.toNat.inj (Option.some.inj a1)).symm, (Option.some.inj a2).symm⟩
  · rintro rfl
    have a := zlib_last hd
    have hl : lastBytes 4 accepted = (trailer .zlib (acknowledged calls rs).flatten).flatten :=
      lastBytes_suffix (t := (trailer .zlib (acknowledged calls rs).flatten).flatten) (hb ▸ List.suffix_append _ _)
    rw [hl] at a
    simp only [trailer, List.flatten_cons, List.flatten_nil, List.append_nil, be32_toBeBytes, adler_eq] at a
    exact (Option.some.inj a).symm

/-! ## The hypotheses are met -/

theorem tape_glitch_writeAll (n : Nat) (l : List UInt8) (i : Nat) (acc : List UInt8) (b : UInt8) (bs : List UInt8) :
    (tape (glitchSink n)).writeAll ((l, i), acc) (b :: bs) =
      if i = n then some (.error (.other 0), ((l, i + 1), acc)) else some (.ok (), ((l ++ b :: bs, i + 1), acc ++ b :: bs)) := by
  rw [Sink.writeAll, if_neg (by simp)]
  by_cases h : i = n
  · simp only [tape, glitchSink, if_pos h]
  · simp only [tape, glitchSink, if_neg h]
    simp
    rw [Sink.writeAll, if_pos rfl]

/-- The scenario of C25 in gzip format: the sink fails once, `write` reports it, the client tries again, and all else succeeds. -/
theorem persist_example (F : FloatOps) (o : Options) (stream : List UInt8)
    (hs : stream = gzipHeader ++ [0, 1, 0, 254, 255] ++ [0, 1, 0, 254, 255, 7] ++
        [1, 1, 0, 254, 255, 8] ++ toLeBytes (crcFinalize ([7, 8].foldl crcUpdate 0xFFFFFFFF)) ++ toLeBytes 2) :
    persistent ⟨F, tape (glitchSink 6), o, .uncompressed⟩ .gzip [.write [7], .write [8], .flush, .write [8]] .finish (([], 0), []) =
      some (.ok ([.ok 1, .error (.other 0), .ok 0, .ok 1], .ok ()), ((stream, 21), stream)) := by
  have h1 : ∀ final, deflatePart F o .uncompressed final #[7] 0 1 = _ := fun final =>
    deflatePart_one F o final #[7] 0 1 7 (by decide) (by decide) (by decide)
  have h2 : ∀ final, deflatePart F o .uncompressed final #[7, 8] 1 2 = _ := fun final =>
    deflatePart_one F o final #[7, 8] 1 2 8 (by decide) (by decide) (by decide)
  have e1 : ∀ x : UInt32, toLeBytes x = [x.toUInt8, (x >>> 8).toUInt8, (x >>> 16).toUInt8, (x >>> 24).toUInt8] := fun _ => rfl
  have hf : ∀ t, (tape (glitchSink 6)).flush t = (.ok (), t) := fun _ => rfl
  subst hs
  simp [persistent, Encoder.new, GzipEncoder.new, Encoder.runAll, Encoder.write, Encoder.flush, Encoder.finish, GzipEncoder.write, GzipEncoder.flush,
    GzipEncoder.finish, GzipEncoder.finishInner, DeflateEncoder.new, DeflateEncoder.write, DeflateEncoder.flush, DeflateEncoder.setChunk, gzipHeader,
    DeflateEncoder.finish, DeflateEncoder.finishInner, DeflateEncoder.compressChunk, DeflateEncoder.dropWith, BitwiseWriter.new, h1, h2, hf, e1,
    BitwiseWriter.execAll, BitwiseWriter.exec, BitwiseWriter.addBit, BitwiseWriter.finishPartialBits, BitwiseWriter.addBytes, tape_glitch_writeAll,
    Except.map]

example : acknowledged [.write [7], .write [8], .flush, .write [8]] [.ok 1, .error (.other 0), .ok 0, .ok 1] = [[7], [8]] := rfl

example : ∃ r s', persistent ⟨ieee floorLog2, glitchSink 3, Options.default, .dynamic⟩ .zlib [.write [1, 2, 3], .write [4], .write [4], .write [5]] .finish ([], 0) = some (r, s') :=
  C60_no_panic floorLog2_ok (glitch_honest 3) Options.default .dynamic .zlib _ .finish (by
    intro w hw; simp [writesOf] at hw; rcases hw with rfl | rfl | rfl <;> decide) _ trivial

end Zopfli
