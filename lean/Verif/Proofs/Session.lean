import Verif.Proofs.Stream
import Verif.Spec.Session
/-! # Sessions -/

namespace Zopfli
open Rfc

variable {σ : Type}

/-! ## Reliable and recorded sinks -/

theorem Reliable.writeAll {S : Sink σ} {I : σ → Prop} {log : σ → List UInt8} {μ : σ → Nat} (hS : Reliable S I log μ) :
    ∀ (n : Nat) (m : Nat) (s : σ) (buf : List UInt8), buf.length = n → μ s = m → I s →
      Ret (S.writeAll s buf) fun r => r.1 = .ok () ∧ log r.2 = log s ++ buf ∧ I r.2 := by
  intro n
  induction n using Nat.strong_induction_on with
  | _ n ihn =>
    intro m
    induction m using Nat.strong_induction_on with
    | _ m ihm =>
      intro s buf hn hm hI
      rw [Sink.writeAll]
      by_cases hb : buf = []
      · rw [if_pos hb, hb]
        exact ⟨_, rfl, rfl, by simp, hI⟩
      · rw [if_neg hb]
        rcases hS.write s buf hI hb with ⟨k, s', e, h1, h2, h3, h4⟩ | ⟨s', e, h1, h2, h3⟩
        · rw [e]
          obtain ⟨k, rfl⟩ : ∃ j, k = j + 1 := ⟨k - 1, by omega⟩
          dsimp only
          rw [if_pos h2]
          refine Ret.mono (ihn (n - (k + 1)) (by omega) _ s' (buf.drop (k + 1)) (by simp; omega) rfl h4) ?_
          rintro r ⟨g1, g2, g3⟩
          refine ⟨g1, ?_, g3⟩
          rw [g2, h3, List.append_assoc, List.take_append_drop]
        · rw [e]
          dsimp only
          refine Ret.mono (ihm (μ s') (by omega) s' buf hn rfl h3) ?_
          rintro r ⟨g1, g2, g3⟩
          exact ⟨g1, by rw [g2, h1], g3⟩

theorem Reliable.writeMany {S : Sink σ} {I : σ → Prop} {log : σ → List UInt8} {μ : σ → Nat} (hS : Reliable S I log μ) :
    ∀ (cs : List (List UInt8)) (s : σ), I s → ∃ s', writeMany S s cs = some (.ok (), s') ∧ log s' = log s ++ cs.flatten ∧ I s'
  | [], s, hI => ⟨s, rfl, by simp, hI⟩
  | c :: cs, s, hI => by
    obtain ⟨⟨r, s1⟩, e, h1, h2, h3⟩ := hS.writeAll _ _ s c rfl rfl hI
    dsimp only at h1 h2 h3
    subst h1
    obtain ⟨s2, e2, g1, g2⟩ := hS.writeMany cs s1 h3
    refine ⟨s2, ?_, ?_, g2⟩
    · rw [Zopfli.writeMany, e, some_bind]
      exact e2
    · rw [g1, h2, List.flatten_cons, List.append_assoc]

/-- After a failure the record is frozen. -/
theorem Recorded.inv {S : Sink σ} {log : σ → List UInt8} {failed : σ → Option ErrKind} (hS : Recorded S log failed) (k : ErrKind) (l : List UInt8) :
    SinkInv S fun s => failed s = some k ∧ log s = l :=
  ⟨fun s buf h => ⟨(hS.write_after s buf k h.1).1, by rw [(hS.write_after s buf k h.1).2, h.2]⟩,
    fun s h => ⟨(hS.flush_after s k h.1).1, by rw [(hS.flush_after s k h.1).2, h.2]⟩⟩

theorem Recorded.writeAll {S : Sink σ} {log : σ → List UInt8} {failed : σ → Option ErrKind} (hS : Recorded S log failed)
    {s : σ} {buf : List UInt8} {r : Except ErrKind Unit × σ} (h : S.writeAll s buf = some r) (hs : failed s = none) :
    (∀ u, r.1 = .ok u → failed r.2 = none ∧ log r.2 = log s ++ buf) ∧
    (∀ k, r.1 = .error k → failed r.2 = some k ∧ ∃ n < buf.length, log r.2 = log s ++ buf.take n) := by
  have := Sink.writeAll.partial_correctness (S := S) (motive := fun s buf r => failed s = none →
    (∀ u, r.1 = .ok u → failed r.2 = none ∧ log r.2 = log s ++ buf) ∧
    (∀ k, r.1 = .error k → failed r.2 = some k ∧ ∃ n < buf.length, log r.2 = log s ++ buf.take n)) (by
    intro f ih s buf r hr hs
    split at hr
    · rename_i hb
      cases hr
      subst hb
      exact ⟨fun u _ => ⟨hs, by simp⟩, by intro k hk; cases hk⟩
    · rename_i hb
      split at hr
      · rename_i s' e
        obtain ⟨h1, h2⟩ := hS.write_zero s buf s' hs hb e
        cases hr
        refine ⟨(by intro u hu; cases hu), ?_⟩
        intro k hk
        cases hk
        exact ⟨h1, 0, List.length_pos_iff.2 hb, by simp [h2]⟩
      · rename_i n s' e
        obtain ⟨h1, h2⟩ := hS.write_ok s buf _ s' hs e (.inl (by omega))
        split at hr
        · obtain ⟨g1, g2⟩ := ih _ _ _ hr h1
          refine ⟨fun u hu => ⟨(g1 u hu).1, ?_⟩, fun k hk => ⟨(g2 k hk).1, ?_⟩⟩
          · rw [(g1 u hu).2, h2, List.append_assoc, List.take_append_drop]
          · obtain ⟨m, hl, hm⟩ := (g2 k hk).2
            rw [List.length_drop] at hl
            refine ⟨n + 1 + m, by omega, ?_⟩
            rw [hm, h2, List.append_assoc, List.take_add]
        · cases hr
      · rename_i s' e
        obtain ⟨h1, h2⟩ := hS.write_interrupted s buf s' hs e
        obtain ⟨g1, g2⟩ := ih _ _ _ hr h1
        rw [h2] at g1 g2
        exact ⟨g1, g2⟩
      · rename_i k s' hk e
        obtain ⟨h1, h2⟩ := hS.write_error s buf k s' hs (by rintro rfl; exact hk rfl) e
        cases hr
        refine ⟨(by intro u hu; cases hu), ?_⟩
        intro k hk
        cases hk
        exact ⟨h1, 0, List.length_pos_iff.2 hb, by simp [h2]⟩)
  exact this s buf r h hs

theorem Recorded.writeMany {S : Sink σ} {log : σ → List UInt8} {failed : σ → Option ErrKind} (hS : Recorded S log failed) :
    ∀ (cs : List (List UInt8)) {s : σ} {r : Except ErrKind Unit × σ}, writeMany S s cs = some r → failed s = none →
    (∀ u, r.1 = .ok u → failed r.2 = none ∧ log r.2 = log s ++ cs.flatten) ∧
    (∀ k, r.1 = .error k → failed r.2 = some k ∧ ∃ n < cs.flatten.length, log r.2 = log s ++ cs.flatten.take n)
  | [], s, r, h, hs => by
    cases h
    exact ⟨fun u _ => ⟨hs, by simp⟩, by intro k hk; cases hk⟩
  | c :: cs, s, r, h, hs => by
    rw [Zopfli.writeMany] at h
    cases hw : S.writeAll s c with
    | none => rw [hw] at h; cases h
    | some p =>
      obtain ⟨r', s'⟩ := p
      rw [hw, some_bind] at h
      obtain ⟨h1, h2⟩ := hS.writeAll hw hs
      cases r' with
      | error k =>
        cases h
        refine ⟨(by intro u hu; cases hu), ?_⟩
        intro k' hk
        cases hk
        obtain ⟨g1, n, hl, g2⟩ := h2 _ rfl
        refine ⟨g1, n, ?_, ?_⟩
        · rw [List.flatten_cons, List.length_append]; omega
        · rw [g2, List.flatten_cons, List.take_append_of_le_length (by omega)]
      | ok u =>
        obtain ⟨g1, g2⟩ := h1 u rfl
        obtain ⟨i1, i2⟩ := hS.writeMany cs h g1
        refine ⟨fun u hu => ⟨(i1 u hu).1, ?_⟩, fun k hk => ⟨(i2 k hk).1, ?_⟩⟩
        · rw [(i1 u hu).2, g2, List.flatten_cons, List.append_assoc]
        · obtain ⟨m, hl, hm⟩ := (i2 k hk).2
          refine ⟨c.length + m, by rw [List.flatten_cons, List.length_append]; omega, ?_⟩
          dsimp only at g2
          rw [hm, g2, List.flatten_cons, List.append_assoc, List.take_length_add_append]

/-! ## The encoder of any format -/

/-- What precedes the DEFLATE stream. -/
def header : Format → List UInt8
  | .gzip => gzipHeader
  | .zlib => zlibHeader
  | .deflate => []

/-- What follows the DEFLATE stream of `data`. -/
def trailer : Format → List UInt8 → List (List UInt8)
  | .gzip, data => [toLeBytes (crcFinalize (data.foldl crcUpdate 0xFFFFFFFF)), toLeBytes (UInt32.ofNat data.length)]
  | .zlib, data => [toBeBytes (data.foldl Adler.update .new).finish]
  | .deflate, _ => []

/-- The encoder has been given `data`, and is in the given state, with the given sink. -/
def Encoder.Is (e : Encoder σ) (fmt : Format) (c : DCore) (data : List UInt8) (s : σ) : Prop :=
  ∃ d : DeflateEncoder σ, d.Is c s ∧ e = match fmt with
    | .gzip => .gzip ⟨some d, data.foldl crcUpdate 0xFFFFFFFF, UInt32.ofNat data.length⟩
    | .zlib => .zlib ⟨some d, data.foldl Adler.update .new⟩
    | .deflate => .deflate d

theorem Encoder.Is.sink {e : Encoder σ} {fmt : Format} {c : DCore} {data : List UInt8} {s : σ} (h : e.Is fmt c data s) : e.sink? = some s := by
  obtain ⟨d, hd, rfl⟩ := h
  cases fmt <;> exact hd.sink

theorem Encoder.new_outcome (env : Env σ) (fmt : Format) (s : σ) :
    Outcome (Encoder.new env fmt s) (fun s' r => ∃ e, r = (.ok e, s') ∧ e.Is fmt DCore.new [] s')
      (fun k s' x => x = some (.error k, s')) (writeMany env.S s [header fmt]) := by
  cases fmt with
  | gzip =>
    rw [writeMany]
    unfold Encoder.new GzipEncoder.new
    dsimp only [header]
    cases env.S.writeAll s gzipHeader with
    | none => exact rfl
    | some p =>
      obtain ⟨r, s'⟩ := p
      cases r with
      | error k => exact rfl
      | ok u => exact ⟨_, rfl, _, rfl, _, .new s', rfl⟩
  | zlib =>
    rw [writeMany]
    unfold Encoder.new ZlibEncoder.new
    dsimp only [header]
    cases env.S.writeAll s zlibHeader with
    | none => exact rfl
    | some p =>
      obtain ⟨r, s'⟩ := p
      cases r with
      | error k => exact rfl
      | ok u => exact ⟨_, rfl, _, rfl, _, .new s', rfl⟩
  | deflate =>
    rw [writeMany]
    dsimp only [header]
    rw [Sink.writeAll, if_pos rfl]
    exact ⟨_, rfl, _, rfl, _, .new s, rfl⟩

theorem Encoder.write_outcome (env : Env σ) {e : Encoder σ} {fmt : Format} {c c' : DCore} {data : List UInt8} {s : σ} (h : e.Is fmt c data s)
    {buf : List UInt8} {cs : List (List UInt8)} (hc : c.write env.F env.options env.btype buf = some (cs, c')) :
    Outcome (e.write env buf) (fun s' r => r.1 = .ok buf.length ∧ r.2.Is fmt c' (data ++ buf) s')
      (fun k s' x => ∃ e', x = some (.error k, e') ∧ e'.sink? = some s') (writeMany env.S s cs) := by
  obtain ⟨d, hd, rfl⟩ := h
  have := Zopfli.write_outcome env hd hc
  cases hw : writeMany env.S s cs with
  | none =>
    rw [hw] at this
    have this : _ = none := this
    cases fmt <;> simp only [Encoder.write, GzipEncoder.write, ZlibEncoder.write, some_bind, this] <;> exact rfl
  | some p =>
    obtain ⟨r, s'⟩ := p
    rw [hw] at this
    cases r with
    | error k =>
      obtain ⟨d', this, hd'⟩ := this
      cases fmt <;> simp only [Encoder.write, GzipEncoder.write, ZlibEncoder.write, some_bind, this] <;> exact ⟨_, rfl, hd'⟩
    | ok u =>
      obtain ⟨⟨r, d'⟩, this, h1, h2⟩ := this
      dsimp only at h1 h2
      subst h1
      have e1 : ∀ {β : Type} (f : β → UInt8 → β) (b : β), (buf.take buf.length).foldl f (data.foldl f b) = (data ++ buf).foldl f b := by
        intro β f b; rw [List.take_length, List.foldl_append]
      cases fmt <;> simp only [Encoder.write, GzipEncoder.write, ZlibEncoder.write, some_bind, this]
      · refine ⟨_, rfl, rfl, d', h2, ?_⟩
        rw [e1, ← UInt32.ofNat_add, List.length_append]
      · refine ⟨_, rfl, rfl, d', h2, ?_⟩
        rw [e1]
      · exact ⟨_, rfl, rfl, d', h2, rfl⟩

theorem Encoder.flush_outcome (env : Env σ) {e : Encoder σ} {fmt : Format} {c : DCore} {data : List UInt8} {s : σ} (h : e.Is fmt c data s) :
    ∃ e', e.flush env = some ((env.S.flush s).1, e') ∧ e'.Is fmt c data (env.S.flush s).2 := by
  obtain ⟨d, hd, rfl⟩ := h
  obtain ⟨d', h1, h2⟩ := flush_is env hd
  cases fmt <;> simp only [Encoder.flush, GzipEncoder.flush, ZlibEncoder.flush, some_bind, h1] <;> exact ⟨_, rfl, d', h2, rfl⟩

/-- What is left when `finish` or `drop` fails: the error, and a sink of which only invariants are known. -/
def Left (S : Sink σ) (k : ErrKind) (s' : σ) (x : Option (Except ErrKind Unit × σ)) : Prop :=
  ∀ r, x = some r → r.1 = .error k ∧ ∀ I : σ → Prop, SinkInv S I → I s' → I r.2

theorem dropWith_left (env : Env σ) {e : DeflateEncoder σ} {s : σ} (k : ErrKind) (he : e.sink? = none ∨ e.sink? = some s) :
    Left env.S k s (do return (.error k, ← e.dropWith env s)) := by
  intro r hr
  cases hd : e.dropWith env s with
  | none => rw [hd] at hr; cases hr
  | some s2 =>
    rw [hd, some_bind] at hr
    cases hr
    refine ⟨rfl, fun I hI hs => dropWith_inv env hI hd ?_ hs⟩
    intro s3 h3
    rcases he with he | he
    · rw [he] at h3; cases h3
    · rw [he] at h3; cases h3; exact hs

/-- The common part of `finish` and `drop` in the two containers: after the DEFLATE stream come more byte strings. -/
theorem finish_more (env : Env σ) {d : DeflateEncoder σ} {c : DCore} {s : σ} (h : d.Is c s) {cs : List (List UInt8)}
    (hc : c.finish env.F env.options env.btype = some cs) (t : List (List UInt8)) :
    Outcome ((d.finish env).bind fun (r, s) => match r with | .ok () => writeMany env.S s t | .error k => some (.error k, s))
      (fun s' r => r = (.ok (), s')) (fun k s' x => Left env.S k s' x) (writeMany env.S s (cs ++ t)) := by
  have := finish_outcome env h hc
  rw [writeMany_append]
  cases hw : writeMany env.S s cs with
  | none =>
    rw [hw] at this
    have this : _ = none := this
    rw [this]
    exact rfl
  | some p =>
    obtain ⟨r, s'⟩ := p
    rw [hw] at this
    cases r with
    | error k =>
      obtain ⟨d', hd', this⟩ := this
      have hl := dropWith_left env k hd'
      rw [← this] at hl
      show Left env.S k s' _
      intro r hr
      cases hf : d.finish env with
      | none => rw [hf] at hr; cases hr
      | some p =>
        rw [hf] at hr
        have := hl p hf
        obtain ⟨q, s2⟩ := p
        dsimp only at this
        obtain ⟨rfl, this⟩ := this
        cases hr
        exact ⟨rfl, this⟩
    | ok u =>
      obtain ⟨r, this, rfl⟩ := this
      rw [this]
      show Outcome (writeMany env.S s' t) _ _ (writeMany env.S s' t)
      cases hw2 : writeMany env.S s' t with
      | none => exact rfl
      | some p =>
        obtain ⟨r, s2⟩ := p
        cases r with
        | error k =>
          intro r hr
          cases hr
          exact ⟨rfl, fun I _ h => h⟩
        | ok u => exact ⟨_, rfl, rfl⟩

theorem Encoder.finish_eq (env : Env σ) {d : DeflateEncoder σ} {e : Encoder σ} {fmt : Format} {data : List UInt8}
    (he : e = match fmt with
    | .gzip => .gzip ⟨some d, data.foldl crcUpdate 0xFFFFFFFF, UInt32.ofNat data.length⟩
    | .zlib => .zlib ⟨some d, data.foldl Adler.update .new⟩
    | .deflate => .deflate d) :
    e.finish env = (d.finish env).bind fun (r, s) => match r with | .ok () => writeMany env.S s (trailer fmt data) | .error k => some (.error k, s) := by
  subst he
  cases fmt with
  | gzip =>
    simp only [Encoder.finish, GzipEncoder.finish, GzipEncoder.finishInner, some_bind, trailer, writeMany]
    cases d.finish env with
    | none => rfl
    | some p =>
      obtain ⟨r, s⟩ := p
      cases r with
      | error k => rfl
      | ok u =>
        dsimp only [Option.bind_eq_bind, Option.bind_some]
        cases env.S.writeAll s (toLeBytes (crcFinalize (data.foldl crcUpdate 0xFFFFFFFF))) with
        | none => rfl
        | some p =>
          obtain ⟨r, s⟩ := p
          cases r with
          | error k => rfl
          | ok u =>
            dsimp only [Option.bind_eq_bind, Option.bind_some]
            cases env.S.writeAll s (toLeBytes (UInt32.ofNat data.length)) with
            | none => rfl
            | some p =>
              obtain ⟨r, s⟩ := p
              cases r <;> rfl
  | zlib =>
    simp only [Encoder.finish, ZlibEncoder.finish, ZlibEncoder.finishInner, some_bind, trailer, writeMany]
    cases d.finish env with
    | none => rfl
    | some p =>
      obtain ⟨r, s⟩ := p
      cases r with
      | error k => rfl
      | ok u =>
        dsimp only [Option.bind_eq_bind, Option.bind_some]
        cases env.S.writeAll s (toBeBytes (data.foldl Adler.update .new).finish) with
        | none => rfl
        | some p =>
          obtain ⟨r, s⟩ := p
          cases r <;> rfl
  | deflate =>
    simp only [Encoder.finish, trailer, writeMany]
    cases d.finish env with
    | none => rfl
    | some p =>
      obtain ⟨r, s⟩ := p
      cases r <;> rfl

theorem Encoder.finish_outcome (env : Env σ) {e : Encoder σ} {fmt : Format} {c : DCore} {data : List UInt8} {s : σ} (h : e.Is fmt c data s)
    {cs : List (List UInt8)} (hc : c.finish env.F env.options env.btype = some cs) :
    Outcome (e.finish env) (fun s' r => r = (.ok (), s')) (fun k s' x => Left env.S k s' x) (writeMany env.S s (cs ++ trailer fmt data)) := by
  obtain ⟨d, hd, he⟩ := h
  rw [Encoder.finish_eq env he]
  exact finish_more env hd hc _

theorem Encoder.drop_outcome (env : Env σ) {e : Encoder σ} {fmt : Format} {c : DCore} {data : List UInt8} {s : σ} (h : e.Is fmt c data s)
    {cs : List (List UInt8)} (hc : c.finish env.F env.options env.btype = some cs) :
    Outcome (e.drop env) (fun s' r => r = s') (fun k s' x => Left env.S k s' (x.map fun s => (.error k, s)))
      (writeMany env.S s (cs ++ trailer fmt data)) := by
  have hf := Encoder.finish_outcome env h hc
  obtain ⟨d, hd, rfl⟩ := h
  cases fmt with
  | deflate =>
    have := Zopfli.drop_outcome env hd hc
    have e : (writeMany env.S s (cs ++ trailer .deflate data)) = writeMany env.S s cs := by rw [trailer, List.append_nil]
    rw [e]
    simp only [Encoder.drop]
    cases hw : writeMany env.S s cs with
    | none => rw [hw] at this; exact this
    | some p =>
      obtain ⟨r, s'⟩ := p
      rw [hw] at this
      cases r with
      | ok u => exact this
      | error k =>
        have this : _ = some s' := this
        rw [this]
        intro r hr
        cases hr
        exact ⟨rfl, fun I _ h => h⟩
  | gzip =>
    have e : (Encoder.gzip ⟨some d, data.foldl crcUpdate 0xFFFFFFFF, UInt32.ofNat data.length⟩).drop env =
        ((Encoder.gzip ⟨some d, data.foldl crcUpdate 0xFFFFFFFF, UInt32.ofNat data.length⟩).finish env).map (·.2) := by
      simp only [Encoder.drop, Encoder.finish, GzipEncoder.drop, GzipEncoder.finish, some_bind]
      cases GzipEncoder.finishInner env _ d <;> rfl
    dsimp only at hf ⊢
    rw [e]
    cases hw : writeMany env.S s (cs ++ trailer .gzip data) with
    | none =>
      rw [hw] at hf
      have hf : _ = none := hf
      rw [hf]
      exact rfl
    | some p =>
      obtain ⟨r, s'⟩ := p
      rw [hw] at hf
      cases r with
      | ok u =>
        obtain ⟨r, hf, rfl⟩ := hf
        rw [hf]
        exact ⟨_, rfl, rfl⟩
      | error k =>
        intro r hr
        generalize hx : (Encoder.gzip ⟨some d, data.foldl crcUpdate 0xFFFFFFFF, UInt32.ofNat data.length⟩).finish env = x at hf hr
        cases x with
        | none => cases hr
        | some p =>
          cases hr
          exact ⟨rfl, (hf p rfl).2⟩
  | zlib =>
    have e : (Encoder.zlib ⟨some d, data.foldl Adler.update .new⟩).drop env =
        ((Encoder.zlib ⟨some d, data.foldl Adler.update .new⟩).finish env).map (·.2) := by
      simp only [Encoder.drop, Encoder.finish, ZlibEncoder.drop, ZlibEncoder.finish, some_bind]
      cases ZlibEncoder.finishInner env _ d <;> rfl
    dsimp only at hf ⊢
    rw [e]
    cases hw : writeMany env.S s (cs ++ trailer .zlib data) with
    | none =>
      rw [hw] at hf
      have hf : _ = none := hf
      rw [hf]
      exact rfl
    | some p =>
      obtain ⟨r, s'⟩ := p
      rw [hw] at hf
      cases r with
      | ok u =>
        obtain ⟨r, hf, rfl⟩ := hf
        rw [hf]
        exact ⟨_, rfl, rfl⟩
      | error k =>
        intro r hr
        generalize hx : (Encoder.zlib ⟨some d, data.foldl Adler.update .new⟩).finish env = x at hf hr
        cases x with
        | none => cases hr
        | some p =>
          cases hr
          exact ⟨rfl, (hf p rfl).2⟩

end Zopfli
