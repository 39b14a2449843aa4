import Verif.Spec.Members
import Verif.Proofs.Extend
import Verif.Props.Faults
import Verif.Props.Main
/-!
# C47, C48: streams cut short, and streams followed by other bytes
-/

namespace Rfc

theorem le32_take {l : List UInt8} {v : Nat} (h : le32? (l.take 4) = some v) (more : List UInt8) :
    4 ≤ l.length ∧ le32? ((l ++ more).take 4) = some v := by
  rcases l with _ | ⟨a, _ | ⟨b, _ | ⟨c, _ | ⟨d, l⟩⟩⟩⟩ <;> simp_all [le32?]

theorem be32_take {l : List UInt8} {v : Nat} (h : be32? (l.take 4) = some v) (more : List UInt8) :
    4 ≤ l.length ∧ be32? ((l ++ more).take 4) = some v := by
  rcases l with _ | ⟨a, _ | ⟨b, _ | ⟨c, _ | ⟨d, l⟩⟩⟩⟩ <;> simp_all [be32?, le32?]

theorem le32_length {l : List UInt8} {v : Nat} (h : le32? l = some v) : l.length = 4 := by
  rcases l with _ | ⟨a, _ | ⟨b, _ | ⟨c, _ | ⟨d, _ | ⟨e, l⟩⟩⟩⟩⟩ <;> simp_all [le32?]

theorem gunzipMember_append {a data rest : List UInt8} (h : gunzipMember a = some (data, rest)) (more : List UInt8) :
    gunzipMember (a ++ more) = some (data, rest ++ more) := by
  unfold gunzipMember at h
  split at h
  · rename_i m0 m1 m2 m3 xfl os body
    simp only [Option.bind_eq_bind, Option.bind_eq_some_iff, Prod.exists] at h
    obtain ⟨d, tail, h1, crc, h2, isize, h3, h4⟩ := h
    split at h4
    · rename_i hc
      cases h4
      obtain ⟨l1, g2⟩ := le32_take h2 more
      obtain ⟨l2, g3⟩ := le32_take h3 more
      rw [List.length_drop] at l2
      simp only [List.cons_append, gunzipMember, Option.bind_eq_bind, inflatePrefix_append h1 more, Option.bind_some, g2]
      rw [List.drop_append_of_le_length l1, g3, Option.bind_some, if_pos hc, List.drop_append_of_le_length (by omega)]
    · cases h4
  · cases h

theorem gunzip_iff {a data : List UInt8} : gunzip a = some data ↔ gunzipMember a = some (data, []) := by
  unfold gunzip gunzipMember
  split
  · rename_i m0 m1 m2 m3 xfl os body
    rcases hx : inflatePrefix body with _ | ⟨d, tail⟩
    · simp [hx]
    simp only [hx, Option.bind_eq_bind, Option.bind_some]
    rcases hy : le32? (tail.take 4) with _ | crc
    · simp [hy]
    simp only [hy, Option.bind_some]
    constructor
    · intro h
      obtain ⟨isize, h3, h4⟩ := Option.bind_eq_some_iff.1 h
      have hl := le32_length h3
      rw [List.take_of_length_le (by omega), h3, Option.bind_some, List.drop_of_length_le (l := tail) (by rw [List.length_drop] at hl; omega)]
      split at h4
      · rename_i hc
        cases h4
        rw [if_pos hc]
      · cases h4
    · intro h
      obtain ⟨isize, h3, h4⟩ := Option.bind_eq_some_iff.1 h
      split at h4
      · rename_i hc
        injection h4 with h4
        injection h4 with h4 h5
        subst h4
        rw [List.take_of_length_le (by rw [List.drop_eq_nil_iff] at h5; rw [List.length_drop]; omega)] at h3
        rw [h3, Option.bind_some, if_pos hc]
      · cases h4
  · simp

theorem zlibMember_append {a data rest : List UInt8} (h : zlibMember a = some (data, rest)) (more : List UInt8) :
    zlibMember (a ++ more) = some (data, rest ++ more) := by
  rcases a with _ | ⟨cmf, _ | ⟨flg, body⟩⟩
  · cases h
  · cases h
  unfold zlibMember at h
  by_cases c1 : cmf.toNat ≠ 0x78
  · simp [c1] at h
  by_cases c2 : flg.toNat.testBit 5 = true
  · simp [c1, c2] at h
  by_cases c3 : (256 * cmf.toNat + flg.toNat) % 31 ≠ 0
  · simp [c1, c2, c3] at h
  simp only [c1, c2, c3, if_false, Option.bind_eq_bind, Option.bind_eq_some_iff, Prod.exists, Bool.false_eq_true] at h
  obtain ⟨d, tail, h1, adler, h2, h3⟩ := h
  split at h3
  · rename_i hc
    cases h3
    obtain ⟨l1, g2⟩ := be32_take h2 more
    simp only [List.cons_append, zlibMember, c1, c2, c3, if_false, Option.bind_eq_bind, inflatePrefix_append h1 more, Option.bind_some, g2, if_pos hc, Bool.false_eq_true]
    rw [List.drop_append_of_le_length l1]
  · cases h3

theorem zlib_iff {a data : List UInt8} : zlibDecode a = some data ↔ zlibMember a = some (data, []) := by
  rcases a with _ | ⟨cmf, _ | ⟨flg, body⟩⟩
  · simp [zlibDecode, zlibMember]
  · simp [zlibDecode, zlibMember]
  unfold zlibDecode zlibMember
  by_cases c1 : cmf.toNat ≠ 0x78
  · simp [c1]
  by_cases c2 : flg.toNat.testBit 5 = true
  · simp [c1, c2]
  by_cases c3 : (256 * cmf.toNat + flg.toNat) % 31 ≠ 0
  · simp [c1, c2, c3]
  simp only [c1, c2, c3, if_false, Option.bind_eq_bind, Bool.false_eq_true]
  cases inflatePrefix body with
  | none => simp
  | some x =>
    obtain ⟨d, tail⟩ := x
    simp only [Option.bind_some]
    constructor
    · intro h
      obtain ⟨isize, h3, h4⟩ := Option.bind_eq_some_iff.1 h
      have hl := le32_length h3
      rw [List.length_reverse] at hl
      rw [List.take_of_length_le (by omega), h3, Option.bind_some, List.drop_of_length_le (l := tail) (by omega)]
      split at h4
      · rename_i hc
        cases h4
        rw [if_pos hc]
      · cases h4
    · intro h
      obtain ⟨isize, h3, h4⟩ := Option.bind_eq_some_iff.1 h
      split at h4
      · rename_i hc
        injection h4 with h4
        injection h4 with h4 h5
        subst h4
        rw [List.take_of_length_le (by rw [List.drop_eq_nil_iff] at h5; omega)] at h3
        rw [h3, Option.bind_some, if_pos hc]
      · cases h4

theorem inflate_iff {a data : List UInt8} : inflate a = some data ↔ inflatePrefix a = some (data, []) := by
  unfold inflate
  cases inflatePrefix a with
  | none => simp
  | some x =>
    obtain ⟨d, r⟩ := x
    simp only [Option.bind_eq_bind, Option.bind_some]
    by_cases h : r = []
    · simp [h]
    · simp [h]

end Rfc

namespace Zopfli

variable {log2 : Fp → Fp} {σ : Type} {S : Sink σ} {I : σ → Prop} {log : σ → List UInt8} {patience : σ → Nat}

theorem decode_iff (fmt : Format) {a data : List UInt8} : decode fmt a = some data ↔ decodeMember fmt a = some (data, []) := by
  cases fmt
  · exact Rfc.gunzip_iff
  · exact Rfc.zlib_iff
  · exact Rfc.inflate_iff

theorem decodeMember_append (fmt : Format) {a data rest : List UInt8} (h : decodeMember fmt a = some (data, rest)) (more : List UInt8) :
    decodeMember fmt (a ++ more) = some (data, rest ++ more) := by
  cases fmt
  · exact Rfc.gunzipMember_append h more
  · exact Rfc.zlibMember_append h more
  · exact Rfc.inflatePrefix_append h more

/-- A decoder that accepts a stream accepts no proper prefix of it, not even if it may ignore what comes after. -/
theorem decodeMember_prefix {fmt : Format} {stream data p : List UInt8} (h : decode fmt stream = some data) (hp : p <+: stream) (hne : p ≠ stream) :
    decodeMember fmt p = none := by
  obtain ⟨more, rfl⟩ := hp
  cases hd : decodeMember fmt p with
  | none => rfl
  | some x =>
    obtain ⟨d, r⟩ := x
    have := decodeMember_append fmt hd more
    rw [(decode_iff fmt).1 h] at this
    injection this with this
    injection this with _ this
    have := List.append_eq_nil_iff.1 this.symm
    rw [this.2, List.append_nil] at hne
    exact absurd rfl hne

theorem decode_none {fmt : Format} {p : List UInt8} (h : decodeMember fmt p = none) : decode fmt p = none := by
  cases hd : decode fmt p with
  | none => rfl
  | some d => rw [(decode_iff fmt).1 hd] at h; cases h

/-! ## C47: streams cut short -/

/-- **C47** The stream of a session, cut short anywhere, is not accepted by the decoder of its format, not even by one that
ignores what follows the end of a stream. -/
theorem C47_truncated (hlog : Log2Ok log2) (o : Options) (bt : BlockType) (fmt : Format) (calls : List Call) (hfit : Fits (writesOf calls)) :
    ∃ stream, decode fmt stream = some (writesOf calls).flatten ∧
      (∀ (σ : Type) (S : Sink σ) (I : σ → Prop) (log : σ → List UInt8) (patience : σ → Nat), Reliable S I log patience → ∀ ending s, I s →
        ∃ s', session ⟨ieee log2, S, o, bt⟩ fmt calls ending s = some (.ok (), s') ∧ log s' = log s ++ stream) ∧
      ∀ n < stream.length, decodeMember fmt (stream.take n) = none := by
  obtain ⟨stream, h1, h2⟩ := C22_C23_C26_same_stream hlog o bt fmt (writesOf calls) hfit
  refine ⟨stream, h1, fun σ S I log patience hS ending s hs => h2 σ S I log patience hS calls ending s rfl hs, fun n hn => ?_⟩
  refine decodeMember_prefix h1 (List.take_prefix n stream) fun he => ?_
  have := congrArg List.length he
  rw [List.length_take] at this
  omega

/-- **C47** Whatever the sink does, and whether the session ends with `finish` or by dropping the encoder: if what the sink
had accepted before its first failure decodes at all, it decodes to all of the data.  An encoder never leaves a stream for
part of the data. -/
theorem C47_all_or_nothing (hlog : Log2Ok log2) (S : Sink σ) (o : Options) (bt : BlockType) (fmt : Format) (calls : List Call) (ending : Ending)
    (hfit : Fits (writesOf calls)) (s s' : σ) (r : Except ErrKind Unit)
    (h : session ⟨ieee log2, S, o, bt⟩ fmt calls ending s = some (r, s')) :
    ∃ accepted failed, session ⟨ieee log2, spy S, o, bt⟩ fmt calls ending ⟨s, [], none⟩ = some (r, ⟨s', accepted, failed⟩) ∧
      ∀ data rest, decodeMember fmt accepted = some (data, rest) → data = (writesOf calls).flatten ∧ rest = [] := by
  have key : ∀ {stream accepted : List UInt8}, decode fmt stream = some (writesOf calls).flatten → accepted <+: stream →
      ∀ data rest, decodeMember fmt accepted = some (data, rest) → data = (writesOf calls).flatten ∧ rest = [] := by
    intro stream accepted h1 h2 data rest h3
    by_cases he : accepted = stream
    · rw [he, (decode_iff fmt).1 h1] at h3
      cases h3
      exact ⟨rfl, rfl⟩
    · rw [decodeMember_prefix h1 h2 he] at h3
      cases h3
  cases ending with
  | finish =>
    obtain ⟨stream, h1, -, h3⟩ := C21_sink_errors hlog o bt fmt calls hfit
    obtain ⟨accepted, failed, g1, g2, g3⟩ := h3 σ S s s' r h
    refine ⟨accepted, failed, g1, key h1 ?_⟩
    cases r with
    | ok u => rw [(g2 rfl).2]
    | error k => exact (g3 k rfl).2.1
  | drop =>
    obtain ⟨stream, h1, -, h3⟩ := C21_drop hlog o bt fmt calls hfit
    obtain ⟨accepted, failed, g1, g2, g3⟩ := h3 σ S s s' r h
    refine ⟨accepted, failed, g1, key h1 ?_⟩
    cases failed with
    | none => rw [(g2 rfl).2]
    | some k => exact (g3 k rfl).2

/-- **C47** Until the encoder is finished or dropped, what the sink has accepted does not decode: whatever the sink does, and
at whatever point the calls stop. -/
theorem C47_unfinished (hlog : Log2Ok log2) (S : Sink σ) (o : Options) (bt : BlockType) (fmt : Format) (calls : List Call)
    (hfit : Fits (writesOf calls)) (s : σ) (e e' : Encoder (Spy σ)) (t : Spy σ) (r : Except ErrKind Unit)
    (hnew : Encoder.new ⟨ieee log2, spy S, o, bt⟩ fmt ⟨s, [], none⟩ = some (.ok e, t))
    (hrun : e.run ⟨ieee log2, spy S, o, bt⟩ calls = some (r, e')) :
    ∃ t', e'.sink? = some t' ∧ decodeMember fmt t'.log = none := by
  obtain ⟨stream, body, blocks, a1, -, -⟩ := streamOf_exists (ieeeLaws hlog) o bt fmt (writesOf calls) hfit
  have hfit' : Fits (writesOf calls ++ [[0]]) := by
    intro w hw
    rcases List.mem_append.1 hw with hw | hw
    · exact hfit w hw
    · rw [List.mem_singleton.1 hw]; decide
  obtain ⟨stream', body', blocks', b1, -, -⟩ := streamOf_exists (ieeeLaws hlog) o bt fmt (writesOf calls ++ [[0]]) hfit'
  have a2 := a1.decode (ieeeLaws hlog) hfit
  have b2 := b1.decode (ieeeLaws hlog) hfit'
  obtain ⟨cs, c, cs', c1, -, c3⟩ := a1.core
  obtain ⟨ds, d, ds', d1, -, d3⟩ := b1.core
  rw [coreWrites_append, c1, Option.bind_some] at d1
  obtain ⟨⟨x, y⟩, -, d1⟩ := Option.map_eq_some_iff.1 d1
  injection d1 with d1 d1'
  subst d1
  -- what has been accepted
  have hpre : ∃ t', e'.sink? = some t' ∧ t'.log <+: header fmt ++ cs.flatten := by
    have h0 := Encoder.new_outcome ⟨ieee log2, spy S, o, bt⟩ fmt (⟨s, [], none⟩ : Spy σ)
    cases hm : writeMany (spy S) ⟨s, [], none⟩ [header fmt] with
    | none =>
      dsimp only at h0
      rw [hm] at h0
      have h0 : _ = none := h0
      rw [h0] at hnew
      cases hnew
    | some p =>
      obtain ⟨q, s0⟩ := p
      dsimp only at h0
      rw [hm] at h0
      cases q with
      | error k =>
        have h0 : _ = some _ := h0
        rw [h0] at hnew
        cases hnew
      | ok u =>
        obtain ⟨_, h0, e0, rfl, he0⟩ := h0
        rw [h0] at hnew
        cases hnew
        obtain ⟨i1, i2⟩ := ((spy_recorded S).writeMany _ hm rfl).1 u rfl
        obtain ⟨j1, j2⟩ := run_recorded ⟨ieee log2, spy S, o, bt⟩ (spy_recorded S) calls he0 i1 c1 hrun
        have i3 : t.log = header fmt := by simpa using i2
        cases r with
        | ok u =>
          obtain ⟨t', k1, k2, k3⟩ := j1 u rfl
          exact ⟨t', k1.sink, by rw [k3, i3]⟩
        | error k =>
          obtain ⟨t', k1, k2, n, -, k3⟩ := j2 k rfl
          exact ⟨t', k1, by rw [k3, i3]; exact List.prefix_append_right_inj (header fmt) |>.2 (List.take_prefix n _)⟩
  obtain ⟨t', k1, k2⟩ := hpre
  refine ⟨t', k1, ?_⟩
  have p1 : t'.log <+: stream := k2.trans ⟨(cs' ++ trailer fmt (writesOf calls).flatten).flatten, by rw [c3, List.append_assoc]⟩
  have p2 : t'.log <+: stream' := k2.trans ⟨x.flatten ++ (ds' ++ trailer fmt (writesOf calls ++ [[0]]).flatten).flatten, by
    rw [d3]; simp only [List.flatten_append, List.append_assoc]⟩
  by_cases q1 : t'.log = stream
  · refine decodeMember_prefix b2 p2 fun q2 => ?_
    rw [← q2, q1, a2] at b2
    injection b2 with b2
    have := congrArg List.length b2
    simp at this
  · exact decodeMember_prefix a2 p1 q1

/-- **C47** The same for `compress`: with any sink, what it had accepted before its first failure decodes to all that the
reader delivered, or not at all. -/
theorem C47_compress (hlog : Log2Ok log2) {ρ : Type} {R : Reader ρ} {J : ρ → Prop} {data : ρ → List UInt8} {res : Except ErrKind Unit}
    {patienceR : ρ → Nat} (hR : Delivers R J data res patienceR) (o : Options) (fmt : Format) (r : ρ) (hr : J r) (S : Sink σ) (s s' : σ)
    (x : Except ErrKind Unit) (h : compress (ieee log2) S R o fmt r s = some (x, s')) :
    ∃ accepted failed, compress (ieee log2) (spy S) R o fmt r ⟨s, [], none⟩ = some (x, ⟨s', accepted, failed⟩) ∧
      (failed = none → decode fmt accepted = some (data r)) ∧ (failed ≠ none → decodeMember fmt accepted = none) := by
  obtain ⟨stream, h1, h2⟩ := C21_compress hlog hR o fmt r hr
  obtain ⟨accepted, failed, g1, g2, g3⟩ := h2 σ S s s' x h
  refine ⟨accepted, failed, g1, fun hf => by rw [(g2 hf).2]; exact h1, fun hf => ?_⟩
  obtain ⟨k, rfl⟩ := Option.ne_none_iff_exists'.1 hf
  obtain ⟨-, i2, i3⟩ := g3 k rfl
  exact decodeMember_prefix h1 i2 fun he => by rw [he] at i3; omega

/-- What is known of the file on a disk that dies at time `T`. -/
def Doomed (T : Nat) (d : Disk) (name : String) (t : Spy (World × Nat)) : Prop :=
  t.sink.1.disk = d.set name t.log ∧ (t.failed ≠ none → T ≤ t.sink.1.time)

theorem Disk.set_set (d : Disk) (name : String) (a b : List UInt8) : (d.set name a).set name b = d.set name b := by
  funext x
  unfold Disk.set
  split <;> rfl

theorem doomed_write {os : Os} {T : Nat} (hT : DiesAt os T) (d : Disk) (name : String) (t : Spy (World × Nat)) (b : List UInt8) (h : Doomed T d name t) :
    Doomed T d name ((spy (writeStatistics (fileSink os name))).write t b).2 := by
  obtain ⟨⟨w, c⟩, log, failed⟩ := t
  obtain ⟨h1, h2⟩ := h
  dsimp only at h1 h2
  rcases Nat.lt_or_ge w.time T with hlt | hge
  · have hf : failed = none := by
      cases failed with
      | none => rfl
      | some k => exact absurd (h2 (by simp)) (by omega)
    subst hf
    rcases hT.before_write w name b.length hlt with hw | ⟨n, hw⟩
    · simp only [spy, writeStatistics, fileSink, hw]
      exact ⟨h1, by simp⟩
    · simp only [spy, writeStatistics, fileSink, hw]
      rw [if_neg (by
        rintro ⟨h0, hb⟩
        have := List.length_pos_iff.2 hb
        omega)]
      refine ⟨?_, by simp⟩
      dsimp only
      rw [h1, Disk.set_same, Option.getD_some, Disk.set_set, ← List.take_eq_take_min]
  · obtain ⟨k, hk, hw⟩ := hT.after_write w name b.length hge
    simp only [spy, writeStatistics, fileSink, hw]
    cases failed with
    | some k' => exact ⟨h1, fun _ => Nat.le_succ_of_le hge⟩
    | none =>
      cases k with
      | interrupted => exact absurd rfl hk
      | _ => exact ⟨h1, fun _ => Nat.le_succ_of_le hge⟩

theorem doomed_flush {os : Os} {T : Nat} (hT : DiesAt os T) (d : Disk) (name : String) (t : Spy (World × Nat)) (h : Doomed T d name t) :
    Doomed T d name ((spy (writeStatistics (fileSink os name))).flush t).2 := by
  obtain ⟨⟨w, c⟩, log, failed⟩ := t
  obtain ⟨h1, h2⟩ := h
  dsimp only at h1 h2
  rcases Nat.lt_or_ge w.time T with hlt | hge
  · have hf : failed = none := by
      cases failed with
      | none => rfl
      | some k => exact absurd (h2 (by simp)) (by omega)
    subst hf
    simp only [spy, writeStatistics, fileSink, hT.before_flush w name hlt]
    exact ⟨h1, by simp⟩
  · obtain ⟨k, hw⟩ := hT.after_flush w name hge
    simp only [spy, writeStatistics, fileSink, hw]
    cases failed with
    | some k' => exact ⟨h1, fun _ => Nat.le_succ_of_le hge⟩
    | none => exact ⟨h1, fun _ => Nat.le_succ_of_le hge⟩

/-- **C47** The command-line program on a disk that dies at any time `T`: the files before some file `f` have been compressed;
the companion of `f` is not there, or as it was, or it is a file that `gunzip` rejects, however it treats trailing bytes; and
nothing else has changed. -/
theorem C47_program (hlog : Log2Ok log2) {os : Os} (hf : Fair os) {T : Nat} (hT : DiesAt os T) (hnf : ∀ name, os.fault name = none) :
    ∀ (args : List String) (w w' : World) (e : Failure), main (ieee log2) os args w = some (.error e, w') →
      ∃ done f rest d, args = done ++ f :: rest ∧ Compressed w.disk done d ∧
        (w'.disk = d ∨ ∃ part, w'.disk = d.set (f ++ ".gz") part ∧ Rfc.gunzipMember part = none ∧ Rfc.gunzip part = none)
  | [], w, w', e, h => by cases h
  | f :: args, w, w', e, h => by
    rw [main] at h
    simp only [Option.bind_eq_bind, Option.bind_eq_some_iff, Prod.exists] at h
    obtain ⟨r, w1, h1, h2⟩ := h
    cases r with
    | ok c =>
      obtain ⟨content, stream, g1, g2, g3, -⟩ := (compressFile_spec hlog hf h1).1 c rfl
      obtain ⟨done, g, rest, d, rfl, i2, i3⟩ := C47_program hlog hf hT hnf args w1 w' e h2
      rw [g3] at i2
      exact ⟨f :: done, g, rest, d, rfl, .cons g1 g2 i2, i3⟩
    | error e' =>
      cases h2
      refine ⟨[], f, args, w.disk, rfl, .nil _, ?_⟩
      have hn : outName f = f ++ ".gz" := rfl
      unfold compressFile at h1
      split at h1
      · cases h1; exact .inl rfl
      · cases h1; exact .inl rfl
      · rename_i content ho hc
        split at h1
        · cases h1; exact .inl rfl
        · split at h1
          · cases h1; exact .inl rfl
          · rw [hn] at h1
            simp only [Option.bind_eq_bind, Option.bind_eq_some_iff, Prod.exists] at h1
            obtain ⟨x, w2, count, h1, h2⟩ := h1
            obtain ⟨pat, hR⟩ := fileReader_delivers hf f
            obtain ⟨stream, g1, g2⟩ := C21_compress hlog hR Options.default .gzip (readable os f content, 0) trivial
            obtain ⟨accepted, failed, g3, g4, g5⟩ := g2 _ _ _ _ _ h1
            have inv := compress_inv (Doomed T w.disk (f ++ ".gz")) (doomed_write hT w.disk (f ++ ".gz")) (doomed_flush hT w.disk (f ++ ".gz"))
              ⟨rfl, by simp⟩ g3
            cases x with
            | ok u => cases h2
            | error k =>
              cases h2
              right
              refine ⟨accepted, inv.1, ?_⟩
              have hnone : decodeMember .gzip accepted = none := by
                cases failed with
                | none =>
                  have := (g4 rfl).1
                  unfold readEnd at this
                  rw [hnf f] at this
                  cases this
                | some k' =>
                  obtain ⟨-, i2, i3⟩ := g5 k' rfl
                  exact decodeMember_prefix g1 i2 fun he => by rw [he] at i3; omega
              exact ⟨hnone, decode_none hnone⟩

/-! ## C48: streams followed by other bytes -/

/-- **C48** A decoder finds the end of a stream by itself: given the stream of a session and any bytes after it, it returns the
data and exactly those bytes. -/
theorem C48_self_delimiting (hlog : Log2Ok log2) (hS : Reliable S I log patience) (o : Options) (bt : BlockType) (fmt : Format) (calls : List Call)
    (ending : Ending) (hfit : Fits (writesOf calls)) (s : σ) (hs : I s) :
    ∃ s' stream, session ⟨ieee log2, S, o, bt⟩ fmt calls ending s = some (.ok (), s') ∧ log s' = log s ++ stream ∧
      ∀ more, decodeMember fmt (stream ++ more) = some ((writesOf calls).flatten, more) := by
  obtain ⟨stream, h1, h2⟩ := C22_C23_C26_same_stream hlog o bt fmt (writesOf calls) hfit
  obtain ⟨s', g1, g2⟩ := h2 σ S I log patience hS calls ending s rfl hs
  exact ⟨s', stream, g1, g2, fun more => decodeMember_append fmt ((decode_iff fmt).1 h1) more⟩

/-- **C48** Sessions one after the other on the same sink, with any formats, options and data: the sink receives streams that a
decoder separates again, also when other bytes follow. -/
theorem C48_sessions (hlog : Log2Ok log2) (hS : Reliable S I log patience) (fmt : Format) :
    ∀ (jobs : List Job), (∀ j ∈ jobs, Fits (writesOf j.calls)) → ∀ (s : σ), I s →
      ∃ s' streams, sessions (ieee log2) S fmt jobs s = some (.ok (), s') ∧ log s' = log s ++ streams.flatten ∧ I s' ∧
        List.Forall₂ (fun j stream => ∀ more, decodeMember fmt (stream ++ more) = some (j.data, more)) jobs streams
  | [], _, s, hs => ⟨s, [], rfl, by simp, hs, .nil⟩
  | j :: l, hfit, s, hs => by
    obtain ⟨stream, body, blocks, h1, -, -⟩ := streamOf_exists (ieeeLaws hlog) j.options j.btype fmt (writesOf j.calls) (hfit j (.head _))
    obtain ⟨s1, g1, g2, g3⟩ := session_reliable ⟨ieee log2, S, j.options, j.btype⟩ hS fmt j.calls .finish hs h1
    obtain ⟨s', streams, i1, i2, i3, i4⟩ := C48_sessions hlog hS fmt l (fun j hj => hfit j (.tail _ hj)) s1 g3
    refine ⟨s', stream :: streams, ?_, ?_, i3, .cons (fun more => ?_) i4⟩
    · rw [sessions, g1]
      exact i1
    · rw [i2, g2, List.flatten_cons, List.append_assoc]
    · exact decodeMember_append fmt ((decode_iff fmt).1 (h1.decode (ieeeLaws hlog) (hfit j (.head _)))) more

/-- **C48** A series of gzip sessions on the same sink makes one gzip file, for the concatenation of all the data. -/
theorem C48_gzip_file (hlog : Log2Ok log2) (hS : Reliable S I log patience) (jobs : List Job) (hfit : ∀ j ∈ jobs, Fits (writesOf j.calls)) (s : σ) (hs : I s) :
    ∃ s' file, sessions (ieee log2) S .gzip jobs s = some (.ok (), s') ∧ log s' = log s ++ file ∧
      Rfc.gunzipFile file = some (jobs.map Job.data).flatten := by
  obtain ⟨s', streams, h1, h2, -, h3⟩ := C48_sessions hlog hS .gzip jobs hfit s hs
  refine ⟨s', streams.flatten, h1, h2, ?_⟩
  clear h1 h2 hfit
  induction h3 with
  | nil => rw [Rfc.gunzipFile]; rfl
  | @cons j stream l streams h _ ih =>
    rw [Rfc.gunzipFile, if_neg, List.flatten_cons, show Rfc.gunzipMember (stream ++ streams.flatten) = _ from h streams.flatten]
    · show (Rfc.gunzipFile streams.flatten).bind _ = _
      rw [ih]
      rfl
    · intro h0
      have := h streams.flatten
      rw [List.flatten_cons] at h0
      rw [h0] at this
      cases this

/-! ## Examples -/

/-- A sink that accepts `n` bytes and then fails for ever. -/
def limitedSink : Sink (List UInt8 × Nat) where
  write s buf := if s.2 = 0 then (.error (.other 28), s) else (.ok (min s.2 buf.length), (s.1 ++ buf.take s.2, s.2 - min s.2 buf.length))
  flush s := (.ok (), s)

example (n : Nat) (r : Except ErrKind Unit) (s' : List UInt8 × Nat)
    (h : session ⟨ieee floorLog2, limitedSink, Options.default, .dynamic⟩ .gzip [.write [1, 2, 3], .write [4]] .drop ([], n) = some (r, s')) :
    ∃ accepted failed, session ⟨ieee floorLog2, spy limitedSink, Options.default, .dynamic⟩ .gzip [.write [1, 2, 3], .write [4]] .drop ⟨([], n), [], none⟩ =
        some (r, ⟨s', accepted, failed⟩) ∧
      ∀ data rest, decodeMember .gzip accepted = some (data, rest) → data = [1, 2, 3, 4] ∧ rest = [] :=
  C47_all_or_nothing floorLog2_ok limitedSink Options.default .dynamic .gzip _ .drop
    (by intro w hw; simp [writesOf] at hw; rcases hw with rfl | rfl <;> decide) _ _ _ h

example : ∃ s' file, sessions (ieee floorLog2) vecSink .gzip [⟨Options.default, .dynamic, [.write [1, 2], .flush]⟩, ⟨Options.default, .fixed, [.write [3]]⟩] [] =
    some (.ok (), s') ∧ s' = [] ++ file ∧ Rfc.gunzipFile file = some [1, 2, 3] :=
  C48_gzip_file floorLog2_ok vecSink_reliable _ (by
    intro j hj w hw
    simp at hj
    rcases hj with rfl | rfl <;> simp [writesOf] at hw <;> subst hw <;> decide) [] trivial

/-- A disk that makes no problems until time `T` and is dead from then on. -/
def dyingOs (T : Nat) : Os where
  openFile _ _ := none
  metadata _ _ := none
  createFile _ _ := none
  writeFile w _ len := if w.time < T then .ok (len + 1) else .error (.other 5)
  flushFile w _ := if w.time < T then none else some (.other 5)
  readFile _ _ := some 100
  fault _ := none

theorem dyingOs_dies (T : Nat) : DiesAt (dyingOs T) T where
  before_write w _ len h := .inr ⟨len, if_pos h⟩
  before_flush w _ h := if_pos h
  after_write w _ _ h := ⟨.other 5, by simp, if_neg (by omega)⟩
  after_flush w _ h := ⟨.other 5, if_neg (by omega)⟩

theorem dyingOs_fair (T : Nat) : Fair (dyingOs T) where
  read _ t := ⟨t, Nat.le_refl t, by simp [dyingOs]⟩
  fault _ _ _ h := by cases h
  write t := ⟨t, Nat.le_refl t, by
    intro w name len _
    simp only [dyingOs]
    split <;> simp⟩

example (T : Nat) (w w' : World) (e : Failure) (h : main (ieee floorLog2) (dyingOs T) ["a", "b"] w = some (.error e, w')) :=
  C47_program floorLog2_ok (dyingOs_fair T) (dyingOs_dies T) (fun _ => rfl) ["a", "b"] w w' e h

end Zopfli
