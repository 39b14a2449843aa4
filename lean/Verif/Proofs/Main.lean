import Verif.Spec.Main
import Verif.Props.Faults
/-!
# The command-line program: lemmas
-/

namespace Zopfli

variable {σ : Type}

/-- A sink restricted to the states that satisfy an invariant. -/
def Sink.sub (S : Sink σ) (P : σ → Prop) (hw : ∀ s b, P s → P (S.write s b).2) (hf : ∀ s, P s → P (S.flush s).2) : Sink { s // P s } where
  write s b := ((S.write s.1 b).1, ⟨(S.write s.1 b).2, hw s.1 b s.2⟩)
  flush s := ((S.flush s.1).1, ⟨(S.flush s.1).2, hf s.1 s.2⟩)

theorem Sink.sub_hom (S : Sink σ) (P : σ → Prop) (hw : ∀ s b, P s → P (S.write s b).2) (hf : ∀ s, P s → P (S.flush s).2) :
    Hom (S.sub P hw hf) S Subtype.val where
  wr t b := by simp only [Sink.sub]
  fl t := by simp only [Sink.sub]

/-- What every call of the sink preserves, `compress` preserves. -/
theorem compress_inv {ρ : Type} {F : FloatOps} {S : Sink σ} {R : Reader ρ} {o : Options} {fmt : Format} {r : ρ} {s s' : σ} {x : Except ErrKind Unit}
    (P : σ → Prop) (hw : ∀ s b, P s → P (S.write s b).2) (hf : ∀ s, P s → P (S.flush s).2) (hs : P s)
    (h : compress F S R o fmt r s = some (x, s')) : P s' := by
  have hc := (S.sub_hom P hw hf).compress (F := F) (o := o) R fmt r ⟨s, hs⟩
  rw [show (Subtype.val (⟨s, hs⟩ : { s // P s })) = s from rfl, h] at hc
  cases hy : Zopfli.compress F (S.sub P hw hf) R o fmt r ⟨s, hs⟩ with
  | none => rw [hy] at hc; cases hc
  | some y =>
    rw [hy] at hc
    obtain ⟨x', t⟩ := y
    cases hc
    exact t.2

theorem writeStatistics_hom (S : Sink σ) : Hom (writeStatistics S) S Prod.fst where
  wr t b := by
    obtain ⟨wr, fl⟩ := S
    dsimp only [writeStatistics]
    generalize wr t.1 b = p
    obtain ⟨r, s⟩ := p
    cases r <;> rfl
  fl t := rfl

theorem Disk.set_same (d : Disk) (name : String) (data : List UInt8) : d.set name data name = some data := if_pos rfl

theorem Disk.set_other (d : Disk) {name x : String} (data : List UInt8) (h : x ≠ name) : d.set name data x = d x := if_neg h

theorem fileSink_other (os : Os) {name x : String} (h : x ≠ name) (w : World) (b : List UInt8) :
    ((fileSink os name).write w b).2.disk x = w.disk x ∧ ((fileSink os name).flush w).2.disk x = w.disk x := by
  constructor
  · unfold fileSink
    dsimp only
    split
    · exact Disk.set_other _ _ h
    · rfl
  · unfold fileSink
    dsimp only
    split <;> rfl

/-- What is known of the file and of the counter, as long as no call has failed. -/
def Tallied (d : Disk) (name : String) (t : Spy (World × Nat)) : Prop :=
  (t.failed = none → t.sink.1.disk name = some t.log ∧ t.sink.2 = t.log.length) ∧ ∀ x, x ≠ name → t.sink.1.disk x = d x

theorem tallied_write (os : Os) (d : Disk) (name : String) (t : Spy (World × Nat)) (b : List UInt8) (h : Tallied d name t) :
    Tallied d name ((spy (writeStatistics (fileSink os name))).write t b).2 := by
  have h2 : ∀ x, x ≠ name → ((spy (writeStatistics (fileSink os name))).write t b).2.sink.1.disk x = d x := by
    intro x hx
    have e1 := (spy_hom (writeStatistics (fileSink os name))).wr t b
    have e2 := (writeStatistics_hom (fileSink os name)).wr t.sink b
    rw [e1] at e2
    have e3 := congrArg Prod.snd e2
    dsimp only at e3
    rw [← e3, (fileSink_other os hx _ _).1, h.2 x hx]
  refine ⟨?_, h2⟩
  clear h2
  obtain ⟨⟨w, c⟩, log, failed⟩ := t
  cases failed with
  | some k =>
    intro hf
    simp only [spy] at hf
    cases hf
  | none =>
    obtain ⟨g1, g2⟩ := h.1 rfl
    dsimp only at g1 g2
    subst g2
    simp only [spy, writeStatistics, fileSink]
    cases os.writeFile w name b.length with
    | error k => cases k <;> simp [g1]
    | ok n =>
      dsimp only
      split
      · simp
      · intro _
        refine ⟨?_, ?_⟩
        · dsimp only
          rw [Disk.set_same, g1, Option.getD_some, ← List.take_eq_take_min]
        · dsimp only
          simp

theorem tallied_flush (os : Os) (d : Disk) (name : String) (t : Spy (World × Nat)) (h : Tallied d name t) :
    Tallied d name ((spy (writeStatistics (fileSink os name))).flush t).2 := by
  have h2 : ∀ x, x ≠ name → ((spy (writeStatistics (fileSink os name))).flush t).2.sink.1.disk x = d x := by
    intro x hx
    have e1 := (spy_hom (writeStatistics (fileSink os name))).fl t
    have e2 := (writeStatistics_hom (fileSink os name)).fl t.sink
    rw [e1] at e2
    have e3 := congrArg Prod.snd e2
    dsimp only at e3
    rw [← e3, (fileSink_other os hx _ []).2, h.2 x hx]
  refine ⟨?_, h2⟩
  clear h2
  obtain ⟨⟨w, c⟩, log, failed⟩ := t
  cases failed with
  | some k =>
    intro hf
    simp only [spy] at hf
    cases hf
  | none =>
    obtain ⟨g1, g2⟩ := h.1 rfl
    dsimp only at g1 g2
    subst g2
    simp only [spy, writeStatistics, fileSink]
    cases os.flushFile w name with
    | none => simp [g1]
    | some k => simp

/-- How reading a file ends. -/
def readEnd (os : Os) (name : String) : Except ErrKind Unit :=
  match os.fault name with
  | none => .ok ()
  | some (_, k) => .error k

open Classical in
theorem fileReader_delivers {os : Os} (hf : Fair os) (name : String) :
    ∃ patience, Delivers (fileReader os name) (fun _ => True) Prod.fst (readEnd os name) patience := by
  refine ⟨fun r => Nat.find (hf.read name r.2) - r.2, ?_, ?_⟩
  · unfold readEnd
    split
    · simp
    · rename_i n k h
      intro he
      exact hf.fault name n k h (Except.error.inj he)
  · rintro ⟨l, t⟩ room - hroom
    unfold fileReader
    dsimp only
    cases hr : os.readFile name t with
    | none =>
      refine .inr (.inl ⟨_, rfl, rfl, ?_, trivial⟩)
      dsimp only
      obtain ⟨h1, h2⟩ := Nat.find_spec (hf.read name t)
      have h3 : Nat.find (hf.read name t) ≠ t := by
        intro h
        rw [h] at h2
        exact h2 hr
      have h4 : Nat.find (hf.read name (t + 1)) ≤ Nat.find (hf.read name t) :=
        Nat.find_min' _ ⟨by omega, h2⟩
      omega
    | some n =>
      dsimp only
      by_cases hl : l = []
      · subst hl
        rw [if_pos rfl]
        refine .inr (.inr ?_)
        unfold readEnd
        rcases os.fault name with _ | ⟨a, k⟩ <;> exact ⟨_, rfl, rfl⟩
      · rw [if_neg hl]
        refine .inl ⟨_, _, rfl, ?_, ?_, ?_, trivial⟩
        · rw [Ne, List.take_eq_nil_iff]
          rintro (h | h)
          · omega
          · exact hl h
        · rw [List.length_take]
          omega
        · exact (List.take_append_drop _ _).symm

open Classical in
theorem fileSink_honest {os : Os} (hf : Fair os) (name : String) :
    ∃ patience, Honest (writeStatistics (fileSink os name)) (fun _ => True) patience := by
  refine ⟨fun s => Nat.find (hf.write s.1.time) - s.1.time, ?_, ?_, ?_, ?_⟩
  · exact fun _ _ _ => trivial
  · exact fun _ _ => trivial
  · rintro ⟨w, c⟩ buf n - h
    simp only [writeStatistics, fileSink] at h
    cases hw : os.writeFile w name buf.length with
    | error k => rw [hw] at h; cases h
    | ok m =>
      rw [hw] at h
      dsimp only at h
      cases h
      omega
  · rintro ⟨w, c⟩ buf - h
    simp only [writeStatistics, fileSink] at h
    cases hw : os.writeFile w name buf.length with
    | ok m => rw [hw] at h; cases h
    | error k =>
      have ht : ((writeStatistics (fileSink os name)).write (w, c) buf).2.1.time = w.time + 1 := by simp only [writeStatistics, fileSink, hw]
      rw [hw] at h
      dsimp only at h
      cases h
      obtain ⟨h1, h2⟩ := Nat.find_spec (hf.write w.time)
      have h3 : Nat.find (hf.write w.time) ≠ w.time := by
        intro h
        exact h2 w name buf.length h.symm hw
      have h4 : Nat.find (hf.write (w.time + 1)) ≤ Nat.find (hf.write w.time) :=
        Nat.find_min' _ ⟨by omega, h2⟩
      simp only [ht]
      omega

open Classical in
theorem fileSink_reliable {os : Os} (hf : Fair os) (hs : Smooth os) (name : String) :
    ∃ patience, Reliable (writeStatistics (fileSink os name)) (fun s => s.1.disk name ≠ none) (fun s => (s.1.disk name).getD []) patience := by
  obtain ⟨patience, hh⟩ := fileSink_honest hf name
  refine ⟨patience, ?_, ?_⟩
  · rintro ⟨w, c⟩ buf hI hb
    have hlen : 0 < buf.length := List.length_pos_iff.2 hb
    rcases hs.writeFile w name buf.length hlen with h | ⟨n, h⟩
    · right
      have hi := hh.interrupt (w, c) buf trivial (by simp only [writeStatistics, fileSink, h])
      refine ⟨_, ?_, ?_, hi, ?_⟩
      · simp only [writeStatistics, fileSink, h]
      · simp only [writeStatistics, fileSink, h]
      · simp only [writeStatistics, fileSink, h]
        exact hI
    · left
      have e : (writeStatistics (fileSink os name)).write (w, c) buf = (.ok (min (n + 1) buf.length),
          (⟨w.disk.set name ((w.disk name).getD [] ++ buf.take (n + 1)), w.time + 1⟩, c + min (n + 1) buf.length)) := by
        simp only [writeStatistics, fileSink, h]
      refine ⟨min (n + 1) buf.length, _, e, by omega, by omega, ?_, ?_⟩
      · dsimp only
        rw [Disk.set_same, Option.getD_some, ← List.take_eq_take_min]
      · dsimp only
        rw [Disk.set_same]
        simp
  · rintro ⟨w, c⟩ hI
    refine ⟨(⟨w.disk, w.time + 1⟩, c), by simp only [writeStatistics, fileSink, hs.flushFile], rfl, hI⟩

theorem outName_ne (f : String) : f ≠ outName f := by
  intro h
  have := congrArg String.length h
  rw [outName, String.length_append] at this
  have h2 : (".gz" : String).length = 3 := by decide
  omega

end Zopfli
