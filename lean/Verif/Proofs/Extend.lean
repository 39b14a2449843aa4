import Verif.Spec.Container
/-!
# The decoder reads from left to right

A decoder that has succeeded on some bits does the same, and stops at the same place, when more bits follow.
-/

namespace Rfc

/-- The source with `more` after its end. -/
def Bits.ext (s : Bits) (more : List Bool) : Bits := ⟨s.bits ++ more, s.pos⟩

/-- What a reader has done to a source: it has consumed some bits from the front. -/
def Bits.Reads (s s' : Bits) : Prop := ∃ used, s.bits = used ++ s'.bits ∧ s'.pos = s.pos + used.length

/-- A reader that depends only on what it consumes. -/
def Local {α : Type} (f : Bits → Option (α × Bits)) : Prop :=
  ∀ s a s', f s = some (a, s') → s.Reads s' ∧ ∀ more, f (s.ext more) = some (a, s'.ext more)

theorem Bits.Reads.refl (s : Bits) : s.Reads s := ⟨[], rfl, rfl⟩

theorem Bits.Reads.trans {a b c : Bits} (h : a.Reads b) (g : b.Reads c) : a.Reads c := by
  obtain ⟨u, h1, h2⟩ := h
  obtain ⟨v, g1, g2⟩ := g
  exact ⟨u ++ v, by rw [h1, g1, List.append_assoc], by rw [g2, h2, List.length_append]; omega⟩

theorem Local.pure {α : Type} (a : α) : Local fun s => some (a, s) := by
  intro s b s' h
  cases h
  exact ⟨.refl s, fun more => rfl⟩

theorem Local.none {α : Type} : Local fun _ => (Option.none : Option (α × Bits)) := by
  intro s b s' h
  cases h

theorem Local.bind {α β : Type} {f : Bits → Option (α × Bits)} {g : α → Bits → Option (β × Bits)} (hf : Local f) (hg : ∀ a, Local (g a)) :
    Local fun s => (f s).bind fun x => g x.1 x.2 := by
  intro s b s' h
  obtain ⟨⟨a, t⟩, h1, h2⟩ := Option.bind_eq_some_iff.1 h
  obtain ⟨i1, i2⟩ := hf s a t h1
  obtain ⟨j1, j2⟩ := hg a t b s' h2
  refine ⟨i1.trans j1, fun more => ?_⟩
  show (f (s.ext more)).bind _ = _
  rw [i2 more]
  exact j2 more

theorem Local.ite {α : Type} {p : Prop} [Decidable p] {f g : Bits → Option (α × Bits)} (hf : Local f) (hg : Local g) :
    Local fun s => if p then f s else g s := by
  by_cases h : p
  · simp only [if_pos h]; exact hf
  · simp only [if_neg h]; exact hg

theorem Local.bindOpt {α β : Type} (o : Option β) {g : β → Bits → Option (α × Bits)} (hg : ∀ b, Local (g b)) :
    Local fun s => o.bind fun b => g b s := by
  cases o with
  | none => exact .none
  | some b => exact hg b

theorem next_local : Local Bits.next := by
  intro s a s' h
  obtain ⟨l, p⟩ := s
  cases l with
  | nil => cases h
  | cons b r =>
    simp only [Bits.next, Option.some.injEq, Prod.mk.injEq] at h
    obtain ⟨rfl, rfl⟩ := h
    exact ⟨⟨[b], rfl, rfl⟩, fun more => rfl⟩

theorem nat_local (n : Nat) : Local (Bits.nat n) := by
  induction n with
  | zero => exact .pure 0
  | succ n ih => exact next_local.bind fun b => ih.bind fun v => .pure (b.toNat + 2 * v)

theorem bytes_local (n : Nat) : Local (Bits.bytes n) := by
  induction n with
  | zero => exact .pure []
  | succ n ih => exact (nat_local 8).bind fun b => ih.bind fun v => .pure (UInt8.ofNat b :: v)

theorem align_local : Local fun s => s.align.map fun s => ((), s) := by
  intro s a s' h
  simp only [Bits.align] at h
  generalize hk : (8 - s.pos % 8) % 8 = k at h
  split at h
  · rename_i hle
    cases h
    refine ⟨⟨s.bits.take k, by simp, by simp; omega⟩, fun more => ?_⟩
    simp only [Bits.align, Bits.ext, hk]
    rw [if_pos (by simp; omega), List.drop_append_of_le_length hle]
    rfl
  · cases h

theorem decodeFrom_local (lens : List Nat) (fuel : Nat) : ∀ len code first, Local (decodeFrom lens fuel len code first) := by
  induction fuel with
  | zero => intro _ _ _; exact .none
  | succ n ih =>
    intro len code first
    refine next_local.bind (g := fun b s => match (symsOfLen lens (len + 1))[2 * code + b.toNat - first]? with
      | some sym => some (sym, s)
      | none => decodeFrom lens n (len + 1) (2 * code + b.toNat) (2 * (first + (symsOfLen lens (len + 1)).length)) s) fun b => ?_
    cases (symsOfLen lens (len + 1))[2 * code + b.toNat - first]? with
    | some sym => exact .pure sym
    | none => exact ih _ _ _

theorem decodeSym_local (lens : List Nat) : Local (decodeSym lens) := decodeFrom_local lens 15 0 0 0

theorem readSym_local (ll d : List Nat) : Local (readSym ll d) := by
  refine (decodeSym_local ll).bind (g := fun v s => if v < 256 then some (some (Sym.lit (UInt8.ofNat v)), s)
    else if v = 256 then some (none, s)
    else lengthBase[v - 257]?.bind fun base => lengthExtra[v - 257]?.bind fun extra => (s.nat extra).bind fun x =>
      (decodeSym d x.2).bind fun y => distBase[y.1]?.bind fun dbase => distExtra[y.1]?.bind fun dextra => (y.2.nat dextra).bind fun z =>
        some (some (Sym.copy (base + x.1) (dbase + z.1)), z.2)) fun v => ?_
  refine .ite (.pure _) (.ite (.pure _) (.bindOpt _ fun base => .bindOpt _ fun extra => ?_))
  exact (nat_local extra).bind fun e => (decodeSym_local d).bind fun dv => .bindOpt distBase[dv]? fun dbase => .bindOpt distExtra[dv]? fun dextra =>
    (nat_local dextra).bind fun de => .pure (some (Sym.copy (base + e) (dbase + de)))

theorem readSyms_local (ll d : List Nat) : Local (readSyms ll d) := by
  intro s a s' h
  refine readSyms.partial_correctness ll d (motive := fun s r => s.Reads r.2 ∧ ∀ more, readSyms ll d (s.ext more) = some (r.1, r.2.ext more)) ?_ s (a, s') h
  intro f ih s r hr
  obtain ⟨⟨x, t⟩, h1, h2⟩ := Option.bind_eq_some_iff.1 hr
  obtain ⟨i1, i2⟩ := readSym_local ll d s x t h1
  cases x with
  | none =>
    cases h2
    refine ⟨i1, fun more => ?_⟩
    rw [readSyms, i2 more]
    rfl
  | some x =>
    obtain ⟨⟨l, u⟩, h3, h4⟩ := Option.bind_eq_some_iff.1 h2
    cases h4
    obtain ⟨j1, j2⟩ := ih t (l, u) h3
    refine ⟨i1.trans j1, fun more => ?_⟩
    rw [readSyms, i2 more]
    show (readSyms ll d (t.ext more)).bind _ = _
    rw [j2 more]
    rfl

theorem readCl_local (n : Nat) : Local (readCl n) := by
  induction n with
  | zero => exact .pure []
  | succ n ih => exact (nat_local 3).bind fun b => ih.bind fun v => .pure (b :: v)

theorem readLens_local (cl : List Nat) (total : Nat) (acc : List Nat) : Local (readLens cl total acc) := by
  intro s a s' h
  refine readLens.partial_correctness cl total (motive := fun acc s r => s.Reads r.2 ∧ ∀ more, readLens cl total acc (s.ext more) = some (r.1, r.2.ext more)) ?_ acc s (a, s') h
  intro f ih acc s r hr
  have key : ∀ more, readLens cl total acc (s.ext more) = _ := fun more => by rw [readLens]
  by_cases c1 : acc.length = total
  · rw [if_pos c1] at hr
    cases hr
    refine ⟨.refl s, fun more => ?_⟩
    rw [readLens, if_pos c1]
  rw [if_neg c1] at hr
  by_cases c2 : acc.length > total
  · rw [if_pos c2] at hr
    cases hr
  rw [if_neg c2] at hr
  obtain ⟨⟨v, t⟩, h1, h2⟩ := Option.bind_eq_some_iff.1 hr
  obtain ⟨i1, i2⟩ := decodeSym_local cl s v t h1
  dsimp only at h2
  split at h2
  · rename_i c3
    obtain ⟨j1, j2⟩ := ih _ t r h2
    refine ⟨i1.trans j1, fun more => ?_⟩
    rw [readLens, if_neg c1, if_neg c2, i2 more]
    show (if v < 16 then _ else _) = _
    rw [if_pos c3]
    exact j2 more
  · rename_i c3
    split at h2
    · rename_i c4
      obtain ⟨prev, g1, h3⟩ := Option.bind_eq_some_iff.1 h2
      obtain ⟨⟨q, u⟩, g2, h4⟩ := Option.bind_eq_some_iff.1 h3
      obtain ⟨k1, k2⟩ := nat_local 2 t q u g2
      obtain ⟨j1, j2⟩ := ih _ u r h4
      refine ⟨(i1.trans k1).trans j1, fun more => ?_⟩
      rw [readLens, if_neg c1, if_neg c2, i2 more]
      show (if v < 16 then _ else _) = _
      rw [if_neg c3, if_pos c4, g1]
      show (Bits.nat 2 (t.ext more)).bind _ = _
      rw [k2 more]
      exact j2 more
    · rename_i c4
      split at h2
      · rename_i c5
        obtain ⟨⟨q, u⟩, g2, h4⟩ := Option.bind_eq_some_iff.1 h2
        obtain ⟨k1, k2⟩ := nat_local 3 t q u g2
        obtain ⟨j1, j2⟩ := ih _ u r h4
        refine ⟨(i1.trans k1).trans j1, fun more => ?_⟩
        rw [readLens, if_neg c1, if_neg c2, i2 more]
        show (if v < 16 then _ else _) = _
        rw [if_neg c3, if_neg c4, if_pos c5]
        show (Bits.nat 3 (t.ext more)).bind _ = _
        rw [k2 more]
        exact j2 more
      · rename_i c5
        obtain ⟨⟨q, u⟩, g2, h4⟩ := Option.bind_eq_some_iff.1 h2
        obtain ⟨k1, k2⟩ := nat_local 7 t q u g2
        obtain ⟨j1, j2⟩ := ih _ u r h4
        refine ⟨(i1.trans k1).trans j1, fun more => ?_⟩
        rw [readLens, if_neg c1, if_neg c2, i2 more]
        show (if v < 16 then _ else _) = _
        rw [if_neg c3, if_neg c4, if_neg c5]
        show (Bits.nat 7 (t.ext more)).bind _ = _
        rw [k2 more]
        exact j2 more

theorem Local.guard {α : Type} (p : Prop) [Decidable p] {g : Bits → Option (α × Bits)} (hg : Local g) :
    Local fun s => if p then Option.none else g s := .ite .none hg

theorem readDynHeader_local : Local readDynHeader := by
  have h : Local fun s => (Bits.nat 5 s).bind fun x1 => (Bits.nat 5 x1.2).bind fun x2 => (Bits.nat 4 x2.2).bind fun x3 =>
      if x1.1 + 257 > 286 ∨ x2.1 + 1 > 30 then none else (readCl (x3.1 + 4) x3.2).bind fun x4 =>
        if ¬ completeCode 7 (clLens x4.1) then none else (readLens (clLens x4.1) (x1.1 + 257 + (x2.1 + 1)) [] x4.2).bind fun x5 =>
          if ¬ completeCode 15 (x5.1.take (x1.1 + 257)) ∨ ¬ completeCode 15 (x5.1.drop (x1.1 + 257)) ∨ (x5.1.take (x1.1 + 257))[256]? = some 0 then none
          else some (DynHeader.mk (clLens x4.1) (x5.1.take (x1.1 + 257)) (x5.1.drop (x1.1 + 257)), x5.2) :=
    (nat_local 5).bind fun hlit => (nat_local 5).bind fun hdist => (nat_local 4).bind fun hclen =>
      .guard (hlit + 257 > 286 ∨ hdist + 1 > 30) <| (readCl_local (hclen + 4)).bind fun vals =>
      .guard (¬ completeCode 7 (clLens vals)) <| (readLens_local (clLens vals) (hlit + 257 + (hdist + 1)) []).bind fun lens =>
      .guard (¬ completeCode 15 (lens.take (hlit + 257)) ∨ ¬ completeCode 15 (lens.drop (hlit + 257)) ∨ (lens.take (hlit + 257))[256]? = some 0) <|
      .pure (DynHeader.mk (clLens vals) (lens.take (hlit + 257)) (lens.drop (hlit + 257)))
  exact h

theorem readBlock_local : Local readBlock := by
  have h : Local fun s => s.next.bind fun x1 => (Bits.nat 2 x1.2).bind fun x2 =>
      if x2.1 = 0 then (x2.2.align.map fun s => ((), s)).bind fun x3 => (Bits.nat 16 x3.2).bind fun x4 => (Bits.nat 16 x4.2).bind fun x5 =>
        if x4.1 + x5.1 ≠ 65535 then none else (Bits.bytes x4.1 x5.2).bind fun x6 => some (Block.mk x1.1 (.stored x6.1), x6.2)
      else if x2.1 = 1 then (readSyms fixedLL fixedD x2.2).bind fun x3 => some (Block.mk x1.1 (.fixed x3.1), x3.2)
      else if x2.1 = 2 then (readDynHeader x2.2).bind fun x3 => (readSyms x3.1.ll x3.1.d x3.2).bind fun x4 => some (Block.mk x1.1 (.dynamic x3.1 x4.1), x4.2)
      else none :=
    next_local.bind fun final => (nat_local 2).bind fun btype =>
      .ite (p := btype = 0) (align_local.bind fun _ => (nat_local 16).bind fun len => (nat_local 16).bind fun nlen =>
        .guard (len + nlen ≠ 65535) <| (bytes_local len).bind fun data => .pure (Block.mk final (.stored data))) <|
      .ite (p := btype = 1) ((readSyms_local fixedLL fixedD).bind fun syms => .pure (Block.mk final (.fixed syms))) <|
      .ite (p := btype = 2) (readDynHeader_local.bind fun h => (readSyms_local h.ll h.d).bind fun syms => .pure (Block.mk final (.dynamic h syms))) .none
  simp only [Option.bind_map] at h
  exact h

theorem readBlocks_local : Local readBlocks := by
  intro s a s' h
  refine readBlocks.partial_correctness (motive := fun s r => s.Reads r.2 ∧ ∀ more, readBlocks (s.ext more) = some (r.1, r.2.ext more)) ?_ s (a, s') h
  intro f ih s r hr
  obtain ⟨⟨b, t⟩, h1, h2⟩ := Option.bind_eq_some_iff.1 hr
  obtain ⟨i1, i2⟩ := readBlock_local s b t h1
  dsimp only at h2
  by_cases c : b.final = true
  · rw [if_pos c] at h2
    cases h2
    refine ⟨i1, fun more => ?_⟩
    rw [readBlocks, i2 more]
    show (if b.final = true then _ else _) = _
    rw [if_pos c]
    rfl
  · rw [if_neg c] at h2
    obtain ⟨⟨l, u⟩, h3, h4⟩ := Option.bind_eq_some_iff.1 h2
    cases h4
    obtain ⟨j1, j2⟩ := ih t (l, u) h3
    refine ⟨i1.trans j1, fun more => ?_⟩
    rw [readBlocks, i2 more]
    show (if b.final = true then _ else _) = _
    rw [if_neg c]
    show (readBlocks (t.ext more)).bind _ = _
    rw [j2 more]
    rfl

theorem bytesBits_append (a b : List UInt8) : bytesBits (a ++ b) = bytesBits a ++ bytesBits b := List.flatMap_append

theorem length_bytesBits (a : List UInt8) : (bytesBits a).length = 8 * a.length := by
  induction a with
  | nil => rfl
  | cons x l ih =>
    show (byteBits x ++ bytesBits l).length = _
    rw [List.length_append, ih]
    simp [byteBits]
    omega

/-- More bytes after a DEFLATE stream are left alone. -/
theorem inflatePrefix_append {a data rest : List UInt8} (h : inflatePrefix a = some (data, rest)) (more : List UInt8) :
    inflatePrefix (a ++ more) = some (data, rest ++ more) := by
  simp only [inflatePrefix, parse, Option.bind_eq_bind, Option.bind_eq_some_iff, Prod.exists, Option.pure_def, Option.some.injEq, Prod.mk.injEq] at h
  obtain ⟨blocks, rest', ⟨b, s, h1, rfl, rfl⟩, out, h2, rfl, rfl⟩ := h
  obtain ⟨⟨used, i1, i2⟩, i3⟩ := readBlocks_local _ _ _ h1
  have hl := congrArg List.length i1
  rw [length_bytesBits, List.length_append] at hl
  have i4 := i3 (bytesBits more)
  have e : (⟨bytesBits a, 0⟩ : Bits).ext (bytesBits more) = ⟨bytesBits (a ++ more), 0⟩ := by rw [bytesBits_append]; rfl
  rw [e] at i4
  simp only [inflatePrefix, parse, i4, Option.bind_eq_bind, Option.bind_some, Option.pure_def, h2]
  rw [List.drop_append_of_le_length]
  · rfl
  · show (s.pos + 7) / 8 ≤ _
    dsimp only at i2
    omega

end Rfc
