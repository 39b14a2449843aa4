import Verif.Model.Basic
/-! # Generic lemmas about the rendering of Rust control flow -/

namespace Zopfli

/-- `x` returns normally (no panic, no divergence), and the result satisfies `P`. -/
def Ret {α : Type} (x : Option α) (P : α → Prop) : Prop := ∃ a, x = some a ∧ P a

theorem Ret.some {α : Type} {a : α} {P : α → Prop} (h : P a) : Ret (some a) P := ⟨a, rfl, h⟩
theorem Ret.pure {α : Type} {a : α} {P : α → Prop} (h : P a) : Ret (pure a) P := ⟨a, rfl, h⟩
theorem Ret.of_eq {α : Type} {x : Option α} {a : α} {P : α → Prop} (e : x = Option.some a) (h : P a) : Ret x P :=
  ⟨a, e, h⟩
theorem Ret.bind {α β : Type} {x : Option α} {f : α → Option β} {P : β → Prop}
    (h : Ret x fun a => Ret (f a) P) : Ret (x >>= f) P := by
  obtain ⟨a, rfl, b, hb, hP⟩ := h
  exact ⟨b, hb, hP⟩
theorem Ret.mono {α : Type} {x : Option α} {P Q : α → Prop} (h : Ret x P) (hPQ : ∀ a, P a → Q a) : Ret x Q := by
  obtain ⟨a, e, hP⟩ := h
  exact ⟨a, e, hPQ a hP⟩
theorem Ret.bind' {α β : Type} {x : Option α} {f : α → Option β} {Q : α → Prop} {P : β → Prop}
    (h : Ret x Q) (hf : ∀ a, Q a → Ret (f a) P) : Ret (x >>= f) P :=
  Ret.bind (h.mono hf)
theorem Ret.and_eq {α : Type} {x : Option α} {P : α → Prop} (h : Ret x P) : Ret x fun a => P a ∧ x = Option.some a := by
  obtain ⟨a, e, hP⟩ := h
  exact ⟨a, e, hP, e⟩
theorem Ret.elim {α : Type} {x : Option α} {P : α → Prop} (h : Ret x P) {a : α} (e : x = Option.some a) : P a := by
  obtain ⟨b, e', hP⟩ := h
  cases e.symm.trans e'
  exact hP

theorem some_bind {α β : Type} (a : α) (f : α → Option β) : (Option.some a >>= f) = f a := rfl

theorem Ret.getElem? {α : Type} {a : Array α} {i : Nat} {P : α → Prop} (h : i < a.size) (hP : P a[i]) : Ret a[i]? P :=
  ⟨a[i], Array.getElem?_eq_getElem h, hP⟩

theorem aset_eq {α : Type} {a : Array α} {i : Nat} (h : i < a.size) (v : α) : aset a i v = some (a.set i v h) := by
  simp [aset, h]
theorem amod_eq {α : Type} {a : Array α} {i : Nat} (h : i < a.size) (f : α → α) : amod a i f = some (a.modify i f) := by
  simp [amod, h]
theorem Ret.aset {α : Type} {a : Array α} {i : Nat} {v : α} {P : Array α → Prop} (h : i < a.size)
    (hP : P (a.set i v h)) : Ret (aset a i v) P := ⟨_, aset_eq h v, hP⟩
theorem Ret.amod {α : Type} {a : Array α} {i : Nat} {f : α → α} {P : Array α → Prop} (h : i < a.size)
    (hP : P (a.modify i f)) : Ret (amod a i f) P := ⟨_, amod_eq h f, hP⟩
theorem slice_eq {α : Type} {a : Array α} {s e : Nat} (h : s ≤ e) (h' : e ≤ a.size) :
    slice a s e = some (a.extract s e) := by
  simp [slice, h, h']
theorem Ret.slice {α : Type} {a : Array α} {s e : Nat} {P : Array α → Prop} (h : s ≤ e) (h' : e ≤ a.size)
    (hP : P (a.extract s e)) : Ret (slice a s e) P := ⟨_, slice_eq h h', hP⟩
theorem usub_eq {a b : Nat} (h : b ≤ a) : usub a b = some (a - b) := by simp [usub, h]
theorem Ret.usub {a b : Nat} {P : Nat → Prop} (h : b ≤ a) (hP : P (a - b)) : Ret (usub a b) P := ⟨_, usub_eq h, hP⟩
theorem guardR_eq {c : Bool} (h : c = true) : guardR c = some () := by simp [guardR, h]

theorem forN_spec {σ : Type} {f : Nat → σ → Option σ} (I : Nat → σ → Prop) :
    ∀ (n a : Nat) (s : σ), I a s → (∀ i s, a ≤ i → i < a + n → I i s → Ret (f i s) (I (i + 1))) →
      Ret (forN f n a s) (I (a + n))
  | 0, a, s, h0, _ => ⟨s, rfl, h0⟩
  | n + 1, a, s, h0, hs => by
    unfold forN
    refine Ret.bind' (hs a s (Nat.le_refl _) (by omega) h0) fun s' h' => ?_
    have := forN_spec I n (a + 1) s' h' fun i s hi hi' => hs i s (by omega) (by omega)
    rwa [show a + 1 + n = a + (n + 1) by omega] at this

/-- A `for` loop: an invariant that holds at the start and is preserved by every iteration holds at the end. -/
theorem forRange_spec {σ : Type} {f : Nat → σ → Option σ} (I : Nat → σ → Prop) {a b : Nat} {s : σ} (hab : a ≤ b)
    (h0 : I a s) (hs : ∀ i s, a ≤ i → i < b → I i s → Ret (f i s) (I (i + 1))) :
    Ret (forRange a b s f) (I b) := by
  have := forN_spec I (b - a) a s h0 fun i s hi hi' => hs i s hi (by omega)
  rwa [show a + (b - a) = b by omega] at this

theorem forRange_empty {σ : Type} {f : Nat → σ → Option σ} {a b : Nat} {s : σ} (hab : b ≤ a) :
    forRange a b s f = some s := by
  simp [forRange, Nat.sub_eq_zero_of_le hab, forN]

theorem forRange_step {σ : Type} {f : Nat → σ → Option σ} {a b : Nat} {s : σ} (hab : a < b) :
    forRange a b s f = f a s >>= fun s => forRange (a + 1) b s f := by
  unfold forRange
  rw [show b - a = (b - (a + 1)) + 1 by omega]
  rfl

theorem forN_add {σ : Type} {f : Nat → σ → Option σ} : ∀ (n m a : Nat) (s : σ),
    forN f (n + m) a s = forN f n a s >>= fun s => forN f m (a + n) s
  | 0, m, a, s => by simp [forN]
  | n + 1, m, a, s => by
    rw [show n + 1 + m = (n + m) + 1 by omega]
    simp only [forN]
    cases f a s with
    | none => rfl
    | some s' =>
      show forN f (n + m) (a + 1) s' = _
      rw [forN_add n m (a + 1) s', show a + 1 + n = a + (n + 1) by omega]
      rfl

theorem forRange_split {σ : Type} {f : Nat → σ → Option σ} {a b c : Nat} {s : σ} (hab : a ≤ b) (hbc : b ≤ c) :
    forRange a c s f = forRange a b s f >>= fun s => forRange b c s f := by
  unfold forRange
  rw [show c - a = (b - a) + (c - b) by omega, forN_add, show a + (b - a) = b by omega]

theorem forRange_snoc {σ : Type} {f : Nat → σ → Option σ} {a b : Nat} {s : σ} (hab : a ≤ b) :
    forRange a (b + 1) s f = forRange a b s f >>= fun s => f b s := by
  rw [forRange_split hab (Nat.le_succ b)]
  congr 1
  funext s
  rw [forRange_step (Nat.lt_succ_self b)]
  cases f b s with
  | none => rfl
  | some s' => exact forRange_empty (Nat.le_refl _)

theorem forRange_congr {σ : Type} {f g : Nat → σ → Option σ} {a b : Nat} {s : σ}
    (h : ∀ i s, a ≤ i → i < b → f i s = g i s) : forRange a b s f = forRange a b s g := by
  unfold forRange
  generalize hn : b - a = n
  induction n generalizing a s with
  | zero => rfl
  | succ n ih =>
    simp only [forN]
    rw [h a s (Nat.le_refl _) (by omega)]
    cases g a s with
    | none => rfl
    | some s' => exact ih (fun i s hi hi' => h i s (by omega) hi') (by omega)

/-- A loop: if the invariant is preserved and the measure decreases, the loop ends with a result satisfying `Q`. -/
theorem loopM_spec {σ ρ : Type} {body : σ → Option (σ ⊕ ρ)} (I : σ → Prop) (μ : σ → Nat) (Q : ρ → Prop)
    (hs : ∀ s, I s → Ret (body s) fun r => match r with | .inl s' => I s' ∧ μ s' < μ s | .inr r => Q r)
    (s : σ) (h0 : I s) : Ret (loopM body s) Q := by
  generalize hn : μ s = n
  induction n using Nat.strongRecOn generalizing s with
  | ind n ih =>
    subst hn
    rw [loopM.eq_1]
    obtain ⟨r, e, hr⟩ := hs s h0
    rw [e]
    cases r with
    | inl s' => exact ih _ hr.2 s' hr.1 rfl
    | inr r => exact ⟨r, rfl, hr⟩

end Zopfli
