import Verif.Model.Work
import Verif.Proofs.Basic
/-!
# The functions that count steps compute the same; bounds on the steps
-/

namespace Zopfli
namespace Work

/-- `w` computes what `o` computes, if `o` returns; result and steps satisfy `P`. -/
structure Cost {α : Type} (w : Work α) (o : Option α) (P : α → Nat → Prop) : Prop where
  get : ∀ a, o = some a → ∃ t, w = some (a, t) ∧ P a t

variable {α β σ ρ : Type}

theorem Cost.none {w : Work α} {P : α → Nat → Prop} : Cost w none P := ⟨fun _ h => nomatch h⟩

theorem Cost.noneBind {w : Work α} {g : β → Option α} {P : α → Nat → Prop} : Cost w (Option.none >>= g) P := ⟨fun _ h => nomatch h⟩

theorem Cost.mono {w : Work α} {o : Option α} {P Q : α → Nat → Prop} (h : Cost w o P) (hPQ : ∀ a t, o = some a → P a t → Q a t) :
    Cost w o Q := ⟨fun a ha => let ⟨t, e, p⟩ := h.get a ha; ⟨t, e, hPQ a t ha p⟩⟩

theorem Cost.pure {a : α} {P : α → Nat → Prop} (h : P a 0) : Cost (Pure.pure a : Work α) (some a) P := by
  refine ⟨?_⟩
  rintro _ ⟨⟩
  exact ⟨0, rfl, h⟩

theorem Cost.lift {o : Option α} {P : α → Nat → Prop} (h : ∀ a, o = some a → P a 0) : Cost (Work.lift o) o P := by
  refine ⟨?_⟩
  rintro a rfl
  exact ⟨0, rfl, h a rfl⟩

theorem Cost.bind {w : Work α} {o : Option α} {f : α → Work β} {g : α → Option β} {P : α → Nat → Prop} {Q : β → Nat → Prop}
    (h : Cost w o P) (hf : ∀ a t, o = some a → P a t → Cost (f a) (g a) fun b t' => Q b (t + t')) :
    Cost (w >>= f) (o >>= g) Q := by
  refine ⟨fun b hb => ?_⟩
  rw [Option.bind_eq_bind, Option.bind_eq_some_iff] at hb
  obtain ⟨a, ha, hg⟩ := hb
  obtain ⟨t, e, p⟩ := h.get a ha
  obtain ⟨t', e', q⟩ := (hf a t ha p).get b hg
  subst e
  refine ⟨t + t', ?_, q⟩
  show andThen (some (a, t)) f = _
  simp only [andThen, e']
  rfl

theorem Cost.liftBind {o : Option α} {f : α → Work β} {g : α → Option β} {Q : β → Nat → Prop}
    (hf : ∀ a, o = some a → Cost (f a) (g a) Q) : Cost (Work.lift o >>= f) (o >>= g) Q :=
  Cost.bind (P := fun _ t => t = 0) (Cost.lift fun _ _ => rfl) fun a t ha ht => by
    subst ht
    exact (hf a ha).mono fun b t' _ q => by rwa [Nat.zero_add]

theorem Cost.tick {n : Nat} {w : Unit → Work β} {o : Option β} {Q : β → Nat → Prop} (h : Cost (w ()) o fun b t => Q b (n + t)) :
    Cost (Work.tick n >>= w) o Q := by
  refine ⟨fun b hb => ?_⟩
  obtain ⟨t, e, q⟩ := h.get b hb
  refine ⟨n + t, ?_, q⟩
  show andThen (some ((), n)) w = _
  simp only [andThen, e]
  rfl

theorem Cost.bindPure {w : Work α} {a : α} {f : α → Work β} {o : Option β} {P : α → Nat → Prop} {Q : β → Nat → Prop}
    (h : Cost w (some a) P) (hf : ∀ t, P a t → Cost (f a) o fun b t' => Q b (t + t')) :
    Cost (w >>= f) o Q :=
  Cost.bind (g := fun _ => o) h fun a' t e p => by cases e; exact hf t p

theorem Cost.ite {c : Prop} [Decidable c] {w w' : Work α} {o o' : Option α} {Q : α → Nat → Prop} (h : c → Cost w o Q) (h' : ¬ c → Cost w' o' Q) :
    Cost (if c then w else w') (if c then o else o') Q := by
  split
  · exact h ‹_›
  · exact h' ‹_›

/-- A `for` loop: every round pays for itself out of the potential `Φ`. -/
theorem Cost.forN {fW : Nat → σ → Work σ} {f : Nat → σ → Option σ} (N : Nat) (Inv : Nat → σ → Prop) (Φ : Nat → σ → Nat)
    (hs : ∀ i s, i < N → Inv i s → Cost (fW i s) (f i s) fun s' t => Inv (i + 1) s' ∧ t + 1 + Φ (i + 1) s' ≤ Φ i s) :
    ∀ n i s, i + n ≤ N → Inv i s → Cost (Work.forN fW n i s) (Zopfli.forN f n i s) fun s' t => Inv (i + n) s' ∧ t + Φ (i + n) s' ≤ Φ i s
  | 0, i, s, _, h => Cost.pure ⟨h, by rw [Nat.add_zero, Nat.zero_add]; exact Nat.le_refl _⟩
  | n + 1, i, s, hN, h => by
    refine Cost.tick (Cost.bind (hs i s (by omega) h) fun a t _ p => ?_)
    refine (Cost.forN N Inv Φ hs n (i + 1) a (by omega) p.1).mono fun b t' _ q => ?_
    rw [show i + (n + 1) = i + 1 + n by omega]
    exact ⟨q.1, by omega⟩

theorem Cost.forRange {fW : Nat → σ → Work σ} {f : Nat → σ → Option σ} {a b : Nat} {s : σ} (Inv : Nat → σ → Prop) (Φ : Nat → σ → Nat)
    (hs : ∀ i s, i < a + (b - a) → Inv i s → Cost (fW i s) (f i s) fun s' t => Inv (i + 1) s' ∧ t + 1 + Φ (i + 1) s' ≤ Φ i s)
    (h : Inv a s) :
    Cost (Work.forRange a b s fW) (Zopfli.forRange a b s f) fun s' t => Inv (a + (b - a)) s' ∧ t + Φ (a + (b - a)) s' ≤ Φ a s :=
  Cost.forN _ Inv Φ hs _ _ _ (Nat.le_refl _) h

/-- A loop: every round pays for itself out of the potential `Φ`. -/
theorem Cost.loop {bW : σ → Work (σ ⊕ ρ)} {b : σ → Option (σ ⊕ ρ)} (Inv : σ → Prop) (Φ : σ → Nat) (Q : ρ → Prop)
    (hs : ∀ s, Inv s → Cost (bW s) (b s) fun x t =>
      (∀ s', x = .inl s' → Inv s' ∧ t + 1 + Φ s' ≤ Φ s) ∧ (∀ r, x = .inr r → Q r ∧ t + 1 ≤ Φ s)) (s : σ) (h0 : Inv s) :
    Cost (Work.loop bW s) (loopM b s) fun r t => Q r ∧ t ≤ Φ s := by
  generalize hn : Φ s = n
  induction n using Nat.strongRecOn generalizing s with
  | ind n ih =>
    subst hn
    refine ⟨fun r hr => ?_⟩
    rw [loopM.eq_1] at hr
    have hloop : Work.loop bW s = _ := loopO.eq_1 (ρ := ρ) bW s
    rw [hloop]
    rw [Option.bind_eq_bind, Option.bind_eq_some_iff] at hr
    obtain ⟨x, hx, hr⟩ := hr
    obtain ⟨t, e, hl, hrr⟩ := (hs s h0).get x hx
    rw [e]
    cases x with
    | inl s' =>
      obtain ⟨i, p⟩ := hl s' rfl
      obtain ⟨t', e', q, p'⟩ := (ih (Φ s') (by omega) s' i rfl).get r hr
      unfold Work.loop at e'
      refine ⟨t + 1 + t', ?_, q, by omega⟩
      show (do let (r, t') ← loopO bW s'; some (r, t + 1 + t')) = _
      rw [e']
      rfl
    | inr r' =>
      cases hr
      exact ⟨t + 1, rfl, hrr _ rfl⟩

/-! ## hash.rs -/

theorem extendSame_cost (array : Array UInt8) (c : UInt8) : ∀ (amount j : Nat),
    Cost (extendSame array c amount j) (some (Zopfli.extendSame array c amount j)) fun a t =>
      amount ≤ a ∧ t + amount = a ∧ (j ≤ array.size → a + j ≤ array.size + amount) := by
  intro amount j
  induction hn : array.size - j generalizing amount j with
  | zero =>
    rw [extendSame, Zopfli.extendSame, dif_neg (by omega), dif_neg (by omega)]
    exact Cost.pure ⟨by omega, by omega, by omega⟩
  | succ n ih =>
    rw [extendSame, Zopfli.extendSame]
    have hj : j < array.size := by omega
    rw [dif_pos hj, dif_pos hj]
    by_cases hc : c = array[j] ∧ amount < 65535
    · rw [if_pos hc, if_pos hc]
      refine Cost.tick ((ih (amount + 1) (j + 1) (by omega)).mono fun a t _ p => ?_)
      obtain ⟨p1, p2, p3⟩ := p
      exact ⟨by omega, by omega, fun _ => by have := p3 (by omega); omega⟩
    · rw [if_neg hc, if_neg hc]
      exact Cost.pure ⟨by omega, by omega, fun _ => by omega⟩

/-- How far the run of equal bytes at the position before `pos` reaches. -/
def runAt (h : ZopfliHash) (pos : Nat) : Nat := (h.same[(pos + WINDOW_SIZE - 1) % WINDOW_SIZE]?).getD 0

/-- The next position to enter is `pos`, and the run before it ends within the array. -/
def HashAt (size pos : Nat) (h : ZopfliHash) : Prop := runAt h pos + pos ≤ size

/-- What is left to compare. -/
def hashPot (size pos : Nat) (h : ZopfliHash) : Nat := size - pos - runAt h pos

theorem update_cost (h : ZopfliHash) (array : Array UInt8) (pos : Nat) (hh : HashAt array.size pos h) :
    Cost (update h array pos) (h.update array pos) fun h' t =>
      pos < array.size ∧ HashAt array.size (pos + 1) h' ∧ t + hashPot array.size (pos + 1) h' ≤ hashPot array.size pos h + 1 := by
  obtain ⟨⟨head1, pah1, val1⟩, ⟨head2, pah2, v2⟩, same⟩ := h
  unfold update ZopfliHash.update
  refine Cost.tick (Cost.liftBind fun h1 _ => Cost.liftBind fun s hs => Cost.liftBind fun c hc => ?_)
  refine Cost.bindPure (extendSame_cost array c _ _) fun t p => ?_
  generalize Zopfli.extendSame array c (if s > 1 then s - 1 else 0) (pos + (if s > 1 then s - 1 else 0) + 1) = amount at p ⊢
  refine Cost.liftBind fun _ _ => Cost.liftBind fun same' hsame => Cost.liftBind fun h2 _ => Cost.pure ?_
  have hpos : pos < array.size := by
    rw [Array.getElem?_eq_some_iff] at hc
    exact hc.1
  have hrun : runAt ⟨⟨head1, pah1, val1⟩, ⟨head2, pah2, v2⟩, same⟩ pos = s := by
    simp only [runAt, hs, Option.getD_some]
  have hrun' : runAt ⟨h1, h2, same'⟩ (pos + 1) = amount := by
    unfold aset at hsame
    split at hsame
    · cases hsame
      simp only [runAt]
      rw [show (pos + 1 + WINDOW_SIZE - 1) % WINDOW_SIZE = pos % WINDOW_SIZE by simp only [WINDOW_SIZE]; omega]
      simp
    · cases hsame
  unfold HashAt at hh ⊢
  unfold hashPot
  rw [hrun] at hh ⊢
  rw [hrun']
  obtain ⟨p1, p2, p3⟩ := p
  have := p3 (by split <;> omega)
  refine ⟨hpos, by omega, ?_⟩
  split at p1 <;> split at p2 <;> omega

end Work
end Zopfli
