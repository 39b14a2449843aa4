import Verif.Props.Codes
import Mathlib.InformationTheory.Coding.KraftMcMillan
/-!
# C10 for arbitrary codes

`C10_optimal_lengths` compares lengths that satisfy Kraft's inequality.  Here the competitor is any binary code that can be
decoded at all; that its lengths satisfy the inequality is McMillan's theorem (Mathlib).
-/

namespace Zopfli
open Rfc Katajainen

/-- Different messages over the given symbols are encoded differently. -/
def Unambiguous (code : Nat → List Bool) (used : Nat → Prop) : Prop :=
  ∀ m m' : List Nat, (∀ s ∈ m, used s) → (∀ s ∈ m', used s) → m.flatMap code = m'.flatMap code → m = m'

/-- How often each of the symbols `0 … n - 1` occurs in a message. -/
def histogram (n : Nat) (msg : List Nat) : Array Nat := (Array.range n).map msg.count

theorem Unambiguous.inj {code : Nat → List Bool} {used : Nat → Prop} (h : Unambiguous code used) {a b : Nat} (ha : used a) (hb : used b)
    (e : code a = code b) : a = b := by
  have := h [a] [b] (by simpa) (by simpa) (by simpa)
  simpa using this

theorem Unambiguous.ne_nil {code : Nat → List Bool} {used : Nat → Prop} (h : Unambiguous code used) {a : Nat} (ha : used a) : code a ≠ [] := by
  intro e
  have := h [a] [] (by simpa) (by simp) (by simp [e])
  simp at this

theorem Unambiguous.kraft {code : Nat → List Bool} {used : Nat → Prop} (h : Unambiguous code used) (S : Finset Nat) (hS : ∀ s ∈ S, used s) :
    ∑ s ∈ S, (1 / 2 : ℚ) ^ (code s).length ≤ 1 := by
  have hi : Set.InjOn code (S : Set Nat) := fun a ha b hb e => h.inj (hS a ha) (hS b hb) e
  have hud : InformationTheory.UniquelyDecodable ((S.image code : Finset (List Bool)) : Set (List Bool)) := by
    intro L1 L2 h1 h2 e
    have key : ∀ L : List (List Bool), (∀ w ∈ L, w ∈ ((S.image code : Finset (List Bool)) : Set (List Bool))) →
        ∃ m : List Nat, (∀ s ∈ m, used s) ∧ m.map code = L := by
      intro L
      induction L with
      | nil => exact fun _ => ⟨[], by simp, rfl⟩
      | cons w L ih =>
        intro hL
        obtain ⟨m, g1, g2⟩ := ih fun x hx => hL x (by simp [hx])
        have := hL w (by simp)
        simp only [Finset.coe_image, Set.mem_image, SetLike.mem_coe] at this
        obtain ⟨s, hs, rfl⟩ := this
        refine ⟨s :: m, ?_, by simp [g2]⟩
        intro x hx
        rcases List.mem_cons.mp hx with rfl | hx
        · exact hS _ hs
        · exact g1 x hx
    obtain ⟨m1, a1, rfl⟩ := key L1 h1
    obtain ⟨m2, b1, rfl⟩ := key L2 h2
    have := h m1 m2 a1 b1 (by simpa [List.flatMap] using e)
    rw [this]
  have := InformationTheory.kraft_mcmillan_inequality hud
  rw [Finset.sum_image hi] at this
  have h2 : ((∑ s ∈ S, (1 / 2 : ℚ) ^ (code s).length : ℚ) : ℝ) ≤ (1 : ℝ) := by
    push_cast
    simpa using this
  exact_mod_cast h2

theorem sum_count (f : Nat → Nat) (n : Nat) (msg : List Nat) (h : ∀ s ∈ msg, s < n) :
    (msg.map f).sum = ∑ s ∈ Finset.range n, msg.count s * f s := by
  induction msg with
  | nil => simp
  | cons x l ih =>
    rw [List.map_cons, List.sum_cons, ih fun s hs => h s (by simp [hs])]
    have hx : x ∈ Finset.range n := Finset.mem_range.mpr (h x (by simp))
    rw [← Finset.sum_erase_add _ _ hx, ← Finset.sum_erase_add (Finset.range n) _ hx]
    have : ∑ s ∈ (Finset.range n).erase x, (x :: l).count s * f s = ∑ s ∈ (Finset.range n).erase x, l.count s * f s := by
      refine Finset.sum_congr rfl fun s hs => ?_
      have : ¬ x = s := fun e => by simp [e] at hs
      rw [List.count_cons]
      simp [this]
    rw [this, List.count_cons]
    simp
    ring

theorem histogram_get {n : Nat} {msg : List Nat} {i : Nat} (h : i < n) : (histogram n msg).getD i 0 = msg.count i := by
  simp [histogram, h]

/-- **C10** The code is optimal: for every message over at most 288 symbols, no binary code that can be decoded at all and
whose codewords have at most `maxBits` bits encodes the message in fewer bits than a code with the computed lengths. -/
theorem C10_optimal_code (n maxBits : Nat) (hn : n ≤ 288) (h1 : 1 ≤ maxBits) (h15 : maxBits ≤ 15) (msg : List Nat) (hmsg : ∀ s ∈ msg, s < n)
    (hcap : msg.toFinset.card ≤ 2 ^ maxBits) :
    ∃ lens, lengthLimitedCodeLengths (histogram n msg) maxBits = some lens ∧ lens.size = n ∧
      ∀ code : Nat → List Bool, (∀ s ∈ msg, (code s).length ≤ maxBits) → Unambiguous code (· ∈ msg) →
        (msg.map fun s => lens.getD s 0).sum ≤ (msg.flatMap code).length := by
  have hsz : (histogram n msg).size = n := by simp [histogram]
  have hus : usedSymbols (histogram n msg).toList = msg.toFinset.card := by
    have e : (histogram n msg).toList = (List.range n).map msg.count := by simp [histogram]
    rw [usedSymbols, e, List.filter_map, List.length_map]
    rw [← List.toFinset_card_of_nodup (List.Nodup.filter _ List.nodup_range)]
    congr 1
    ext s
    simp only [List.mem_toFinset, List.mem_filter, List.mem_range, Function.comp_apply, decide_eq_true_eq, ne_eq, List.count_eq_zero, not_not]
    exact ⟨fun h => h.2, fun h => ⟨hmsg s h, h⟩⟩
  obtain ⟨lens, e, hopt⟩ := C10_optimal_lengths (histogram n msg) maxBits (by omega) h1 h15 (by rw [hus]; exact hcap)
  obtain ⟨lens', e', hls, -⟩ := C09_code_lengths (histogram n msg) maxBits (by omega) h1 h15 (by rw [hus]; exact hcap)
  obtain rfl : lens = lens' := by rw [e] at e'; exact Option.some.inj e'
  refine ⟨lens, e, by omega, fun code hlen hun => ?_⟩
  have ho := hopt ((Array.range n).map fun s => if s ∈ msg then (code s).length else 0) (by simp [histogram]) ?_ ?_ ?_
  · rw [encodedBits_eq _ _ hls, encodedBits_eq _ _ (by simp [histogram]), hsz] at ho
    rw [sum_count _ n msg hmsg]
    have e2 : (msg.flatMap code).length = (msg.map fun s => (code s).length).sum := by
      rw [List.length_flatMap]
    rw [e2, sum_count _ n msg hmsg]
    refine le_trans (le_of_eq ?_) (ho.trans (le_of_eq ?_))
    · refine Finset.sum_congr rfl fun i hi => ?_
      rw [histogram_get (Finset.mem_range.mp hi)]
    · refine Finset.sum_congr rfl fun i hi => ?_
      have hi := Finset.mem_range.mp hi
      rw [histogram_get hi]
      by_cases hm : i ∈ msg
      · simp [hi, hm]
      · simp [List.count_eq_zero_of_not_mem hm]
  · intro l hl
    simp only [Array.toList_map, Array.toList_range, List.mem_map, List.mem_range] at hl
    obtain ⟨s, hs, rfl⟩ := hl
    split
    · exact hlen s ‹_›
    · omega
  · intro i hi hne
    have hin : i < n := by omega
    have hm : i ∈ msg := by
      simp [histogram] at hne
      rw [List.count_eq_zero] at hne
      exact not_not.mp hne
    have := hun.ne_nil hm
    simpa [hm] using this
  · rw [kraftSum]
    have h2 := hun.kraft ((Finset.range n).filter (· ∈ msg)) (by simp)
    refine le_trans (le_of_eq ?_) h2
    simp only [Array.toList_map, Array.toList_range, List.map_map]
    rw [Finset.sum_filter, ← List.sum_toFinset _ List.nodup_range]
    have : (List.range n).toFinset = Finset.range n := by ext; simp
    rw [this]
    refine Finset.sum_congr rfl fun i _ => ?_
    by_cases hm : i ∈ msg
    · have := hun.ne_nil hm
      simp [hm, this]
    · simp [hm]

/-! ## The hypotheses are met -/

/-- A competitor: unary codewords `0`, `10`, `110`, … -/
def unary (s : Nat) : List Bool := List.replicate s true ++ [false]

theorem unary_unambiguous (used : Nat → Prop) : Unambiguous unary used := by
  have key : ∀ a b : Nat, ∀ x y : List Bool, unary a ++ x = unary b ++ y → a = b ∧ x = y := by
    intro a
    induction a with
    | zero =>
      intro b x y h
      cases b with
      | zero => simpa [unary] using h
      | succ b => simp [unary, List.replicate_succ] at h
    | succ a ih =>
      intro b x y h
      cases b with
      | zero => simp [unary, List.replicate_succ] at h
      | succ b =>
        have := ih b x y (by simpa [unary, List.replicate_succ] using h)
        exact ⟨by omega, this.2⟩
  intro m
  induction m with
  | nil =>
    intro m' _ _ e
    cases m' with
    | nil => rfl
    | cons s m' => simp [unary] at e
  | cons s m ih =>
    intro m' h1 h2 e
    cases m' with
    | nil => simp [unary] at e
    | cons s' m' =>
      rw [List.flatMap_cons, List.flatMap_cons] at e
      obtain ⟨rfl, e'⟩ := key _ _ _ _ e
      rw [ih m' (fun x hx => h1 x (by simp [hx])) (fun x hx => h2 x (by simp [hx])) e']

example : ∃ lens, lengthLimitedCodeLengths (histogram 4 [0, 1, 3, 0, 2, 0, 3]) 5 = some lens ∧
    ([0, 1, 3, 0, 2, 0, 3].map fun s => lens.getD s 0).sum ≤ ([0, 1, 3, 0, 2, 0, 3].flatMap unary).length := by
  obtain ⟨lens, h1, -, h2⟩ := C10_optimal_code 4 5 (by omega) (by omega) (by omega) [0, 1, 3, 0, 2, 0, 3] (by decide) (by decide)
  exact ⟨lens, h1, h2 unary (by decide) (unary_unambiguous _)⟩

end Zopfli
