import Verif.Proofs.Symbols
import Verif.Proofs.Basic
import Verif.Model.Lz77
import Verif.Spec.Items
import Mathlib.Tactic.Ring
/-! # The LZ77 store: cumulative histograms -/

namespace Zopfli

/-- The literal/length symbol of an item. -/
def llSym : LitLen → Nat
  | .literal b => b
  | .lengthDist len _ => (getLengthSymbol len).getD 0

/-- The distance symbol of an item, if it has one. -/
def dSym : LitLen → Option Nat
  | .literal _ => none
  | .lengthDist _ dist => some (getDistSymbol dist)

theorem llSym_lt {x : LitLen} (h : x.InRange) : llSym x < 286 ∧ llSym x ≠ 256 := by
  cases x with
  | literal b => simp only [LitLen.InRange] at h; simp only [llSym]; omega
  | lengthDist len dist =>
    obtain ⟨s, eb, v, e, -, -, h1, h2, -⟩ := length_spec h.1 h.2.1
    simp only [llSym, e, Option.getD_some]
    omega

theorem dSym_lt {x : LitLen} (h : x.InRange) {s : Nat} (hs : dSym x = some s) : s < 30 := by
  cases x with
  | literal b => cases hs
  | lengthDist len dist =>
    cases hs
    exact (dist_spec h.2.2.1 h.2.2.2).1

/-- A table of cumulative counts with one row per `num` symbols (`none`: not counted). -/
structure Cum (counts : Array Nat) (num : Nat) (syms : List (Option Nat)) : Prop where
  size : counts.size = num * ((syms.length + num - 1) / num)
  val : ∀ r s, num * r < syms.length → s < num →
    counts[num * r + s]? = some ((syms.take (num * (r + 1))).count (some s))

theorem newRow_spec {counts : Array Nat} {num : Nat} {syms : List (Option Nat)} (hn : 0 < num) (h : Cum counts num syms) :
    Ret (newRow counts syms.length num) fun c => c.size = num * (syms.length / num + 1) ∧
      ∀ r s, r ≤ syms.length / num → s < num →
        c[num * r + s]? = some ((syms.take (num * (r + 1))).count (some s)) := by
  obtain ⟨hsize, hval⟩ := h
  have hdm := Nat.div_add_mod syms.length num
  have hml := Nat.mod_lt syms.length hn
  generalize hq : syms.length / num = q at *
  generalize hm : syms.length % num = m at *
  unfold newRow
  rw [hm]
  by_cases h0 : m = 0
  · rw [if_pos h0]
    subst h0
    have hsz : counts.size = num * q := by
      rw [hsize, show syms.length + num - 1 = (num - 1) + num * q by omega, Nat.add_mul_div_left _ _ hn,
        Nat.div_eq_of_lt (by omega), Nat.zero_add]
    by_cases hz : syms.length = 0
    · rw [if_pos hz]
      have hnil : syms = [] := List.length_eq_zero_iff.mp hz
      subst hnil
      have hq0 : q = 0 := by
        rcases Nat.eq_zero_or_pos q with h | h
        · exact h
        · have := Nat.mul_pos hn h
          simp at hdm; omega
      subst hq0
      refine Ret.some ⟨by simp, fun r s hr hs => ?_⟩
      have : r = 0 := by omega
      subst this
      simp [hs]
    · rw [if_neg hz, if_pos (by omega)]
      have hq0 : 0 < q := by
        rcases Nat.eq_zero_or_pos q with h | h
        · subst h; simp at hdm; omega
        · exact h
      obtain ⟨q', rfl⟩ : ∃ q', q = q' + 1 := ⟨q - 1, by omega⟩
      have e1 : num * (q' + 1) = num * q' + num := by ring
      refine Ret.some ⟨?_, fun r s hr hs => ?_⟩
      · rw [Array.size_append, Array.size_extract, hsz]
        have : num * (q' + 1 + 1) = num * q' + num + num := by ring
        omega
      · rcases Nat.lt_or_eq_of_le hr with hlt | rfl
        · have : num * r + num ≤ num * (q' + 1) := by
            have := Nat.mul_le_mul_left num (show r + 1 ≤ q' + 1 from hlt)
            have e : num * (r + 1) = num * r + num := by ring
            omega
          rw [Array.getElem?_append_left (by omega)]
          exact hval r s (by omega) hs
        · rw [Array.getElem?_append_right (by omega), Array.getElem?_extract, hsz]
          rw [if_pos (by omega)]
          have hv := hval q' s (by omega) hs
          rw [show syms.length - num + (num * (q' + 1) + s - num * (q' + 1)) = num * q' + s by omega, hv]
          congr 2
          have e2 : num * (q' + 1 + 1) = num * q' + num + num := by ring
          rw [List.take_of_length_le (by omega), List.take_of_length_le (by omega)]
  · rw [if_neg h0]
    have hsz : counts.size = num * (q + 1) := by
      rw [hsize, show syms.length + num - 1 = (m - 1) + num * (q + 1) by
        have : num * (q + 1) = num * q + num := by ring
        omega, Nat.add_mul_div_left _ _ hn,
        Nat.div_eq_of_lt (by omega), Nat.zero_add]
    refine Ret.some ⟨hsz, fun r s hr hs => hval r s ?_ hs⟩
    have := Nat.mul_le_mul_left num hr
    omega

theorem cum_push_none {c : Array Nat} {num : Nat} {syms : List (Option Nat)} (hn : 0 < num)
    (hs : c.size = num * (syms.length / num + 1))
    (hv : ∀ r s, r ≤ syms.length / num → s < num →
        c[num * r + s]? = some ((syms.take (num * (r + 1))).count (some s))) : Cum c num (syms ++ [none]) := by
  have hdm := Nat.div_add_mod syms.length num
  have hml := Nat.mod_lt syms.length hn
  constructor
  · rw [hs, List.length_append, List.length_singleton, show syms.length + 1 + num - 1 = syms.length + num by omega,
      Nat.add_div_right _ hn]
  · intro r s hr hs'
    have hr' : r ≤ syms.length / num := by
      rw [Nat.le_div_iff_mul_le hn, Nat.mul_comm]
      simp at hr; omega
    rw [hv r s hr' hs', List.take_append, List.count_append]
    congr 1
    have : (List.take (num * (r + 1) - syms.length) [(none : Option Nat)]).count (some s) = 0 := by
      rw [List.count_eq_zero]
      intro hm
      have := List.mem_of_mem_take hm
      simp at this
    omega

theorem cum_push_some {c : Array Nat} {num : Nat} {syms : List (Option Nat)} (hn : 0 < num) {v : Nat} (hvn : v < num)
    (hs : c.size = num * (syms.length / num + 1))
    (hv : ∀ r s, r ≤ syms.length / num → s < num →
        c[num * r + s]? = some ((syms.take (num * (r + 1))).count (some s))) :
    Ret (amod c (num * (syms.length / num) + v) (· + 1)) fun c' => Cum c' num (syms ++ [some v]) := by
  have hdm := Nat.div_add_mod syms.length num
  have hml := Nat.mod_lt syms.length hn
  generalize hq : syms.length / num = q at *
  have e1 : num * (q + 1) = num * q + num := by ring
  refine Ret.amod (by omega) ⟨?_, ?_⟩
  · rw [Array.size_modify, hs, List.length_append, List.length_singleton,
      show syms.length + 1 + num - 1 = syms.length + num by omega, Nat.add_div_right _ hn, hq]
  · intro r s hr hs'
    have hr' : r ≤ q := by
      rw [← hq, Nat.le_div_iff_mul_le hn, Nat.mul_comm]
      simp at hr; omega
    rw [Array.getElem?_modify, hv r s hr' hs', List.take_append, List.count_append]
    rcases Nat.lt_or_eq_of_le hr' with hlt | rfl
    · have e2 : num * (r + 1) = num * r + num := by ring
      have := Nat.mul_le_mul_left num (show r + 1 ≤ q from hlt)
      rw [if_neg (by omega), show num * (r + 1) - syms.length = 0 by omega]
      simp
    · rw [show num * (r + 1) - syms.length = (num * (r + 1) - syms.length - 1) + 1 by omega]
      simp only [List.take_succ_cons, List.take_nil]
      by_cases hvs : v = s
      · subst hvs; simp
      · rw [if_neg (by omega)]
        simp [hvs]

/-- The store represents the list of items `items`, with start positions `poss`. -/
structure StoreInv (s : Lz77Store) : Prop where
  range : ∀ x ∈ s.litlens.toList, x.InRange
  lls : s.llSymbol.toList = s.litlens.toList.map llSym
  ds : s.dSymbol.toList = s.litlens.toList.map fun x => (dSym x).getD 0
  poss : s.pos.size = s.litlens.size
  llc : Cum s.llCounts 288 (s.litlens.toList.map fun x => some (llSym x))
  dc : Cum s.dCounts 32 (s.litlens.toList.map dSym)

theorem StoreInv.new : StoreInv Lz77Store.new :=
  ⟨by simp [Lz77Store.new], rfl, rfl, rfl, ⟨rfl, by simp [Lz77Store.new]⟩, ⟨rfl, by simp [Lz77Store.new]⟩⟩

theorem appendStoreItem_spec {s : Lz77Store} (h : StoreInv s) {x : LitLen} (hx : x.InRange) (pos : Nat) :
    Ret (s.appendStoreItem x pos) fun s' => StoreInv s' ∧ s'.litlens = s.litlens.push x ∧ s'.pos = s.pos.push pos := by
  obtain ⟨litlens, poss, lls, ds, llc, dc⟩ := s
  obtain ⟨h1, h2, h3, h4, h5, h6⟩ := h
  dsimp only at h1 h2 h3 h4 h5 h6
  have e5 : litlens.size = (litlens.toList.map fun x => some (llSym x)).length := by simp
  have e6 : litlens.size = (litlens.toList.map dSym).length := by simp
  unfold Lz77Store.appendStoreItem
  dsimp only
  obtain ⟨c1, ec1, hc1, hv1⟩ := newRow_spec (by omega) h5
  obtain ⟨c2, ec2, hc2, hv2⟩ := newRow_spec (by omega) h6
  rw [← e5] at ec1
  rw [← e6] at ec2
  rw [ec1, some_bind, ec2, some_bind]
  have hrange : ∀ y ∈ (litlens.push x).toList, y.InRange := by
    intro y hy
    simp only [Array.toList_push, List.mem_append, List.mem_singleton] at hy
    rcases hy with hy | rfl
    · exact h1 y hy
    · exact hx
  cases x with
  | literal b =>
    dsimp only
    have hb : b < 256 := hx
    obtain ⟨c3, ec3, hc3⟩ := cum_push_some (v := b) (by omega) (by omega) hc1 hv1
    rw [← e5] at ec3
    have ec3' : amod c1 (NUM_LL * (litlens.size / NUM_LL) + b) (· + 1) = some c3 := ec3
    rw [ec3', some_bind]
    refine Ret.pure ⟨⟨hrange, by simp [h2, llSym], by simp [h3, dSym], by simpa using h4, by simpa [llSym] using hc3, ?_⟩, rfl, rfl⟩
    have := cum_push_none (by omega) hc2 hv2
    simpa [dSym] using this
  | lengthDist len dist =>
    dsimp only
    obtain ⟨g1, g2, g3, g4⟩ := hx
    obtain ⟨sy, eb, v, e, -, -, hs1, hs2, -⟩ := length_spec g1 g2
    have hd := (dist_spec g3 g4).1
    rw [e, some_bind]
    obtain ⟨c3, ec3, hc3⟩ := cum_push_some (v := sy) (by omega) (by omega) hc1 hv1
    rw [← e5] at ec3
    have ec3' : amod c1 (NUM_LL * (litlens.size / NUM_LL) + sy) (· + 1) = some c3 := ec3
    obtain ⟨c4, ec4, hc4⟩ := cum_push_some (v := getDistSymbol dist) (by omega) (by omega) hc2 hv2
    rw [← e6] at ec4
    have ec4' : amod c2 (NUM_D * (litlens.size / NUM_D) + getDistSymbol dist) (· + 1) = some c4 := ec4
    rw [ec3', some_bind, ec4', some_bind]
    exact Ret.pure ⟨⟨hrange, by simp [h2, llSym, e], by simp [h3, dSym], by simpa using h4,
      by simpa [llSym, e] using hc3, by simpa [dSym] using hc4⟩, rfl, rfl⟩

theorem litLenDist_spec {s : Lz77Store} (h : StoreInv s) {x : LitLen} (hx : x.InRange) (pos : Nat) {length dist : Nat}
    (e : (if dist = 0 then LitLen.literal length else .lengthDist length dist) = x) :
    Ret (s.litLenDist length dist pos) fun s' => StoreInv s' ∧ s'.litlens = s.litlens.push x ∧ s'.pos = s.pos.push pos := by
  unfold Lz77Store.litLenDist
  rw [e]
  exact appendStoreItem_spec h hx pos

/-! ## Histograms -/

/-- `c` holds the number of occurrences of every symbol in `l`. -/
def Hist (c : Array Nat) (num : Nat) (l : List (Option Nat)) : Prop :=
  c.size = num ∧ ∀ s, s < num → c[s]? = some (l.count (some s))

theorem loadRow_spec {counts : Array Nat} {num base : Nat} {l : List (Option Nat)}
    (h : ∀ s, s < num → counts[base + s]? = some (l.count (some s))) :
    Ret (forRange 0 num #[] fun i (r : Array Nat) => do some (r.push (← counts[base + i]?))) fun c => Hist c num l := by
  refine forRange_spec (fun i (c : Array Nat) => c.size = i ∧ ∀ s, s < i → c[s]? = some (l.count (some s))) (by omega)
    (by simp) ?_
  rintro i c - hi ⟨h1, h2⟩
  rw [h i hi, some_bind]
  refine Ret.some ⟨by simp [h1], fun s hs => ?_⟩
  rw [Array.getElem?_push]
  split
  · rename_i e; rw [h1] at e; rw [e]
  · exact h2 s (by omega)

/-- Removing the last symbol of the list from the histogram. -/
theorem decAt_spec {c : Array Nat} {num : Nat} {l : List (Option Nat)} {v : Nat} (h : Hist c num (l ++ [some v])) (hv : v < num) :
    Ret (decAt c v) fun c' => Hist c' num l := by
  obtain ⟨h1, h2⟩ := h
  unfold decAt
  rw [h2 v hv, some_bind]
  have : (l ++ [some v]).count (some v) = l.count (some v) + 1 := by simp
  rw [this, if_neg (by omega)]
  refine Ret.aset (by omega) ⟨by simpa using h1, fun s hs => ?_⟩
  rw [Array.getElem?_set]
  split
  · rename_i e; subst e; simp
  · rename_i e
    rw [h2 s hs, List.count_append]
    simp [e]

theorem hist_skip {c : Array Nat} {num : Nat} {l : List (Option Nat)} (h : Hist c num (l ++ [none])) : Hist c num l := by
  refine ⟨h.1, fun s hs => ?_⟩
  rw [h.2 s hs, List.count_append]
  simp

/-- The order of the list does not matter. -/
theorem Hist.perm {c : Array Nat} {num : Nat} {l l' : List (Option Nat)} (h : Hist c num l) (p : l.Perm l') : Hist c num l' :=
  ⟨h.1, fun s hs => by rw [h.2 s hs, p.count_eq]⟩

/-- Removing the symbols from index `a` on, front to back. -/
theorem unwind_spec {f : Nat → Array Nat → Option (Array Nat)} {syms : List (Option Nat)} {num a b : Nat}
    (hab : a ≤ b) (hb : b ≤ syms.length)
    (hf : ∀ i c l v, a ≤ i → i < b → syms[i]? = some v → Hist c num (l ++ [v]) → Ret (f i c) fun c' => Hist c' num l)
    {c : Array Nat} (hc : Hist c num (syms.take b)) : Ret (forRange a b c f) fun c' => Hist c' num (syms.take a) := by
  refine Ret.mono (forRange_spec (fun i c => Hist c num (syms.take a ++ (syms.take b).drop i)) hab ?_ ?_) ?_
  · have : syms.take a = (syms.take b).take a := by rw [List.take_take, Nat.min_eq_left hab]
    rw [this, List.take_append_drop]
    exact hc
  · intro i c ha hi h
    have hlt : i < (syms.take b).length := by simp; omega
    rw [List.drop_eq_getElem_cons hlt] at h
    refine hf i c (syms.take a ++ (syms.take b).drop (i + 1)) (syms.take b)[i] ha hi ?_ ?_
    · simp [List.getElem?_eq_getElem (show i < syms.length by omega)]
    · refine h.perm ?_
      refine List.Perm.trans List.perm_middle ?_
      exact (List.perm_append_singleton _ _).symm
  · intro c h
    rw [List.drop_of_length_le (by rw [List.length_take]; omega), List.append_nil] at h
    exact h

theorem getHistogramAt_spec {s : Lz77Store} (h : StoreInv s) {lpos : Nat} (hl : lpos < s.size) :
    Ret (s.getHistogramAt lpos) fun r =>
      Hist r.1 288 ((s.litlens.toList.map fun x => some (llSym x)).take (lpos + 1)) ∧
      Hist r.2 32 ((s.litlens.toList.map dSym).take (lpos + 1)) := by
  have hsz : s.size = s.litlens.toList.length := by simp [Lz77Store.size]
  have hL : (s.litlens.toList.map fun x => some (llSym x)).length = s.size := by simp [Lz77Store.size]
  have hD : (s.litlens.toList.map dSym).length = s.size := by simp [Lz77Store.size]
  have hlls : s.llSymbol.size = s.size := by
    rw [← Array.length_toList, h.lls]; simp [Lz77Store.size]
  have hds : s.dSymbol.size = s.size := by
    rw [← Array.length_toList, h.ds]; simp [Lz77Store.size]
  have hdm := Nat.div_add_mod lpos 288
  have hml := Nat.mod_lt lpos (show 0 < 288 by omega)
  have hdm2 := Nat.div_add_mod lpos 32
  have hml2 := Nat.mod_lt lpos (show 0 < 32 by omega)
  unfold Lz77Store.getHistogramAt
  dsimp only [NUM_LL, NUM_D]
  have take_min : ∀ {α : Type} (l : List α) (k n : Nat), l.length = n → l.take k = l.take (min k n) := by
    intro α l k n e
    rcases Nat.le_total k n with h | h
    · rw [Nat.min_eq_left h]
    · rw [Nat.min_eq_right h, List.take_of_length_le (by omega), List.take_of_length_le (by omega)]
  refine Ret.bind' (loadRow_spec (l := (s.litlens.toList.map fun x => some (llSym x)).take (288 * (lpos / 288 + 1)))
    fun t ht => h.llc.val (lpos / 288) t (by rw [hL]; omega) ht) fun ll hll => ?_
  refine Ret.bind' (unwind_spec (syms := s.litlens.toList.map fun x => some (llSym x)) (num := 288) (by omega) (by rw [hL]; omega) ?_ ?_)
    fun ll' hll' => ?_
  · intro i c l v hi hi' hv hc
    have hilt : i < s.litlens.size := by simp [Lz77Store.size] at hi'; omega
    have hsy : s.llSymbol[i]? = some (llSym s.litlens[i]) := by
      rw [← Array.getElem?_toList, h.lls]
      simp [hilt]
    have hv' : v = some (llSym s.litlens[i]) := by
      simp [hilt] at hv; exact hv.symm
    subst hv'
    rw [hsy, some_bind]
    exact decAt_spec hc (Nat.lt_trans (llSym_lt (h.range _ (by simp))).1 (by omega))
  · rw [take_min _ _ _ hL] at hll
    rwa [show 288 * (lpos / 288) + 288 = 288 * (lpos / 288 + 1) by ring]
  refine Ret.bind' (loadRow_spec (l := (s.litlens.toList.map dSym).take (32 * (lpos / 32 + 1)))
    fun t ht => h.dc.val (lpos / 32) t (by rw [hD]; omega) ht) fun d hd => ?_
  refine Ret.bind' (unwind_spec (syms := s.litlens.toList.map dSym) (num := 32) (by omega) (by rw [hD]; omega) ?_ ?_)
    fun d' hd' => Ret.pure ⟨hll', hd'⟩
  · intro i c l v hi hi' hv hc
    have hilt : i < s.litlens.size := by simp [Lz77Store.size] at hi'; omega
    have hsy : s.dSymbol[i]? = some ((dSym s.litlens[i]).getD 0) := by
      rw [← Array.getElem?_toList, h.ds]
      simp [hilt]
    have hv' : v = dSym s.litlens[i] := by
      simp [hilt] at hv; exact hv.symm
    subst hv'
    rw [Array.getElem?_eq_getElem hilt, some_bind]
    have hr := h.range s.litlens[i] (by simp)
    cases hx : s.litlens[i] with
    | literal b =>
      rw [hx] at hc
      exact Ret.some (hist_skip hc)
    | lengthDist len dist =>
      rw [hx] at hc hsy hr
      dsimp only
      rw [hsy, some_bind]
      exact decAt_spec hc (Nat.lt_trans (dSym_lt hr rfl) (by omega))
  · rw [take_min _ _ _ hD] at hd
    rwa [show 32 * (lpos / 32) + 32 = 32 * (lpos / 32 + 1) by ring]

theorem subCounts_spec {a b : Array Nat} {num : Nat} {l l' : List (Option Nat)} (ha : Hist a num (l ++ l')) (hb : Hist b num l) :
    Ret (subCounts a b) fun c => Hist c num l' := by
  unfold subCounts
  rw [ha.1]
  refine forRange_spec (fun i (c : Array Nat) => c.size = i ∧ ∀ s, s < i → c[s]? = some (l'.count (some s))) (by omega)
    (by simp) ?_
  rintro i c - hi ⟨h1, h2⟩
  rw [ha.2 i hi, some_bind, hb.2 i hi, some_bind, List.count_append, if_neg (by omega)]
  refine Ret.some ⟨by simp [h1], fun s hs => ?_⟩
  rw [Array.getElem?_push]
  split
  · rename_i e; rw [h1] at e; rw [e]; congr 1; omega
  · exact h2 s (by omega)

theorem hist_inc {c : Array Nat} {num : Nat} {l : List (Option Nat)} (h : Hist c num l) {v : Nat} (hv : v < num) :
    Ret (amod c v (· + 1)) fun c' => Hist c' num (l ++ [some v]) := by
  obtain ⟨h1, h2⟩ := h
  refine Ret.amod (by omega) ⟨by simpa using h1, fun s hs => ?_⟩
  rw [Array.getElem?_modify, h2 s hs, List.count_append]
  by_cases e : v = s
  · subst e; simp
  · simp [e]

/-- The histogram of a range of items is exact. -/
theorem getHistogram_spec {s : Lz77Store} (h : StoreInv s) {lstart lend : Nat} (hle : lstart ≤ lend) (hl : lend ≤ s.size) :
    Ret (s.getHistogram lstart lend) fun r =>
      Hist r.1 288 (((s.litlens.toList.map fun x => some (llSym x)).take lend).drop lstart) ∧
      Hist r.2 32 (((s.litlens.toList.map dSym).take lend).drop lstart) := by
  have hsz : s.size = s.litlens.size := rfl
  unfold Lz77Store.getHistogram
  split
  · have hemp : ∀ {α : Type} (L : List α), (L.take lstart).drop lstart = [] := fun L => by
      rw [List.drop_eq_nil_iff]; simp
    have hstep : ∀ {α : Type} (L : List α) (i : Nat) (hi : i < L.length), lstart ≤ i →
        (L.take (i + 1)).drop lstart = (L.take i).drop lstart ++ [L[i]] := by
      intro α L i hi hli
      rw [List.take_succ_eq_append_getElem hi, List.drop_append_of_le_length (by simp; omega)]
    refine forRange_spec (fun i (r : Array Nat × Array Nat) =>
      Hist r.1 288 (((s.litlens.toList.map fun x => some (llSym x)).take i).drop lstart) ∧
      Hist r.2 32 (((s.litlens.toList.map dSym).take i).drop lstart)) hle ?_ ?_
    · rw [hemp, hemp]
      refine ⟨⟨by simp, fun t ht => ?_⟩, ⟨by simp, fun t ht => ?_⟩⟩
      · rw [Array.getElem?_replicate, if_pos ht]; rfl
      · rw [Array.getElem?_replicate, if_pos ht]; rfl
    · rintro i ⟨ll, d⟩ hi hi' ⟨g1, g2⟩
      dsimp only at g1 g2 ⊢
      have hilt : i < s.litlens.size := by omega
      have hsy : s.llSymbol[i]? = some (llSym s.litlens[i]) := by
        rw [← Array.getElem?_toList, h.lls]
        simp [hilt]
      have hsy2 : s.dSymbol[i]? = some ((dSym s.litlens[i]).getD 0) := by
        rw [← Array.getElem?_toList, h.ds]
        simp [hilt]
      have hr := h.range s.litlens[i] (by simp)
      rw [hsy, some_bind]
      refine Ret.bind' (hist_inc g1 (Nat.lt_trans (llSym_lt hr).1 (by omega))) fun ll' hll' => ?_
      rw [Array.getElem?_eq_getElem hilt, some_bind]
      rw [hstep _ i (by simpa using hilt) hi, hstep _ i (by simpa using hilt) hi]
      simp only [List.getElem_map, Array.getElem_toList]
      cases hx : s.litlens[i] with
      | literal b =>
        rw [hx] at hll'
        refine Ret.some ⟨hll', ⟨g2.1, fun t ht => ?_⟩⟩
        rw [g2.2 t ht, List.count_append]
        simp [dSym]
      | lengthDist len dist =>
        rw [hx] at hll' hsy2 hr
        dsimp only
        rw [hsy2, some_bind]
        refine Ret.bind' (hist_inc g2 (Nat.lt_trans (dSym_lt hr rfl) (by omega))) fun d' hd' => ?_
        exact Ret.some ⟨hll', hd'⟩
  · rename_i hbig
    dsimp only [NUM_LL] at hbig
    refine Ret.bind' (getHistogramAt_spec h (lpos := lend - 1) (by omega)) ?_
    rintro ⟨ll, d⟩ ⟨g1, g2⟩
    rw [show lend - 1 + 1 = lend by omega] at g1 g2
    dsimp only at g1 g2 ⊢
    split
    · rename_i hpos
      refine Ret.bind' (getHistogramAt_spec h (lpos := lstart - 1) (by omega)) ?_
      rintro ⟨ll2, d2⟩ ⟨g3, g4⟩
      rw [show lstart - 1 + 1 = lstart by omega] at g3 g4
      dsimp only at g3 g4 ⊢
      have key : ∀ {α : Type} (L : List α), L.take lend = L.take lstart ++ (L.take lend).drop lstart := fun L => by
        conv_lhs => rw [← List.take_append_drop lstart (L.take lend), List.take_take, Nat.min_eq_left hle]
      rw [key] at g1 g2
      refine Ret.bind' (subCounts_spec g1 g3) fun c1 hc1 => ?_
      refine Ret.bind' (subCounts_spec g2 g4) fun c2 hc2 => ?_
      exact Ret.pure ⟨hc1, hc2⟩
    · have : lstart = 0 := by omega
      subst this
      exact Ret.pure ⟨g1, g2⟩

end Zopfli
