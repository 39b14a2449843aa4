import Verif.Proofs.Bits
import Verif.Proofs.Katajainen2
/-! # The run-length coding of the code lengths -/

namespace Zopfli
open Rfc Katajainen

/-- The meaning of one run-length item (RFC 1951, 3.2.7): symbol and extra bits. -/
def rleApply (acc : List Nat) (x : Nat × Nat) : Option (List Nat) :=
  if x.1 < 16 then some (acc ++ [x.1])
  else if x.1 = 16 then acc.getLast?.map fun p => acc ++ List.replicate (3 + x.2) p
  else if x.1 = 17 then some (acc ++ List.replicate (3 + x.2) 0)
  else some (acc ++ List.replicate (11 + x.2) 0)

/-- Number of extra bits of a run-length symbol. -/
def rleExtra (s : Nat) : Nat := if s = 16 then 2 else if s = 17 then 3 else if s = 18 then 7 else 0

/-- Symbol in range, and the extra bits fit. -/
def RleItemOk (x : Nat × Nat) : Prop := x.1 < 19 ∧ x.2 < 2 ^ rleExtra x.1

/-- The accumulated output stands for `items`, which decode to `acc`. -/
structure Enc (o : RleOut) (items : List (Nat × Nat)) (acc : List Nat) : Prop where
  rle : o.rle.toList = items.map (·.1)
  bits : o.rleBits.toList = items.map (·.2)
  size : o.clcounts.size = 19
  counts : ∀ s, s < 19 → o.clcounts[s]? = some ((items.filter (·.1 == s)).length)
  ok : ∀ x ∈ items, RleItemOk x
  dec : items.foldlM rleApply [] = some acc

theorem Enc.push {o : RleOut} {items : List (Nat × Nat)} {acc acc' : List Nat} (h : Enc o items acc) {s b : Nat}
    (hok : RleItemOk (s, b)) (ha : rleApply acc (s, b) = some acc') :
    Ret (o.push s b) fun o' => Enc o' (items ++ [(s, b)]) acc' := by
  unfold RleOut.push
  have hs : s < o.clcounts.size := by rw [h.size]; exact hok.1
  refine Ret.bind (Ret.amod hs (Ret.pure ⟨?_, ?_, ?_, fun s' hs' => ?_, ?_, ?_⟩))
  · simp [h.rle]
  · simp [h.bits]
  · simpa using h.size
  · dsimp only
    rw [Array.getElem?_modify, h.counts s' hs', List.filter_append, List.length_append]
    by_cases e : s = s' <;> simp [e]
  · intro x hx
    rcases List.mem_append.mp hx with hx | hx
    · exact h.ok x hx
    · simp at hx; subst hx; exact hok
  · rw [List.foldlM_append, h.dec]
    simpa using ha

/-- Same counters as the size-only loop. -/
def SizeOk (r : Option (RleOut × Nat)) (r' : Option (Array Nat × Nat)) : Prop :=
  r' = r.map fun p => (p.1.clcounts, p.2)

theorem push_counts {o o' : RleOut} {s b : Nat} (h : o.push s b = some o') : amod o.clcounts s (· + 1) = some o'.clcounts := by
  unfold RleOut.push at h
  cases e : amod o.clcounts s (· + 1) with
  | none => rw [e] at h; cases h
  | some x => rw [e] at h; cases h; rfl

theorem rleLoop18_spec {o : RleOut} {items : List (Nat × Nat)} {acc : List Nat} (h : Enc o items acc) (count : Nat) :
    Ret (rleLoop18 o count) fun r => r.2 ≤ count ∧ (∃ items', Enc r.1 items' (acc ++ List.replicate (count - r.2) 0)) ∧
      sizeLoop18 o.clcounts count = some (r.1.clcounts, r.2) := by
  induction count using Nat.strongRecOn generalizing o items acc with
  | ind count ih =>
    unfold rleLoop18 sizeLoop18
    by_cases h11 : 11 ≤ count
    · rw [if_pos h11, if_pos h11]
      dsimp only
      generalize hc2 : (if count > 138 then 138 else count) = c2
      have hc2' : 11 ≤ c2 ∧ c2 ≤ 138 ∧ c2 ≤ count := by split at hc2 <;> omega
      refine Ret.bind' (h.push (s := 18) (b := c2 - 11) ⟨by omega, by simp [rleExtra]; omega⟩ rfl).and_eq ?_
      rintro o' ⟨ho', e⟩
      rw [push_counts e]
      refine Ret.mono (ih (count - c2) (by omega) ho') ?_
      rintro ⟨o2, c⟩ ⟨h1, ⟨items', h2⟩, h3⟩
      dsimp only at h1 h2 h3 ⊢
      refine ⟨by omega, ⟨items', ?_⟩, h3⟩
      have : List.replicate (11 + (18, c2 - 11).2) 0 ++ List.replicate (count - c2 - c) 0 = List.replicate (count - c) 0 := by
        rw [List.replicate_append_replicate]; congr 1; dsimp only; omega
      rw [List.append_assoc, this] at h2
      exact h2
    · rw [if_neg h11, if_neg h11]
      exact Ret.some ⟨Nat.le_refl _, ⟨items, by simpa using h⟩, rfl⟩

theorem rleLoop17_spec {o : RleOut} {items : List (Nat × Nat)} {acc : List Nat} (h : Enc o items acc) (count : Nat) :
    Ret (rleLoop17 o count) fun r => r.2 ≤ count ∧ (∃ items', Enc r.1 items' (acc ++ List.replicate (count - r.2) 0)) ∧
      sizeLoop17 o.clcounts count = some (r.1.clcounts, r.2) := by
  induction count using Nat.strongRecOn generalizing o items acc with
  | ind count ih =>
    unfold rleLoop17 sizeLoop17
    by_cases h11 : 3 ≤ count
    · rw [if_pos h11, if_pos h11]
      dsimp only
      generalize hc2 : (if count > 10 then 10 else count) = c2
      have hc2' : 3 ≤ c2 ∧ c2 ≤ 10 ∧ c2 ≤ count := by split at hc2 <;> omega
      refine Ret.bind' (h.push (s := 17) (b := c2 - 3) ⟨by omega, by simp [rleExtra]; omega⟩ rfl).and_eq ?_
      rintro o' ⟨ho', e⟩
      rw [push_counts e]
      refine Ret.mono (ih (count - c2) (by omega) ho') ?_
      rintro ⟨o2, c⟩ ⟨h1, ⟨items', h2⟩, h3⟩
      dsimp only at h1 h2 h3 ⊢
      refine ⟨by omega, ⟨items', ?_⟩, h3⟩
      have : List.replicate (3 + (17, c2 - 3).2) 0 ++ List.replicate (count - c2 - c) 0 = List.replicate (count - c) 0 := by
        rw [List.replicate_append_replicate]; congr 1; dsimp only; omega
      rw [List.append_assoc, this] at h2
      exact h2
    · rw [if_neg h11, if_neg h11]
      exact Ret.some ⟨Nat.le_refl _, ⟨items, by simpa using h⟩, rfl⟩

theorem rleLoop16_spec {o : RleOut} {items : List (Nat × Nat)} {acc : List Nat} {p : Nat} (h : Enc o items acc)
    (hp : acc.getLast? = some p) (count : Nat) :
    Ret (rleLoop16 o count) fun r => r.2 ≤ count ∧ (∃ items', Enc r.1 items' (acc ++ List.replicate (count - r.2) p)) ∧
      sizeLoop16 o.clcounts count = some (r.1.clcounts, r.2) := by
  induction count using Nat.strongRecOn generalizing o items acc with
  | ind count ih =>
    unfold rleLoop16 sizeLoop16
    by_cases h11 : 3 ≤ count
    · rw [if_pos h11, if_pos h11]
      dsimp only
      generalize hc2 : (if count > 6 then 6 else count) = c2
      have hc2' : 3 ≤ c2 ∧ c2 ≤ 6 ∧ c2 ≤ count := by split at hc2 <;> omega
      refine Ret.bind' (h.push (s := 16) (b := c2 - 3) (acc' := acc ++ List.replicate c2 p)
        ⟨by omega, by simp [rleExtra]; omega⟩ ?_).and_eq ?_
      · simp [rleApply, hp]; omega
      rintro o' ⟨ho', e⟩
      rw [push_counts e]
      refine Ret.mono (ih (count - c2) (by omega) ho' ?_) ?_
      · rw [List.getLast?_append, List.getLast?_replicate, if_neg (by omega)]; rfl
      rintro ⟨o2, c⟩ ⟨h1, ⟨items', h2⟩, h3⟩
      dsimp only at h1 h2 h3 ⊢
      refine ⟨by omega, ⟨items', ?_⟩, h3⟩
      have : List.replicate c2 p ++ List.replicate (count - c2 - c) p = List.replicate (count - c) p := by
        rw [List.replicate_append_replicate]; congr 1; omega
      rw [List.append_assoc, this] at h2
      exact h2
    · rw [if_neg h11, if_neg h11]
      exact Ret.some ⟨Nat.le_refl _, ⟨items, by simpa using h⟩, rfl⟩

theorem rleRest_spec {o : RleOut} {items : List (Nat × Nat)} {acc : List Nat} {p : Nat} (h : Enc o items acc)
    (hp : p < 16) (count : Nat) :
    Ret (rleRest o p count) fun r => (∃ items', Enc r items' (acc ++ List.replicate count p)) ∧
      amod o.clcounts p (· + count) = some r.clcounts := by
  induction count generalizing o items acc with
  | zero =>
    refine Ret.some ⟨⟨items, by simpa using h⟩, ?_⟩
    rw [amod_eq (by rw [h.size]; omega)]
    congr 1
    apply Array.ext_getElem?
    intro i
    rw [Array.getElem?_modify]
    split <;> simp
  | succ count ih =>
    unfold rleRest
    refine Ret.bind' (h.push (s := p) (b := 0) (acc' := acc ++ [p]) ⟨by dsimp only; omega, Nat.two_pow_pos _⟩ (by simp [rleApply, hp])).and_eq ?_
    rintro o' ⟨ho', e⟩
    refine Ret.mono (ih ho') ?_
    rintro o2 ⟨⟨items', h2⟩, h3⟩
    refine ⟨⟨items', by rwa [List.append_assoc, List.singleton_append, ← List.replicate_succ (n := count)] at h2⟩, ?_⟩
    have e1 := push_counts e
    have hs : p < o.clcounts.size := by rw [h.size]; omega
    rw [amod_eq hs] at e1 ⊢
    rw [← Option.some.inj e1] at h3
    rw [amod_eq (by simpa using hs)] at h3
    rw [← h3]
    congr 1
    apply Array.ext_getElem?
    intro i
    simp only [Array.getElem?_modify]
    split <;> simp
    congr 1
    funext x
    omega

theorem countRun_spec {get : Nat → Option Nat} {S : Nat → Nat} {total : Nat} (hget : ∀ i, i ≤ total → get i = some (S i))
    (symbol j count : Nat) (hj : j ≤ total) :
    Ret (countRun get total symbol j (S j) count) fun r => ∃ m, r = count + m ∧ j + m ≤ total ∧
      ∀ q, q < m → S (j + q) = symbol := by
  induction hn : total - j generalizing j count with
  | zero =>
    unfold countRun
    rw [if_neg (by omega)]
    exact Ret.some ⟨0, rfl, by omega, fun q hq => by omega⟩
  | succ n ih =>
    unfold countRun
    by_cases h : j < total ∧ symbol = S j
    · rw [if_pos h, hget (j + 1) (by omega)]
      refine Ret.bind (Ret.some ?_)
      refine Ret.mono (ih (j + 1) (count + 1) (by omega) (by omega)) ?_
      rintro r ⟨m, h1, h2, h3⟩
      refine ⟨m + 1, by omega, by omega, fun q hq => ?_⟩
      cases q with
      | zero => exact h.2.symm
      | succ q => rw [← h3 q (by omega)]; congr 1; omega
    · rw [if_neg h]
      exact Ret.some ⟨0, rfl, by omega, fun q hq => by omega⟩

theorem map_range_run {S : Nat → Nat} {i c v : Nat} (h : ∀ q, q < c → S (i + q) = v) :
    (List.range (i + c)).map S = (List.range i).map S ++ List.replicate c v := by
  rw [List.range_add, List.map_append, List.map_map]
  congr 1
  apply List.ext_getElem
  · simp
  · intro q h1 h2
    simp at h1
    simp [h q h1]

theorem rleEncodeStep_spec {ll d : Array Nat} {hlit2 total : Nat} {S : Nat → Nat}
    (hget : ∀ i, i ≤ total → lenAt ll d hlit2 i = some (S i)) (hS : ∀ i, S i ≤ 15) (u16 u17 u18 : Bool)
    {i : Nat} {o : RleOut} {items : List (Nat × Nat)} (h : Enc o items ((List.range i).map S)) (hi : i < total) :
    Ret (rleEncodeStep ll d hlit2 total u16 u17 u18 (i, o)) fun r => ∃ i' o' items', r = .inl (i', o') ∧ i < i' ∧ i' ≤ total ∧
      Enc o' items' ((List.range i').map S) ∧
      sizeStep ll d hlit2 total u16 u17 u18 (i, o.clcounts) = some (.inl (i', o'.clcounts)) := by
  have hcount : ∃ count, (if u16 ∨ (S i = 0 ∧ (u17 ∨ u18)) then do
          let s ← lenAt ll d hlit2 (i + 1)
          countRun (lenAt ll d hlit2) total (S i) (i + 1) s 1
        else some 1) = some count ∧ 1 ≤ count ∧ i + count ≤ total ∧ ∀ q, q < count → S (i + q) = S i := by
    split
    · rw [hget (i + 1) (by omega)]
      obtain ⟨r, e, m, h1, h2, h3⟩ := countRun_spec hget (S i) (i + 1) 1 (by omega)
      refine ⟨r, e, by omega, by omega, fun q hq => ?_⟩
      cases q with
      | zero => rfl
      | succ q => rw [← h3 q (by omega)]; congr 1; omega
    · exact ⟨1, rfl, by omega, by omega, fun q hq => by rw [show q = 0 by omega]; rfl⟩
  obtain ⟨count, hce, hc1, hct, hrun⟩ := hcount
  unfold rleEncodeStep sizeStep
  dsimp only
  rw [if_pos hi, if_pos hi, hget i (by omega)]
  simp only [some_bind, hce]
  have hmap := map_range_run hrun
  have hSi := hS i
  generalize hv : S i = v at *
  -- first part: zeros
  have hz : Ret (if v = 0 ∧ count ≥ 3 then do
          let x ← (if u18 then rleLoop18 o count else some (o, count))
          if u17 then rleLoop17 x.1 x.2 else some (x.1, x.2)
        else some (o, count)) fun r => r.2 ≤ count ∧
          (∃ items', Enc r.1 items' ((List.range i).map S ++ List.replicate (count - r.2) v)) ∧
          (if v = 0 ∧ count ≥ 3 then do
            let x ← (if u18 then sizeLoop18 o.clcounts count else some (o.clcounts, count))
            if u17 then sizeLoop17 x.1 x.2 else some (x.1, x.2)
          else some (o.clcounts, count)) = some (r.1.clcounts, r.2) := by
    by_cases hv0 : v = 0 ∧ count ≥ 3
    · rw [if_pos hv0, if_pos hv0]
      obtain ⟨rfl, -⟩ := hv0
      have h18 : Ret (if u18 then rleLoop18 o count else some (o, count)) fun r => r.2 ≤ count ∧
          (∃ items', Enc r.1 items' ((List.range i).map S ++ List.replicate (count - r.2) 0)) ∧
          (if u18 then sizeLoop18 o.clcounts count else some (o.clcounts, count)) = some (r.1.clcounts, r.2) := by
        cases u18 with
        | true => exact rleLoop18_spec h count
        | false => exact Ret.some ⟨Nat.le_refl _, ⟨items, by simpa using h⟩, rfl⟩
      refine Ret.bind' h18 ?_
      rintro ⟨o1, c1⟩ ⟨h1, ⟨items1, h2⟩, h3⟩
      simp only [h3, some_bind]
      dsimp only at h1 h2 ⊢
      cases u17 with
      | true =>
        refine Ret.mono (rleLoop17_spec h2 c1) ?_
        rintro ⟨o2, c2⟩ ⟨h4, ⟨items2, h5⟩, h6⟩
        dsimp only at h4 h5 h6 ⊢
        refine ⟨by omega, ⟨items2, ?_⟩, h6⟩
        rw [List.append_assoc, List.replicate_append_replicate] at h5
        rwa [show count - c1 + (c1 - c2) = count - c2 by omega] at h5
      | false => exact Ret.some ⟨h1, ⟨items1, h2⟩, rfl⟩
    · rw [if_neg hv0, if_neg hv0]
      exact Ret.some ⟨Nat.le_refl _, ⟨items, by simpa using h⟩, rfl⟩
  refine Ret.bind' hz ?_
  rintro ⟨o1, c1⟩ ⟨h1, ⟨items1, h2⟩, h3⟩
  simp only [h3, some_bind]
  dsimp only at h1 h2 ⊢
  -- second part: repeats
  have hr : Ret (if u16 ∧ c1 ≥ 4 then do
          let o ← o1.push v 0
          rleLoop16 o (c1 - 1)
        else some (o1, c1)) fun r => r.2 ≤ c1 ∧
          (∃ items', Enc r.1 items' ((List.range i).map S ++ List.replicate (count - r.2) v)) ∧
          (if u16 ∧ c1 ≥ 4 then do
            let cl ← amod o1.clcounts v (· + 1)
            sizeLoop16 cl (c1 - 1)
          else some (o1.clcounts, c1)) = some (r.1.clcounts, r.2) := by
    by_cases hc : u16 ∧ c1 ≥ 4
    · rw [if_pos hc, if_pos hc]
      refine Ret.bind' (h2.push (s := v) (b := 0) ⟨by dsimp only; omega, Nat.two_pow_pos _⟩ (by simp [rleApply, show v < 16 by omega]; rfl)).and_eq ?_
      rintro o' ⟨ho', e⟩
      simp only [push_counts e, some_bind]
      refine Ret.mono (rleLoop16_spec ho' (p := v) ?_ (c1 - 1)) ?_
      · simp
      rintro ⟨o2, c2⟩ ⟨h4, ⟨items2, h5⟩, h6⟩
      dsimp only at h4 h5 h6 ⊢
      refine ⟨by omega, ⟨items2, ?_⟩, h6⟩
      rw [List.append_assoc, ← List.replicate_succ', List.replicate_append_replicate] at h5
      rwa [show count - c1 + 1 + (c1 - 1 - c2) = count - c2 by omega] at h5
    · rw [if_neg hc, if_neg hc]
      exact Ret.some ⟨Nat.le_refl _, ⟨items1, h2⟩, rfl⟩
  refine Ret.bind' hr ?_
  rintro ⟨o2, c2⟩ ⟨h4, ⟨items2, h5⟩, h6⟩
  simp only [h6, some_bind]
  dsimp only at h4 h5 ⊢
  refine Ret.bind' (rleRest_spec h5 (p := v) (by omega) c2) ?_
  rintro o3 ⟨⟨items3, h7⟩, h8⟩
  simp only [h8, some_bind]
  refine Ret.pure ⟨_, o3, items3, rfl, by omega, by omega, ?_, rfl⟩
  rw [show i + (count - 1) + 1 = i + count by omega, hmap]
  rw [List.append_assoc, List.replicate_append_replicate, show count - c2 + c2 = count by omega] at h7
  exact h7

theorem rleEncode_spec {ll d : Array Nat} {hlit2 total : Nat} {S : Nat → Nat}
    (hget : ∀ i, i ≤ total → lenAt ll d hlit2 i = some (S i)) (hS : ∀ i, S i ≤ 15) (u16 u17 u18 : Bool) :
    Ret (loopM (rleEncodeStep ll d hlit2 total u16 u17 u18) (0, ⟨Array.replicate 19 0, #[], #[]⟩)) fun o =>
      (∃ items, Enc o items ((List.range total).map S)) ∧
      loopM (sizeStep ll d hlit2 total u16 u17 u18) (0, Array.replicate 19 0) = some o.clcounts := by
  refine loopM_spec (fun s => s.1 ≤ total ∧ (∃ items, Enc s.2 items ((List.range s.1).map S)) ∧
    loopM (sizeStep ll d hlit2 total u16 u17 u18) (0, Array.replicate 19 0)
      = loopM (sizeStep ll d hlit2 total u16 u17 u18) (s.1, s.2.clcounts)) (fun s => total - s.1) _ ?_ _ ?_
  · rintro ⟨i, o⟩ ⟨h1, ⟨items, h2⟩, h3⟩
    dsimp only at h1 h2 h3
    by_cases hi : i < total
    · refine Ret.mono (rleEncodeStep_spec hget hS u16 u17 u18 h2 hi) ?_
      rintro r ⟨i', o', items', rfl, h4, h5, h6, h7⟩
      refine ⟨⟨h5, ⟨items', h6⟩, ?_⟩, by dsimp only; omega⟩
      rw [h3, loopM.eq_1, h7]
      rfl
    · have e : i = total := by omega
      subst e
      unfold rleEncodeStep
      dsimp only
      rw [if_neg hi]
      refine Ret.pure ⟨⟨items, h2⟩, ?_⟩
      rw [h3, loopM.eq_1]
      unfold sizeStep
      dsimp only
      rw [if_neg hi]
      rfl
  · refine ⟨Nat.zero_le _, ⟨[], ⟨rfl, rfl, by simp, fun s hs => ?_, by simp, rfl⟩⟩, rfl⟩
    simp [hs]

end Zopfli
