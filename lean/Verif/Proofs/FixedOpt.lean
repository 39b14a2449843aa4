import Verif.Proofs.FixedCost
import Verif.Proofs.LongRuns
import Verif.Props.Matching
import Verif.Proofs.Pieces
/-! # In fixed mode the block is as short as possible -/

namespace Zopfli
open Rfc

/-! ## What a decoder makes of symbols -/

theorem copyBytes_inv {dist : Nat} : ∀ {n : Nat} {out out' : Array UInt8}, copyBytes dist n out = some out' →
    out'.size = out.size + n ∧ (∀ i, i < out.size → out'[i]? = out[i]?) ∧
    (n ≠ 0 → 1 ≤ dist ∧ dist ≤ out.size) ∧ ∀ k, k < n → out'[out.size + k]? = out'[out.size - dist + k]?
  | 0, out, out', h => by cases h; exact ⟨rfl, fun _ _ => rfl, fun h => absurd rfl h, by omega⟩
  | n + 1, out, out', h => by
    rw [copyBytes] at h
    by_cases hd : dist = 0 ∨ out.size < dist
    · rw [if_pos hd] at h
      cases h
    · rw [if_neg hd] at h
      have hlt : out.size - dist < out.size := by omega
      rw [Array.getElem?_eq_getElem hlt] at h
      have h : copyBytes dist n (out.push out[out.size - dist]) = some out' := h
      obtain ⟨h1, h2, h3, h4⟩ := copyBytes_inv h
      rw [Array.size_push] at h1 h2 h4
      have hfirst : out'[out.size]? = out'[out.size - dist]? := by
        rw [h2 _ (by omega), h2 _ (by omega), Array.getElem?_push_size, Array.getElem?_push_lt hlt]
      refine ⟨by omega, fun i hi => ?_, fun _ => by omega, fun k hk => ?_⟩
      · rw [h2 i (by omega), Array.getElem?_push, if_neg (by omega)]
      · cases k with
        | zero => exact hfirst
        | succ k =>
          have := h4 k (by omega)
          rw [show out.size + 1 + k = out.size + (k + 1) by omega, show out.size + 1 - dist + k = out.size - dist + (k + 1) by omega] at this
          exact this

theorem expandSyms_prefix : ∀ {ys : List Sym} {out out' : Array UInt8}, expandSyms out ys = some out' →
    out.size ≤ out'.size ∧ ∀ i, i < out.size → out'[i]? = out[i]?
  | [], out, out', h => by cases h; exact ⟨Nat.le_refl _, fun _ _ => rfl⟩
  | y :: ys, out, out', h => by
    rw [expandSyms, Option.bind_eq_bind, Option.bind_eq_some_iff] at h
    obtain ⟨o1, e1, e2⟩ := h
    obtain ⟨g1, g2⟩ := expandSyms_prefix e2
    have h1 : out.size ≤ o1.size ∧ ∀ i, i < out.size → o1[i]? = out[i]? := by
      cases y with
      | lit b =>
        cases e1
        exact ⟨by simp, fun i hi => by rw [Array.getElem?_push, if_neg (by omega)]⟩
      | copy len dist =>
        rw [expandSym] at e1
        split at e1
        · cases e1
        · obtain ⟨c1, c2, -⟩ := copyBytes_inv e1
          exact ⟨by omega, c2⟩
    exact ⟨by omega, fun i hi => by rw [g2 i (by omega), h1.2 i hi]⟩

/-- Symbols that a decoder expands to the data describe it. -/
theorem expandSyms_parses : ∀ {xs : List LitLen} {out out' : Array UInt8}, expandSyms out (xs.map symOf) = some out' →
    (∀ x ∈ xs, x.InRange) → (∀ len dist, .copy len dist ∈ xs.map symOf → dist ≤ 32767) → Parses out' out.size xs out'.size
  | [], out, out', h, _, _ => by cases h; rfl
  | x :: xs, out, out', h, hr, hd => by
    rw [List.map_cons, expandSyms, Option.bind_eq_bind, Option.bind_eq_some_iff] at h
    obtain ⟨o1, e1, e2⟩ := h
    obtain ⟨g1, g2⟩ := expandSyms_prefix e2
    have hrest := expandSyms_parses e2 (fun y hy => hr y (by simp [hy])) (fun len dist hm => hd len dist (by
      rw [List.map_cons, List.mem_cons]; exact .inr hm))
    have hx := hr x (by simp)
    have : ItemOk out' out.size x ∧ o1.size = out.size + x.size := by
      cases x with
      | literal b =>
        have hb : b < 256 := hx
        cases e1
        refine ⟨⟨UInt8.ofNat b, ?_, ?_⟩, by simp [LitLen.size]⟩
        · rw [g2 _ (by simp), Array.getElem?_push_size]
        · rw [UInt8.toNat_ofNat']
          omega
      | lengthDist len dist =>
        obtain ⟨h1, h2, h3, h4⟩ := hx
        have h5 := hd len dist (by rw [List.map_cons, List.mem_cons]; exact .inl rfl)
        change (if 32768 < dist then none else copyBytes dist len out) = some o1 at e1
        rw [if_neg (by omega)] at e1
        obtain ⟨c1, c2, c3, c4⟩ := copyBytes_inv e1
        have := (c3 (by omega)).2
        refine ⟨⟨h1, h2, h3, h5, this, by omega, fun k hk => ?_⟩, c1⟩
        rw [g2 _ (by omega), g2 _ (by omega)]
        exact c4 k hk
    refine ⟨this.1, ?_⟩
    rw [← this.2]
    exact hrest

/-! ## Data without its beginning -/

theorem get_shift {H : List UInt8} {arr : Array UInt8} (i : Nat) : (H.toArray ++ arr)[H.length + i]? = arr[i]? := by
  rw [Array.getElem?_append_right (by simp)]
  simp

/-- Items that describe the end of the data do not refer to what is far before. -/
theorem Parses.unshift {H : List UInt8} {arr : Array UInt8} : ∀ {xs : List LitLen} {a b : Nat}, (H ≠ [] → 32768 ≤ a) →
    Parses (H.toArray ++ arr) (H.length + a) xs (H.length + b) → Parses arr a xs b
  | [], a, b, _, h => by have : H.length + a = H.length + b := h; show a = b; omega
  | x :: xs, a, b, ha, h => by
    refine ⟨?_, Parses.unshift (fun hne => by have := ha hne; omega) (by rw [← Nat.add_assoc]; exact h.2)⟩
    have h1 := h.1
    cases x with
    | literal v =>
      obtain ⟨u, e, hu⟩ := h1
      rw [get_shift] at e
      exact ⟨u, e, hu⟩
    | lengthDist len dist =>
      obtain ⟨k1, k2, k3, k4, k5, k6, k7⟩ := h1
      rw [Array.size_append, List.size_toArray] at k6
      have hda : dist ≤ a := by
        by_cases hne : H = []
        · subst hne
          simpa using k5
        · have := ha hne
          omega
      refine ⟨k1, k2, k3, k4, hda, by omega, fun k hk => ?_⟩
      have := k7 k hk
      rw [Nat.add_assoc, get_shift, show H.length + a - dist + k = H.length + (a - dist + k) by omega, get_shift] at this
      exact this

theorem runLength_shift {H : List UInt8} {arr : Array UInt8} (p : Nat) : runLength (H.toArray ++ arr) (H.length + p) = runLength arr p := by
  unfold runLength
  rw [get_shift, Array.toList_append]
  simp

theorem hash3_shift {H : List UInt8} {arr : Array UInt8} (p : Nat) : hash3 (H.toArray ++ arr) (H.length + p) = hash3 arr p := by
  unfold hash3
  rw [get_shift, Nat.add_assoc, get_shift, Nat.add_assoc, get_shift]

theorem hash3run_shift {H : List UInt8} {arr : Array UInt8} (p : Nat) : hash3run (H.toArray ++ arr) (H.length + p) = hash3run arr p := by
  unfold hash3run
  rw [runLength_shift, hash3_shift]

theorem startsRun_shift {H : List UInt8} {arr : Array UInt8} {p n : Nat} (hp : 0 < p) (h : ¬ StartsRun (H.toArray ++ arr) (H.length + p) n) : ¬ StartsRun arr p n := by
  rintro ⟨h1, h2⟩
  refine h ⟨by rw [runLength_shift]; exact h1, ?_⟩
  rintro ⟨-, h4⟩
  rw [show H.length + p - 1 = H.length + (p - 1) by omega, get_shift, get_shift] at h4
  exact h2 ⟨hp, h4⟩

theorem startsRun_shift' {H : List UInt8} {arr : Array UInt8} {p n : Nat} (hp : 0 < p) (h : StartsRun arr p n) : StartsRun (H.toArray ++ arr) (H.length + p) n := by
  by_contra hn
  exact startsRun_shift hp hn h

theorem competes_shift {H : List UInt8} {arr : Array UInt8} {p q : Nat} (hp : 0 < p) (h : Competes arr p q) :
    Competes (H.toArray ++ arr) (H.length + p) (H.length + q) := by
  obtain ⟨h1, h2⟩ := h
  refine ⟨by rwa [hash3_shift, hash3_shift, hash3run_shift, hash3run_shift], ?_⟩
  rcases h2 with h | h | ⟨hf, h3⟩
  · exact .inl (startsRun_shift' hp h)
  · exact .inr (.inl (startsRun_shift' hp h))
  · refine .inr (.inr ⟨?_, ?_⟩)
    · intro q' i1 i2 g2
      obtain ⟨d, rfl⟩ : ∃ d, q' = H.length + d := ⟨q' - H.length, by omega⟩
      refine hf d (by omega) (by omega) fun k hk hs => ?_
      have := g2 k hk (by simp only [Array.size_append, List.size_toArray]; omega)
      rwa [Nat.add_assoc, Nat.add_assoc, get_shift, get_shift] at this
    · rw [hash3run_shift, hash3run_shift]
      rcases h3 with h | ⟨n, h, h'⟩ | h
      · exact .inl h
      · exact .inr (.inl ⟨n, h, startsRun_shift' hp h'⟩)
      · refine .inr (.inr ?_)
        rintro q' i1 i2 ⟨g1, g2⟩
        obtain ⟨d, rfl⟩ : ∃ d, q' = H.length + d := ⟨q' - H.length, by omega⟩
        rw [hash3_shift, hash3_shift] at g1
        rw [hash3run_shift, hash3run_shift] at g2
        exact h d (by omega) (by omega) ⟨g1, g2⟩

theorem sharing_shift (H : List UInt8) (arr : Array UInt8) (p : Nat) : sharing arr p ≤ sharing (H.toArray ++ arr) (H.length + p) := by
  unfold sharing
  refine Finset.card_le_card_of_injOn (H.length + ·) ?_ (fun x _ y _ h => by simpa using h)
  intro q hq
  simp only [Finset.coe_filter, Finset.mem_range, Set.mem_ofPred_eq] at hq ⊢
  exact ⟨by omega, by omega, competes_shift (by omega) hq.2.2⟩

/-! ## The costs of the fixed code -/

variable {F : FloatOps}

theorem getCostFixed_lit (R : NatFloat F) (b : Nat) : getCostFixed F b 0 = some (R.e64 (fcost (.literal b))) := by
  unfold getCostFixed
  rw [if_pos rfl, R.of (by split <;> omega)]
  rfl

theorem getCostFixed_copy (R : NatFloat F) {len dist : Nat} (h : (LitLen.lengthDist len dist).InRange) :
    getCostFixed F len dist = some (R.e64 (fcost (.lengthDist len dist))) := by
  have hle := (fcost_copy_le h).2
  obtain ⟨h1, h2, h3, h4⟩ := h
  obtain ⟨s, eb, v, e1, e2, -⟩ := length_spec h1 h2
  rw [fcost_copy] at hle ⊢
  rw [e1, e2] at hle ⊢
  unfold getCostFixed
  simp only [if_neg (show dist ≠ 0 by omega), e1, e2, some_bind, Option.getD_some] at hle ⊢
  rw [R.of (by omega)]
  rfl

theorem getCostFixed_min (R : NatFloat F) : getCostModelMinCost F (getCostFixed F) = some (R.e64 12) := by
  have hc3 : fcost (.lengthDist 3 1) = 12 := by decide +kernel
  have h1 := forRange_spec (f := fun i ((bestlength, mincost) : Nat × F.F64) => do
      let c ← getCostFixed F i 1
      if F.lt c mincost then return (i, c) else return (bestlength, mincost)) (a := 3) (b := 259) (s := (0, F.inf))
    (fun i s => if i = 3 then s = (0, F.inf) else s = (3, R.e64 12)) (by omega) (by rw [if_pos rfl]) (by
      rintro i ⟨bl, mc⟩ hi1 hi2 h
      have hin : (LitLen.lengthDist i 1).InRange := ⟨hi1, by omega, by omega, by omega⟩
      have h12 := (fcost_copy_le hin).1
      refine Ret.mono (P := fun s => s = (3, R.e64 12)) ?_ (fun s hs => by rw [if_neg (by omega)]; exact hs)
      dsimp only
      rw [getCostFixed_copy R hin, some_bind]
      by_cases h3 : i = 3
      · rw [if_pos h3] at h
        cases h
        rw [R.lt_inf, if_pos rfl]
        subst h3
        rw [hc3]
        exact ⟨_, rfl, rfl⟩
      · rw [if_neg h3] at h
        cases h
        rw [if_neg (by rw [R.lt64]; omega)]
        exact ⟨_, rfl, rfl⟩)
  obtain ⟨⟨bl, mc⟩, e1, hb⟩ := h1
  rw [if_neg (by omega)] at hb
  cases hb
  have hd : ∀ i, i < 30 → ∃ d, dsymbols[i]? = some d ∧ 1 ≤ d ∧ d ≤ 32768 := by decide
  have h2 := forRange_spec (f := fun i ((bestdist, mincost) : Nat × F.F64) => do
      let dsym ← dsymbols[i]?
      let c ← getCostFixed F 3 dsym
      if F.lt c mincost then return (dsym, c) else return (bestdist, mincost)) (a := 0) (b := dsymbols.size) (s := (0, F.inf))
    (fun i s => if i = 0 then s = (0, F.inf) else s = (1, R.e64 12)) (by omega) (by rw [if_pos rfl]) (by
      rintro i ⟨bl, mc⟩ hi1 hi2 h
      obtain ⟨d, e, hd1, hd2⟩ := hd i hi2
      have hin : (LitLen.lengthDist 3 d).InRange := ⟨by omega, by omega, hd1, hd2⟩
      have h12 := (fcost_copy_le hin).1
      refine Ret.mono (P := fun s => s = (1, R.e64 12)) ?_ (fun s hs => by rw [if_neg (by omega)]; exact hs)
      dsimp only
      rw [e, some_bind, getCostFixed_copy R hin, some_bind]
      by_cases h3 : i = 0
      · rw [if_pos h3] at h
        cases h
        rw [R.lt_inf, if_pos rfl]
        subst h3
        have : d = 1 := by
          have : dsymbols[0]? = some 1 := rfl
          rw [this] at e
          exact (Option.some.inj e).symm
        subst this
        rw [hc3]
        exact ⟨_, rfl, rfl⟩
      · rw [if_neg h3] at h
        cases h
        rw [if_neg (by rw [R.lt64]; omega)]
        exact ⟨_, rfl, rfl⟩)
  obtain ⟨⟨bd, mc2⟩, e2, hb2⟩ := h2
  rw [if_neg (by decide)] at hb2
  cases hb2
  unfold getCostModelMinCost
  rw [e1, some_bind]
  dsimp only
  rw [e2, some_bind]
  dsimp only
  rw [getCostFixed_copy R (len := 3) (dist := 1) ⟨by omega, by omega, by omega, by omega⟩, hc3]

/-- The item a step of length `k` at `pos` stands for. -/
def itemOf (arr : Array UInt8) (O : Oracle) (pos k : Nat) : LitLen :=
  if k < 3 then .literal ((arr[pos]?).getD 0).toNat else .lengthDist k (O.D pos k)

theorem IsOracle.inRange {arr : Array UInt8} {ws : Nat} {O : Oracle} (hO : IsOracle arr ws O) {pos k : Nat} (hp : ws ≤ pos) (h3 : 3 ≤ k) (hk : k ≤ O.L pos) :
    (LitLen.lengthDist k (O.D pos k)).InRange := by
  have htm := hO.tm pos k hp (by omega) hk
  have := htm.d1
  have := htm.d2
  have := htm.d3
  have := hO.le pos
  exact ⟨h3, by omega, by omega, by omega⟩

theorem fixedWeights (R : NatFloat F) {arr : Array UInt8} {ws : Nat} {O : Oracle} (hO : IsOracle arr ws O) {instart : Nat} (hws : ws ≤ instart) :
    Weights R (getCostFixed F) 12 arr O instart (fun pos k => fcost (itemOf arr O pos k)) where
  min := getCostFixed_min R
  small := by norm_num
  lit pos h := by
    have : itemOf arr O pos 1 = .literal arr[pos].toNat := by
      rw [itemOf, if_pos (by omega), Array.getElem?_eq_getElem h]
      rfl
    rw [this]
    exact ⟨getCostFixed_lit R _, fcost_lit_le _⟩
  copy pos k hp h3 hk := by
    have hin := hO.inRange (by omega) h3 hk
    have : itemOf arr O pos k = .lengthDist k (O.D pos k) := by rw [itemOf, if_neg (by omega)]
    rw [this]
    exact ⟨getCostFixed_copy R hin, fcost_copy_le hin⟩

theorem itemsAlong_cost (arr : Array UInt8) (O : Oracle) : ∀ (ks : List Nat) (pos : Nat),
    ((itemsAlong arr O pos ks).map fcost).sum = pathCost (fun pos k => fcost (itemOf arr O pos k)) pos ks
  | [], _ => rfl
  | k :: ks, pos => by
    rw [itemsAlong, List.map_cons, List.sum_cons, itemsAlong_cost arr O ks]
    rfl

/-- What is asked of the data at the position. -/
structure Plain (arr : Array UInt8) (pos : Nat) : Prop where
  few : sharing arr pos ≤ 8192
  r257 : 0 < pos → ¬ StartsRun arr pos 257
  r258 : 0 < pos → ¬ StartsRun arr pos 258

theorem Plain.best {arr : Array UInt8} {ws pos : Nat} {O : Oracle} (hO : IsOracle arr ws O) (hws : ws + 32767 ≤ pos ∨ ws = 0) (hwp : ws ≤ pos) (h : Plain arr pos) {len dist : Nat}
    (hi : ItemOk arr pos (.lengthDist len dist)) : len ≤ O.L pos ∧ O.D pos len ≤ dist := by
  obtain ⟨k1, k2, k3, k4, k5, k6, k7⟩ := hi
  obtain ⟨c1, c2⟩ := oracle_complete hO hwp (by omega) (Nat.le_trans (sharers_card (by omega)) h.few)
  have hrl := sameLen_runLength (data := arr) (q := pos) (by omega)
  have hcor : corner arr ws pos = 0 := by
    unfold corner
    rw [if_neg]
    rintro ⟨hs, hp⟩
    by_cases hb : 0 < pos ∧ arr[pos - 1]? = arr[pos]?
    · have hr : ws < pos := by omega
      exact hp ⟨hr, hb.2⟩
    · rcases hs with hs | hs
      · exact h.r257 (by omega) ⟨by omega, hb⟩
      · exact h.r258 (by omega) ⟨by omega, hb⟩
  have hw : InWindow ws pos (pos - dist) := ⟨by omega, by omega, by omega⟩
  have hg := c1 (pos - dist) len hw k1 k2 k6 k7
  have hl : len ≤ O.L pos := by
    unfold Good at hg
    omega
  refine ⟨hl, ?_⟩
  by_contra hlt
  have := (c2 len k1 hl (pos - dist) hw (by omega) k7).1
  omega

theorem competitor {arr : Array UInt8} {ws instart : Nat} {O : Oracle} (hO : IsOracle arr ws O) (hws : ws + 32767 ≤ instart ∨ ws = 0) (hwp : ws ≤ instart)
    (hp : ∀ pos, instart ≤ pos → pos < arr.size → Plain arr pos) : ∀ (xs : List LitLen) (a : Nat), instart ≤ a → Parses arr a xs arr.size →
      PathOk O a (xs.map LitLen.size) arr.size ∧
      pathCost (fun pos k => fcost (itemOf arr O pos k)) a (xs.map LitLen.size) ≤ (xs.map fcost).sum
  | [], a, _, h => ⟨h, by simp [pathCost]⟩
  | x :: xs, a, ha, h => by
    obtain ⟨g1, g2⟩ := competitor hO hws hwp hp xs (a + x.size) (by omega) h.2
    have hle := h.1.le
    have h1 := LitLen.size_pos h.1
    have key : (x.size = 1 ∨ 3 ≤ x.size ∧ x.size ≤ O.L a) ∧ fcost (itemOf arr O a x.size) ≤ fcost x := by
      cases x with
      | literal v =>
        obtain ⟨u, e, rfl⟩ := h.1
        exact ⟨.inl rfl, by rw [itemOf, if_pos (by simp [LitLen.size]), e]; exact Nat.le_refl _⟩
      | lengthDist len dist =>
        obtain ⟨b1, b2⟩ := (hp a ha (by omega)).best hO (by omega) (by omega) h.1
        obtain ⟨k1, k2, k3, k4, k5, k6, k7⟩ := h.1
        refine ⟨.inr ⟨k1, b1⟩, ?_⟩
        rw [show LitLen.size (.lengthDist len dist) = len from rfl, itemOf, if_neg (by omega), fcost_copy, fcost_copy]
        have := getDistExtraBits_mono (hO.tm a len (by omega) (by omega) b1).d1 b2 (by omega)
        omega
    refine ⟨⟨key.1, g1⟩, ?_⟩
    rw [List.map_cons, List.map_cons, List.sum_cons, pathCost]
    omega

/-- In a run, distance 1 is found. -/
theorem Plain.run {arr : Array UInt8} {ws r j : Nat} {O : Oracle} (hO : IsOracle arr ws O) (hr : Run arr r j) {p k : Nat} (hws : ws + 32767 ≤ p ∨ ws = 0) (hwp : ws ≤ p)
    (h : Plain arr p) (h1 : r < p) (h3 : 3 ≤ k) (hk : k ≤ 258) (hj : p + k ≤ r + j + 1) : k ≤ O.L p ∧ O.D p k = 1 := by
  have hsz := hr.1
  have hget : ∀ x, r ≤ x → x ≤ r + j → arr[x]? = arr[r]? := fun x a b => by
    have := hr.2 (x - r) (by omega)
    rwa [show r + (x - r) = x by omega] at this
  obtain ⟨b1, b2⟩ := h.best hO hws hwp (len := k) (dist := 1) ⟨h3, hk, by omega, by omega, by omega, by omega, fun i hi => by
    rw [hget (p + i) (by omega) (by omega), hget (p - 1 + i) (by omega) (by omega)]⟩
  have := (hO.tm p k hwp (by omega) b1).d1
  exact ⟨b1, by omega⟩

theorem lit_cost (b : Nat) : fcost (.literal b) = 8 ∨ fcost (.literal b) = 9 := by
  show (if b ≤ 143 then 8 else 9) = 8 ∨ (if b ≤ 143 then 8 else 9) = 9
  split <;> omega

theorem blocks_of {arr : Array UInt8} {ws instart i : Nat} {O : Oracle} {ts : List Nat} (hO : IsOracle arr ws O) (hws : ws + 32767 ≤ instart ∨ ws = 0) (hwp : ws ≤ instart)
    (hp : ∀ pos, instart ≤ pos → pos < arr.size → Plain arr pos) (hts : SkipsOk arr instart i ts) :
    Blocks O (fun pos k => fcost (itemOf arr O pos k)) ts arr.size where
  gap := by
    have := hts.gap
    generalize ts = ts at this
    induction ts with
    | nil => intro t h; cases h
    | cons x ts ih =>
      rw [List.pairwise_cons] at this
      intro t ht t' ht'
      rcases List.mem_cons.mp ht with e | h <;> rcases List.mem_cons.mp ht' with e' | h'
      · exact .inl (by rw [e, e'])
      · rw [e]; exact .inr (.inr (this.1 t' h'))
      · rw [e']; exact .inr (.inl (this.1 t h))
      · exact ih this.2 t h t' h'
  run t ht := by
    obtain ⟨a1, a2, a3, -⟩ := hts.run t ht
    have hq : t - 258 < arr.size := by omega
    have hlt := (run_iff (data := arr) (q := t - 258) 775 hq).mp a3
    generalize hrl : runLength arr (t - 258) = rl at hlt
    obtain ⟨n, rfl⟩ : ∃ n, rl = n + 1 := by
      cases rl with
      | zero => omega
      | succ n => exact ⟨n, rfl⟩
    have hrun := (run_iff (data := arr) (q := t - 258) n hq).mpr (by rw [hrl]; omega)
    have hsz := hrun.1
    obtain ⟨c, hc⟩ : ∃ c, arr[t - 258]? = some c := ⟨_, Array.getElem?_eq_getElem hq⟩
    have h258 : 258 ≤ t := by omega
    have h518 : t + 518 ≤ t - 258 + n + 1 := by omega
    refine ⟨h258, t - 258 + n + 1, fcost (.literal c.toNat), ⟨lit_cost _, ?_, ?_⟩, h518, hsz, ?_⟩
    · intro p p1 p2
      have := hrun.2 (p - (t - 258)) (by omega)
      rw [show t - 258 + (p - (t - 258)) = p by omega, hc] at this
      rw [itemOf, if_pos (by omega), this]
      rfl
    · intro p k p1 k1 k2 k3
      obtain ⟨b1, b2⟩ := Plain.run hO hrun (p := p) (k := k) (by omega) (by omega) (hp p (by omega) (by omega)) p1 k1 k2 (by omega)
      exact ⟨b1, by rw [itemOf, if_neg (by omega), b2, rcost_eq k (by omega) k1]⟩
    · intro t' ht' h1 h2
      obtain ⟨b1, b2, b3, -⟩ := hts.run t' ht'
      have : Run arr (t - 258) (t' + 517 - (t - 258)) := by
        refine ⟨by omega, fun j hj => ?_⟩
        by_cases hj2 : j ≤ n
        · exact hrun.2 j hj2
        · have e1 := b3.2 (t - 258 + j - (t' - 258)) (by omega)
          have e2 := b3.2 258 (by omega)
          have e3 := hrun.2 (t' - (t - 258)) (by omega)
          rw [show t' - 258 + (t - 258 + j - (t' - 258)) = t - 258 + j by omega] at e1
          rw [show t' - 258 + 258 = t' by omega] at e2
          rw [show t - 258 + (t' - (t - 258)) = t' by omega] at e3
          rw [e1, ← e2, e3]
      have := (run_iff (data := arr) (q := t - 258) _ hq).mp this
      rw [hrl] at this
      omega

theorem xinv_start (R : NatFloat F) (W : Nat → Nat → Nat) {arr : Array UInt8} (O : Oracle) {instart : Nat} (_hle : instart ≤ arr.size) (hc) :
    XInv R W arr O instart instart ((Array.replicate (arr.size - instart + 1) F.inf32).set 0 F.zero32 hc) (Array.replicate (arr.size - instart + 1) 0) := by
  have hn0 : ∀ (x k : Nat), (Array.replicate (arr.size - instart + 1) 0)[x]? = some k → k = 0 := by
    intro x k hx
    rw [Array.getElem?_replicate] at hx
    split at hx
    · cases hx; rfl
    · cases hx
  refine ⟨[], fun x => if x = 0 then some 0 else none, ⟨by simp, by simp⟩, ⟨by simp, by simp, ?_, rfl, ?_, ?_, ?_, ?_⟩⟩
  · intro x hx
    rw [Array.getElem?_set]
    by_cases h0 : x = 0
    · subst h0
      simp [R.zero]
    · rw [if_neg (by omega), if_neg h0, Array.getElem?_replicate, if_pos (by omega), R.inf]
  · intro x m hx
    split at hx
    · cases hx; omega
    · cases hx
  · intro x m h0 hx
    rw [if_neg (by omega)] at hx
    cases hx
  · intro x k hx hk
    exact absurd (hn0 x k hx) hk
  · rintro j k ⟨h, -⟩
    omega

/-- A run of the optimal parser with the costs of the fixed code. -/
theorem fixedRun_optimal (R : NatFloat F) (L : FloatLaws F) {O : Oracle} {data : Array UInt8} {instart inend : Nat}
    (hO : IsOracle (data.extract 0 inend) (instart - 32768) O) (h1 : instart ≤ inend) (h2 : inend ≤ data.size) (hn : 9 * (inend - instart) < 2 ^ 24)
    (hp : ∀ pos, instart ≤ pos → pos < inend → Plain (data.extract 0 inend) pos) :
    CRet (data.extract 0 inend) O instart (fun lmc => lz77OptimalRun F lmc data instart inend (getCostFixed F) Lz77Store.new)
      (fun s => StoreOk data instart inend s ∧ ∀ xs, Parses (data.extract 0 inend) instart xs inend → (s.litlens.toList.map fcost).sum ≤ (xs.map fcost).sum) := by
  have hsz : (data.extract 0 inend).size = inend := by rw [Array.size_extract]; omega
  have hW := fixedWeights R hO (instart := instart) (Nat.sub_le _ _)
  obtain ⟨la, ⟨hla, costs, hx⟩, g1⟩ := getBestLengths_inv (L := L) hO (costFixed_ok L) h1 h2
    (XInv R (fun pos k => fcost (itemOf (data.extract 0 inend) O pos k)) (data.extract 0 inend) O instart)
    (fun hc => by
      have := xinv_start R (fun pos k => fcost (itemOf (data.extract 0 inend) O pos k)) O (arr := data.extract 0 inend) (instart := instart) (by omega)
      simp only [hsz] at this
      exact this hc)
    (by
      intro mc b b' e hb hlt hX hs
      rw [hW.min] at e
      cases e
      refine step_opt hO hW (by rw [hsz]; exact hn) (Nat.sub_le _ _) ?_ hb (by rw [hsz]; exact hlt) hX hs
      intro t ht1 ht2 hr k hk
      exact (Plain.run hO hr (p := t + k) (k := 258) (by omega) (by omega) (hp (t + k) (by omega) (by omega)) (by omega) (by omega) (by omega) (by omega)).2)
  obtain ⟨path, e, hpath⟩ := traceFrom_spec hO.le hla (inend - instart) (Nat.le_refl _)
  rw [show instart + (inend - instart) = inend by omega] at hpath
  obtain ⟨s, hs, g2⟩ := followPath_spec hO h1 h2 hpath
  refine ⟨s, ⟨hs.1, fun xs hxs => ?_⟩, fun lmc hc => ?_⟩
  · obtain ⟨ts, g, hts, hX⟩ := hx
    obtain ⟨c1, c2⟩ := competitor hO (by omega) (Nat.sub_le _ _) (fun pos a b => hp pos a (by omega)) xs instart (Nat.le_refl _) (by rw [hsz]; exact hxs)
    have hB := blocks_of hO (by omega) (Nat.sub_le _ _) (fun pos a b => hp pos a (by omega)) hts
    obtain ⟨ks, c3, c4, c5⟩ := tried_enough hB hO.le _ instart _ (Nat.le_refl _) (by
      rintro t ht ⟨h, -⟩
      have := (hts.run t ht).1
      omega) c1
    rw [hsz] at c3
    obtain ⟨m, e1, e2⟩ := path_le hX ks 0 0 hX.zero (by rw [Nat.add_zero]; exact c3) (by rw [Nat.add_zero]; exact c4)
    obtain ⟨-, e3⟩ := trace_cost hX (inend - instart) path e
    rw [e1] at e3
    have e3 := Option.some.inj e3
    rw [hs.2, itemsAlong_cost, ← e3]
    rw [Nat.add_zero] at e2
    omega
  · obtain ⟨lmc', hc', e1⟩ := g1 lmc hc
    obtain ⟨lmc2, hc2, e2⟩ := g2 lmc' hc'
    refine ⟨lmc2, hc2, ?_⟩
    show lz77OptimalRun _ _ _ _ _ _ _ = _
    have e1 : getBestLengths F lmc data instart inend (getCostFixed F) = some (la, lmc') := e1
    rw [lz77OptimalRun, e1, some_bind]
    dsimp only
    rw [trace, e, some_bind]
    exact e2

end Zopfli
