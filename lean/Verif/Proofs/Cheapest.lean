import Verif.Proofs.FixedOpt
import Verif.Proofs.Rounding
/-! # With rounded costs the optimal parser is optimal up to rounding -/

namespace Zopfli
open Fp

/-- Relative tolerance of one step. -/
def tolU : ℚ := 1 / 2 ^ 23

/-- Absolute tolerance of one step. -/
def tolD : ℚ := 1 / 2 ^ 32

def hiQ (t : ℚ) : ℚ := (1 + tolU) * t + tolD
def loQ (t : ℚ) : ℚ := (1 - tolU) * t - tolD

/-- A computed cost of an item and the ideal one. -/
structure NearW (c w : ℚ) : Prop where
  c0 : 0 ≤ c
  w0 : 0 ≤ w
  c1 : c ≤ 2 ^ 10
  lo : w - w / 2 ^ 48 - 1 / 2 ^ 90 ≤ c
  hi : c ≤ w + w / 2 ^ 48 + 1 / 2 ^ 90

variable {log2 : Fp → Fp}

/-- The cost of a step. -/
theorem step_near {c w m x : ℚ} (h : NearW c w) (hm0 : 0 ≤ m) (hx : round64 (c + m) = .fin x) :
    0 ≤ x ∧ x ≤ hiQ (m + w) ∧ ∀ v, round32 x = .fin v → 0 ≤ v ∧ v ≤ hiQ (m + w) ∧ loQ (m + w) ≤ v := by
  have h1 := round64_rel' hx
  have x0 : 0 ≤ x := round_nonneg (by linarith [h.c0]) hx
  rw [abs_of_nonneg (by linarith [h.c0] : (0 : ℚ) ≤ c + m), abs_le] at h1
  have := h.lo
  have := h.hi
  have := h.w0
  unfold hiQ loQ tolU tolD
  refine ⟨x0, by linarith [h1.2], fun v hv => ?_⟩
  have h2 := round32_rel hv
  have v0 : 0 ≤ v := round_nonneg x0 hv
  rw [abs_of_nonneg x0, abs_le] at h2
  exact ⟨v0, by linarith [h1.2, h2.2], by linarith [h1.1, h2.1]⟩

/-- The bound used for pruning. -/
theorem prune_near {mc w m x : ℚ} (h0 : 0 ≤ mc) (hw : 0 ≤ w) (hle : mc ≤ w + 1 / 2 ^ 34) (hm0 : 0 ≤ m) (hx : round64 (mc + m) = .fin x) : x ≤ hiQ (m + w) := by
  have h1 := round64_rel' hx
  rw [abs_of_nonneg (by linarith : (0 : ℚ) ≤ mc + m), abs_le] at h1
  unfold hiQ tolU tolD
  linarith [h1.2]

theorem sum_fin {c m : ℚ} (hc0 : 0 ≤ c) (hc : c ≤ 2 ^ 10) (hm0 : 0 ≤ m) (hm : m ≤ 2 ^ 40) : ∃ x v, round64 (c + m) = .fin x ∧ round32 x = .fin v ∧ v ≤ 2 ^ 40 := by
  have h1 : |c + m| ≤ (2 ^ 30 + 1 : ℤ) * 2 ^ (10 : ℤ) := by
    rw [abs_of_nonneg (by linarith)]
    norm_num
    linarith
  obtain ⟨x, hx, hx'⟩ := round_bound (p := 53) (emin := -1074) (emax := 1024) (k := 10) (m := 2 ^ 30 + 1) (q := c + m) (by norm_num) (by norm_num)
    (by norm_num) (lt_big (by norm_num)) h1
  obtain ⟨v, hv, hv'⟩ := round32_absorb (q := x) (by
    refine le_trans hx' ?_
    norm_num)
  exact ⟨x, v, hx, hv, le_trans (le_abs_self v) hv'⟩

/-- Ideal weights `W pos k` of the steps of length `k` at `pos`, which the cost model gives nearly. -/
structure QWeights (log2 : Fp → Fp) (cm : Nat → Nat → Option Fp) (mc : ℚ) (arr : Array UInt8) (O : Oracle) (instart : Nat)
    (W : Nat → Nat → ℚ) : Prop where
  min : getCostModelMinCost (ieee log2) cm = some (.fin mc)
  mc0 : 0 ≤ mc
  mc1 : mc ≤ 2 ^ 10
  lit : ∀ pos (h : pos < arr.size), ∃ c, cm arr[pos].toNat 0 = some (.fin c) ∧ NearW c (W pos 1)
  copy : ∀ pos k, instart ≤ pos → 3 ≤ k → k ≤ O.L pos → ∃ c, cm k (O.D pos k) = some (.fin c) ∧ NearW c (W pos k) ∧ mc ≤ W pos k + 1 / 2 ^ 34

def encQ : Option ℚ → Fp
  | none => .inf false
  | some m => .fin m

/-- The costs `g` are nearly those of paths recorded in `la`, and nearly satisfy the triangle inequality for the steps in `E`; both
concern steps from positions before `J` only. -/
structure QG (W : Nat → Nat → ℚ) (instart n : Nat) (E : Nat → Nat → Prop) (J : Nat) (g : Nat → Option ℚ) (costs : Array Fp) (la : Array Nat) : Prop where
  cs : costs.size = n + 1
  ls : la.size = n + 1
  emb : ∀ x, x ≤ n → costs[x]? = some (encQ (g x))
  zero : g 0 = some 0
  ok : ∀ x m, g x = some m → 0 ≤ m ∧ m ≤ 2 ^ 40 ∧ ∃ y, round32 y = .fin m
  C : ∀ x k, la[x]? = some k → k ≠ 0 → k ≤ x ∧ k ≤ 258 ∧ x - k < J ∧ ∃ m v, g (x - k) = some m ∧ g x = some v ∧ loQ (m + W (instart + (x - k)) k) ≤ v
  D : ∀ j k, E j k → j < J ∧ ∃ m m', g j = some m ∧ g (j + k) = some m' ∧ m' ≤ hiQ (m + W (instart + j) k)

variable {W : Nat → Nat → ℚ} {instart n : Nat} {E : Nat → Nat → Prop} {J : Nat} {g : Nat → Option ℚ} {costs : Array Fp} {la : Array Nat}

theorem QG.mono (h : QG W instart n E J g costs la) {J' : Nat} (hJ : J ≤ J') : QG W instart n E J' g costs la where
  cs := h.cs
  ls := h.ls
  emb := h.emb
  zero := h.zero
  ok := h.ok
  C x k h1 h2 := by
    obtain ⟨a, a', b, c⟩ := h.C x k h1 h2
    exact ⟨a, a', by omega, c⟩
  D j k h1 := by
    obtain ⟨a, b⟩ := h.D j k h1
    exact ⟨by omega, b⟩

theorem QG.sub (h : QG W instart n E J g costs la) {E' : Nat → Nat → Prop} (hE : ∀ j k, E' j k → E j k) : QG W instart n E' J g costs la :=
  { h with D := fun j k h1 => h.D j k (hE j k h1) }

theorem QG.keep (h : QG W instart n E J g costs la) {j k : Nat} {m m' : ℚ} (hj : j < J) (h1 : g j = some m) (h2 : g (j + k) = some m')
    (h3 : m' ≤ hiQ (m + W (instart + j) k)) : QG W instart n (fun a b => E a b ∨ (a = j ∧ b = k)) J g costs la :=
  { h with
    D := by
      rintro a b (hab | ⟨rfl, rfl⟩)
      · exact h.D a b hab
      · exact ⟨hj, m, m', h1, h2, h3⟩ }

theorem QG.set (h : QG W instart n E J g costs la) {j k : Nat} {m v : ℚ} (hj : j < J) (hJ : J ≤ j + k) (hn : j + k ≤ n) (hk : k ≠ 0) (hk2 : k ≤ 258)
    (h1 : g j = some m) (hv0 : 0 ≤ v) (hv1 : v ≤ 2 ^ 40) (hrep : ∃ y, round32 y = .fin v) (hhi : v ≤ hiQ (m + W (instart + j) k))
    (hlo : loQ (m + W (instart + j) k) ≤ v) (h2 : ∀ m', g (j + k) = some m' → v ≤ m') :
    ∃ costs' la', aset costs (j + k) (Fp.fin v) = some costs' ∧ aset la (j + k) k = some la' ∧
      QG W instart n (fun a b => E a b ∨ (a = j ∧ b = k)) J (fun x => if x = j + k then some v else g x) costs' la' := by
  have s1 : j + k < costs.size := by rw [h.cs]; omega
  have s2 : j + k < la.size := by rw [h.ls]; omega
  have hla : ∀ x, (la.set (j + k) k s2)[x]? = if x = j + k then some k else la[x]? := by
    intro x
    rw [Array.getElem?_set]
    by_cases hx : x = j + k
    · subst hx; simp
    · rw [if_neg (by omega), if_neg hx]
  refine ⟨_, _, aset_eq s1 _, aset_eq s2 _, ⟨by simp [h.cs], by simp [h.ls], ?_, ?_, ?_, ?_, ?_⟩⟩
  · intro x hx
    rw [Array.getElem?_set]
    by_cases hxe : x = j + k
    · subst hxe; simp [encQ]
    · rw [if_neg (by omega), if_neg hxe, h.emb x hx]
  · rw [if_neg (by omega), h.zero]
  · intro x m' hx
    split at hx
    · cases hx
      exact ⟨hv0, hv1, hrep⟩
    · exact h.ok x m' hx
  · intro x k' hx hk'
    rw [hla] at hx
    split at hx
    · rename_i hxe
      cases hx
      subst hxe
      rw [show j + k - k = j by omega, if_neg (by omega), if_pos rfl, h1]
      exact ⟨by omega, hk2, hj, m, v, rfl, rfl, hlo⟩
    · rename_i hxe
      obtain ⟨a1, a1', a2, m', v', a3, a4, a5⟩ := h.C x k' hx hk'
      refine ⟨a1, a1', a2, m', v', ?_, ?_, a5⟩
      · rw [if_neg (by omega)]; exact a3
      · rw [if_neg hxe]; exact a4
  · intro a b hab
    rcases hab with hab | ⟨rfl, rfl⟩
    · obtain ⟨a1, m1, m2, a2, a3, a4⟩ := h.D a b hab
      refine ⟨a1, m1, ?_⟩
      by_cases hab2 : a + b = j + k
      · rw [hab2] at a3
        have := h2 m2 a3
        refine ⟨v, ?_, ?_, by linarith⟩
        · rw [if_neg (by omega)]; exact a2
        · rw [if_pos hab2]
      · refine ⟨m2, ?_, ?_, a4⟩
        · rw [if_neg (by omega)]; exact a2
        · rw [if_neg hab2]; exact a3
    · refine ⟨hj, m, v, ?_, ?_, hhi⟩
      · rw [if_neg (by omega)]; exact h1
      · rw [if_pos rfl]

def AfterQ (g g' : Nat → Option ℚ) (j : Nat) : Prop := ∀ x, x ≤ j → g' x = g x

theorem lt_encQ {x : ℚ} {o : Option ℚ} : Fp.lt (.fin x) (encQ o) = true ↔ ∀ m, o = some m → x < m := by
  cases o <;> simp [encQ, Fp.lt]

theorem le_encQ {x : ℚ} {o : Option ℚ} : Fp.le (encQ o) (.fin x) = true ↔ ∃ m, o = some m ∧ m ≤ x := by
  cases o <;> simp [encQ, Fp.le]

theorem QG.rep_le (h : QG W instart n E J g costs la) {x : Nat} {q v : ℚ} (h0 : 0 ≤ q) (hlt : ∀ m, g x = some m → q < m) (hv : round32 q = .fin v) :
    ∀ m, g x = some m → v ≤ m := by
  intro m hm
  obtain ⟨-, -, y, hy⟩ := h.ok x m hm
  exact round_le_rounded (by norm_num) h0 hy (hlt m hm).le hv

/-- `tryLiteral` when what it reads is known. -/
theorem tryLiteral_read (F : FloatOps) {cm : Nat → Nat → Option F.F64} {arr : Array UInt8} {pos j : Nat} {costs : Array F.F32} {la : Array Nat} (hi : pos < arr.size)
    {c : F.F64} {a b : F.F32} (hc : cm arr[pos].toNat 0 = some c) (ha : costs[j]? = some a) (hb : costs[j + 1]? = some b)
    (hok : F.costOk (F.add c (F.toF64 a)) = true) :
    tryLiteral F cm arr pos j costs la = if F.lt (F.add c (F.toF64 a)) (F.toF64 b) = true then
      (aset costs (j + 1) (F.toF32 (F.add c (F.toF64 a))) >>= fun co => aset la (j + 1) 1 >>= fun l => some (co, l)) else some (costs, la) := by
  unfold tryLiteral
  simp only [Array.getElem?_eq_getElem hi, some_bind, hc, ha, hb, guardR_eq hok]
  rfl

/-- One round of `tryLengths`. -/
def lenStep (F : FloatOps) (costmodel : Nat → Nat → Option F.F64) (p : F.F64) (sublen : Array Nat) (j k : Nat) (costs : Array F.F32)
    (la : Array Nat) : Option (Array F.F32 × Array Nat) := do
  if F.le (F.toF64 (← costs[j + k]?)) p then return (costs, la)
  else do
    let newCost := F.add (← costmodel k (← sublen[k]?)) (F.toF64 (← costs[j]?))
    guardR (F.costOk newCost)
    if F.lt newCost (F.toF64 (← costs[j + k]?)) then do
      guardR (k ≤ MAX_MATCH)
      return (← aset costs (j + k) (F.toF32 newCost), ← aset la (j + k) k)
    else return (costs, la)

theorem tryLengths_eq (F : FloatOps) (cm : Nat → Nat → Option F.F64) (p : F.F64) (sublen : Array Nat) (kend j : Nat) (costs : Array F.F32) (la : Array Nat) :
    tryLengths F cm p sublen kend j costs la = forRange 3 (min (kend + 1) sublen.size) (costs, la) fun k st => lenStep F cm p sublen j k st.1 st.2 := rfl

theorem lenStep_read (F : FloatOps) {cm : Nat → Nat → Option F.F64} {sublen : Array Nat} {d k j : Nat} {costs : Array F.F32} {la : Array Nat} {c p : F.F64} {a b : F.F32}
    (hd : sublen[k]? = some d) (hc : cm k d = some c) (ha : costs[j]? = some a) (hb : costs[j + k]? = some b) (hk : k ≤ MAX_MATCH)
    (hok : F.costOk (F.add c (F.toF64 a)) = true) :
    lenStep F cm p sublen j k costs la = if F.le (F.toF64 b) p = true then some (costs, la) else
      if F.lt (F.add c (F.toF64 a)) (F.toF64 b) = true then
      (aset costs (j + k) (F.toF32 (F.add c (F.toF64 a))) >>= fun co => aset la (j + k) k >>= fun l => some (co, l)) else some (costs, la) := by
  unfold lenStep
  simp only [some_bind, hd, hc, ha, hb, guardR_eq hok, guardR_eq (show decide (k ≤ MAX_MATCH) = true by simpa using hk)]
  rfl

theorem Ret.subst {α : Type} {x y : Option α} {P : α → Prop} (h : x = y) (hy : Ret y P) : Ret x P := h ▸ hy

theorem bind_set {α : Type} {a : Option (Array α)} {b : Option (Array Nat)} {a' : Array α} {b' : Array Nat} (ha : a = some a') (hb : b = some b') :
    (a >>= fun co => b >>= fun l => some (co, l)) = some (a', b') := by
  subst ha hb; rfl

theorem tryLiteral_near {cm : Nat → Nat → Option Fp} {mc : ℚ} {arr : Array UInt8} {O : Oracle}
    (hW : QWeights log2 cm mc arr O instart W) (h : QG W instart n E J g costs la) {j : Nat} {m : ℚ} (hJ : J = j + 1) (hjn : j + 1 ≤ n)
    (hi : instart + j < arr.size) (hg : g j = some m) {costs' : Array Fp} {la' : Array Nat}
    (e : tryLiteral (ieee log2) cm arr (instart + j) j costs la = some (costs', la')) :
    ∃ g', QG W instart n (fun a b => E a b ∨ (a = j ∧ b = 1)) J g' costs' la' ∧ AfterQ g g' j := by
  obtain ⟨c, c1, c2⟩ := hW.lit (instart + j) hi
  obtain ⟨m0, m1, -⟩ := h.ok j m hg
  obtain ⟨x, v, hx, hv, hv1⟩ := sum_fin c2.c0 c2.c1 m0 m1
  obtain ⟨x0, x1, hvv⟩ := step_near c2 m0 hx
  obtain ⟨v0, v1, v2⟩ := hvv v hv
  have ea := h.emb j (by omega)
  rw [hg] at ea
  rw [tryLiteral_read (ieee log2) hi c1 ea (h.emb (j + 1) hjn) rfl] at e
  rw [show (ieee log2).add (.fin c) ((ieee log2).toF64 (encQ (some m))) = .fin x from hx] at e
  by_cases hlt : (ieee log2).lt (.fin x) ((ieee log2).toF64 (encQ (g (j + 1)))) = true
  · rw [if_pos hlt, show (ieee log2).toF32 (.fin x) = .fin v from hv] at e
    obtain ⟨co, l, g1, g2, g3⟩ := h.set (j := j) (k := 1) (by omega) (by omega) hjn (by omega) (by omega) hg v0 hv1 ⟨x, hv⟩ v1 v2
      (h.rep_le x0 (lt_encQ.mp hlt) hv)
    cases (bind_set g1 g2).symm.trans e
    exact ⟨_, g3, fun x hx => by rw [if_neg (by omega)]⟩
  · rw [if_neg hlt] at e
    cases e
    have hlt : ¬ Fp.lt (.fin x) (encQ (g (j + 1))) = true := hlt
    rw [lt_encQ] at hlt
    push Not at hlt
    obtain ⟨m', h1, h2⟩ := hlt
    exact ⟨g, h.keep (by omega) hg h1 (by linarith), fun x _ => rfl⟩

theorem tryLengths_near {cm : Nat → Nat → Option Fp} {mc : ℚ} {arr : Array UInt8} {O : Oracle}
    (hW : QWeights log2 cm mc arr O instart W) (h : QG W instart n E J g costs la) {j : Nat} {m p : ℚ} (hJ : J = j + 1)
    (hg : g j = some m) (hp : round64 (mc + m) = .fin p) (hL : j + O.L (instart + j) ≤ n) (h258 : O.L (instart + j) ≤ 258) {costs' : Array Fp} {la' : Array Nat}
    (e : tryLengths (ieee log2) cm (.fin p) (subD O (instart + j)) (O.L (instart + j)) j costs la = some (costs', la')) :
    ∃ g', QG W instart n (fun a b => E a b ∨ (a = j ∧ 3 ≤ b ∧ b ≤ O.L (instart + j))) J g' costs' la' ∧ AfterQ g g' j := by
  have e := (tryLengths_eq (ieee log2) cm (.fin p) (subD O (instart + j)) (O.L (instart + j)) j costs la).symm.trans e
  rw [show min (O.L (instart + j) + 1) (subD O (instart + j)).size = O.L (instart + j) + 1 by simp [subD]; omega] at e
  by_cases h3 : 3 ≤ O.L (instart + j) + 1
  · have := Ret.get e (forRange_spec
      (fun k (st : Array Fp × Array Nat) => ∃ g', QG W instart n (fun a b => E a b ∨ (a = j ∧ 3 ≤ b ∧ b < k)) J g' st.1 st.2 ∧ AfterQ g g' j)
      h3 ⟨g, h.sub (by rintro a b (hab | hab); exacts [hab, by omega]), fun x _ => rfl⟩ ?_)
    · obtain ⟨g', h1, h2⟩ := this
      exact ⟨g', h1.sub (by rintro a b (hab | hab); exacts [.inl hab, .inr (by omega)]), h2⟩
    · rintro k ⟨co, l⟩ hk1 hk2 ⟨g', h1, h2⟩
      dsimp only at h1
      obtain ⟨c, c1, c2, c3⟩ := hW.copy (instart + j) k (by omega) hk1 (by omega)
      have hg' : g' j = some m := by rw [h2 j (Nat.le_refl _)]; exact hg
      obtain ⟨m0, m1, -⟩ := h1.ok j m hg'
      obtain ⟨x, v, hx, hv, hv1⟩ := sum_fin c2.c0 c2.c1 m0 m1
      obtain ⟨x0, x1, hvv⟩ := step_near c2 m0 hx
      obtain ⟨v0, v1, v2⟩ := hvv v hv
      have hsub : ∀ (co' : Array Fp) (l' : Array Nat) (g2 : Nat → Option ℚ),
          QG W instart n (fun a b => (E a b ∨ (a = j ∧ 3 ≤ b ∧ b < k)) ∨ (a = j ∧ b = k)) J g2 co' l' →
          QG W instart n (fun a b => E a b ∨ (a = j ∧ 3 ≤ b ∧ b < k + 1)) J g2 co' l' := by
        intro co' l' g2 hx
        refine hx.sub ?_
        rintro a b (hab | ⟨rfl, hb1, hb2⟩)
        · exact .inl (.inl hab)
        · by_cases hbk : b = k
          · exact .inr ⟨rfl, hbk⟩
          · exact .inl (.inr ⟨rfl, hb1, by omega⟩)
      have hk258 : k ≤ MAX_MATCH := by rw [MAX_MATCH]; omega
      have ea := h1.emb j (by omega)
      rw [hg'] at ea
      refine Ret.subst (lenStep_read (ieee log2) (subD_get (show k < 259 by omega)) c1 ea (h1.emb (j + k) (by omega)) hk258 rfl) ?_
      by_cases hle : (ieee log2).le ((ieee log2).toF64 (encQ (g' (j + k)))) (.fin p) = true
      · rw [if_pos hle]
        obtain ⟨m', e1, e2⟩ := le_encQ.mp hle
        exact ⟨_, rfl, g', hsub _ _ _ (h1.keep (by omega) hg' e1 (le_trans e2 (prune_near hW.mc0 c2.w0 c3 m0 hp))), h2⟩
      · rw [if_neg hle, show (ieee log2).add (.fin c) ((ieee log2).toF64 (encQ (some m))) = .fin x from hx]
        by_cases hlt : (ieee log2).lt (.fin x) ((ieee log2).toF64 (encQ (g' (j + k)))) = true
        · rw [if_pos hlt, show (ieee log2).toF32 (.fin x) = .fin v from hv]
          obtain ⟨co', l', g1, g2, g3⟩ := h1.set (j := j) (k := k) (by omega) (by omega) (by omega) (by omega) (by omega) hg' v0 hv1 ⟨x, hv⟩ v1 v2
            (h1.rep_le x0 (lt_encQ.mp hlt) hv)
          refine ⟨_, bind_set g1 g2, _, hsub _ _ _ g3, fun x hx => ?_⟩
          rw [if_neg (by omega), h2 x hx]
        · rw [if_neg hlt]
          have hlt : ¬ Fp.lt (.fin x) (encQ (g' (j + k))) = true := hlt
          rw [lt_encQ] at hlt
          push Not at hlt
          obtain ⟨m', e1, e2⟩ := hlt
          exact ⟨_, rfl, g', hsub _ _ _ (h1.keep (by omega) hg' e1 (by linarith)), h2⟩
  · rw [forRange_empty (by omega)] at e
    cases e
    exact ⟨g, h.sub (by rintro a b (hab | hab); exacts [hab, by omega]), fun x _ => rfl⟩

/-- The steps from the positions before `i`. -/
def AllTried (O : Oracle) (instart i j k : Nat) : Prop :=
  instart + j < i ∧ (k = 1 ∨ 3 ≤ k ∧ k ≤ O.L (instart + j))

/-- The invariant of the main loop. -/
def QInv (W : Nat → Nat → ℚ) (arr : Array UInt8) (O : Oracle) (instart i : Nat) (costs : Array Fp) (la : Array Nat) : Prop :=
  ∃ g, QG W instart (arr.size - instart) (AllTried O instart i) (i - instart) g costs la

theorem QG.some_of_nz (h : QG W instart n E J g costs la) {x : Nat} (hx : x = 0 ∨ Nz la x) : g x ≠ none := by
  rcases hx with rfl | ⟨k, h1, h2⟩
  · rw [h.zero]; simp
  · obtain ⟨-, -, -, m, v, -, e, -⟩ := h.C x k h1 h2
    rw [e]; simp

theorem step_nearQ {L : FloatLaws (ieee log2)} {cm : Nat → Nat → Option Fp} {mc : ℚ} {arr : Array UInt8} {O : Oracle} {ws : Nat} (hO : IsOracle arr ws O)
    (hW : QWeights log2 cm mc arr O instart W) (hws : ws ≤ instart)
    (hrun : ∀ t, instart ≤ t → ¬ Run arr t 775)
    {b b' : BCore (ieee log2)} (hb : BInv L arr ws O instart b) (hlt : b.i < arr.size) (hx : QInv W arr O instart b.i b.costs b.la)
    (hs : StepRun (ieee log2) cm (.fin mc) arr O ws instart b b') : QInv W arr O instart b'.i b'.costs b'.la := by
  obtain ⟨i, h, costs, la⟩ := b
  obtain ⟨i', h', costs', la'⟩ := b'
  obtain ⟨g, hx⟩ := hx
  have C := hb.C
  have lo := hb.lo
  dsimp only at C lo hx hlt hs ⊢
  have hreach : g (i - instart) ≠ none := by
    refine hx.some_of_nz ?_
    by_cases h0 : i - instart = 0
    · exact .inl h0
    · exact .inr (C _ (by omega) (Nat.le_refl _))
  rcases hs with ⟨hi', ht⟩ | ⟨hi', l1, l2, l3, -⟩
  · dsimp only at hi' ht
    subst hi'
    obtain ⟨costs1, la1, xj, e1, e2, e3⟩ := ht
    obtain ⟨m, hm⟩ := Option.ne_none_iff_exists'.mp hreach
    obtain ⟨j, rfl⟩ : ∃ j, i = instart + j := ⟨i - instart, by omega⟩
    have hL := hO.le' (instart + j) (by omega)
    have h258 := hO.le (instart + j)
    rw [show instart + j - instart = j by omega] at *
    obtain ⟨g1, x1, a1⟩ := tryLiteral_near hW (hx.mono (J' := j + 1) (by omega)) rfl (by omega) hlt hm e1
    have hm1 : g1 j = some m := by rw [a1 j (Nat.le_refl _)]; exact hm
    have e2 := Option.some.inj ((x1.emb j (by omega)).symm.trans e2)
    rw [hm1] at e2
    rw [← e2] at e3
    obtain ⟨m0, m1, -⟩ := x1.ok j m hm1
    obtain ⟨p, -, hp, -, -⟩ := sum_fin hW.mc0 hW.mc1 m0 m1
    rw [show (ieee log2).add (.fin mc) ((ieee log2).toF64 (encQ (some m))) = .fin p from hp] at e3
    obtain ⟨g2, x2, a2⟩ := tryLengths_near hW x1 rfl hm1 hp (by omega) h258 e3
    refine ⟨g2, (x2.mono (by omega)).sub ?_⟩
    rintro a b ⟨h1, h2⟩
    by_cases ha : a = j
    · subst ha
      rcases h2 with h2 | h2
      · exact .inl (.inr ⟨rfl, h2⟩)
      · exact .inr ⟨rfl, h2⟩
    · exact .inl (.inl ⟨by omega, h2⟩)
  · exact absurd l3 (hrun _ (by dsimp only at l1 ⊢; omega))

/-! ## Paths -/

/-- The cost of a path. -/
def pathCostQ (W : Nat → Nat → ℚ) : Nat → List Nat → ℚ
  | _, [] => 0
  | pos, k :: ks => W pos k + pathCostQ W (pos + k) ks

theorem pathCostQ_append (W : Nat → Nat → ℚ) : ∀ (xs ys : List Nat) (pos : Nat),
    pathCostQ W pos (xs ++ ys) = pathCostQ W pos xs + pathCostQ W (pos + xs.sum) ys
  | [], ys, pos => by simp [pathCostQ]
  | x :: xs, ys, pos => by
    rw [List.cons_append, pathCostQ, pathCostQ, pathCostQ_append W xs ys, List.sum_cons, ← Nat.add_assoc]
    ring

theorem one_le_pow_hi (k : Nat) : (1 : ℚ) ≤ (1 + tolU) ^ k := one_le_pow₀ (by unfold tolU; norm_num)

theorem pathQ_le {O : Oracle} {stop : Nat} (hW0 : ∀ pos k, 0 ≤ W pos k) (hx : QG W instart n (AllTried O instart stop) J g costs la) :
    ∀ (ks : List Nat) (j : Nat) (m : ℚ), g j = some m → PathOk O (instart + j) ks stop →
      ∃ m', g (stop - instart) = some m' ∧ m' ≤ (1 + tolU) ^ ks.length * (m + pathCostQ W (instart + j) ks + ks.length * tolD)
  | [], j, m, hj, hp => by
    have : instart + j = stop := hp
    exact ⟨m, by rw [show stop - instart = j by omega]; exact hj, by simp [pathCostQ]⟩
  | k :: ks, j, m, hj, hp => by
    have hle := hp.2.le
    have := hp.1
    obtain ⟨-, m1, m2, e1, e2, h3⟩ := hx.D j k ⟨by omega, hp.1⟩
    rw [hj] at e1
    cases e1
    have hp2 := hp.2
    rw [Nat.add_assoc] at hp2
    obtain ⟨m', e, h4⟩ := pathQ_le hW0 hx ks (j + k) m2 e2 hp2
    refine ⟨m', e, le_trans h4 ?_⟩
    rw [pathCostQ, Nat.add_assoc instart, List.length_cons, pow_succ]
    have hpc : ∀ (ks : List Nat) (pos : Nat), 0 ≤ pathCostQ W pos ks := by
      intro ks
      induction ks with
      | nil => intro pos; simp [pathCostQ]
      | cons k ks ih => intro pos; rw [pathCostQ]; exact add_nonneg (hW0 _ _) (ih _)
    have hpw := one_le_pow_hi ks.length
    have hpw0 : (0 : ℚ) ≤ (1 + tolU) ^ ks.length := by linarith
    rw [mul_assoc]
    refine mul_le_mul_of_nonneg_left ?_ hpw0
    have hc := hpc ks (instart + (j + k))
    have hu : (0 : ℚ) ≤ tolU := by unfold tolU; norm_num
    have hd : (0 : ℚ) ≤ tolD := by unfold tolD; norm_num
    have hl : (0 : ℚ) ≤ (ks.length : ℚ) * tolD := by positivity
    unfold hiQ at h3
    push_cast
    have e1 := mul_nonneg hu hc
    have e2 := mul_nonneg hu hl
    have e3 := mul_nonneg hu hd
    generalize pathCostQ W (instart + (j + k)) ks = P at *
    generalize W (instart + j) k = w at *
    generalize (ks.length : ℚ) = len at *
    nlinarith

theorem traceQ_cost {la : Array Nat} (hx : QG W instart n E J g costs la) (hW0 : ∀ pos k, 0 ≤ W pos k) :
    ∀ (x : Nat) (path : List Nat), traceFrom la x = some path → path.sum = x ∧ ∃ v, g x = some v ∧ 
      (1 - tolU) ^ path.length * pathCostQ W instart path.reverse ≤ v + path.length * tolD := by
  intro x
  induction x using Nat.strongRecOn with
  | ind x ih =>
    intro path e
    rw [traceFrom] at e
    by_cases h0 : x = 0
    · subst h0
      rw [if_pos rfl] at e
      cases e
      exact ⟨rfl, 0, hx.zero, by simp [pathCostQ]⟩
    · rw [if_neg h0] at e
      cases hk : la[x]? with
      | none => rw [hk] at e; cases e
      | some k =>
        rw [hk] at e
        dsimp only at e
        split at e
        · rename_i hk2
          simp only [Option.bind_eq_bind, Option.bind_eq_some_iff, Option.pure_def, Option.some.injEq] at e
          obtain ⟨p, ep, rfl⟩ := e
          obtain ⟨s1, v1, s2, s3⟩ := ih (x - k) (by omega) p ep
          obtain ⟨-, -, -, m, v, c1, c2, c3⟩ := hx.C x k hk (by omega)
          rw [s2] at c1
          cases c1
          refine ⟨by rw [List.sum_cons, s1]; omega, v, c2, ?_⟩
          rw [List.reverse_cons, pathCostQ_append, List.sum_reverse, s1, List.length_cons, pow_succ]
          have hw := hW0 (instart + (x - k)) k
          have e : pathCostQ W (instart + (x - k)) [k] = W (instart + (x - k)) k := by simp [pathCostQ]
          rw [e]
          unfold loQ at c3
          have hq0 : (0 : ℚ) ≤ 1 - tolU := by unfold tolU; norm_num
          have hq1 : (1 : ℚ) - tolU ≤ 1 := by unfold tolU; norm_num
          have hpw : (1 - tolU : ℚ) ^ p.length ≤ 1 := pow_le_one₀ hq0 hq1
          have hd : (0 : ℚ) ≤ tolD := by unfold tolD; norm_num
          have hl : (0 : ℚ) ≤ (p.length : ℚ) * tolD := by positivity
          push_cast
          rw [add_mul, one_mul]
          generalize pathCostQ W instart p.reverse = P at *
          generalize W (instart + (x - k)) k = w at *
          generalize (1 - tolU : ℚ) ^ p.length = A at *
          generalize (1 - tolU : ℚ) = u at *
          generalize (p.length : ℚ) * tolD = lt at *
          have a1 := mul_le_mul_of_nonneg_left s3 hq0
          have a2 := mul_le_mul_of_nonneg_right hpw (mul_nonneg hq0 hw)
          have a3 := mul_le_mul_of_nonneg_right hq1 hl
          nlinarith
        · cases e

end Zopfli
