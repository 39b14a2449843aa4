import Verif.Proofs.OptFixed
import Verif.Props.Trees
/-! # What items cost in a fixed block -/

namespace Zopfli
open Rfc

/-- The bits of an item in a fixed block. -/
def fcost : LitLen → Nat
  | .literal b => if b ≤ 143 then 8 else 9
  | .lengthDist len dist =>
    7 + (if (getLengthSymbol len).getD 0 > 279 then 1 else 0) + 5 + getDistExtraBits dist + (getLengthExtraBits len).getD 0

theorem fixedLit : ∀ b, b < 256 → fixedTree.1.getD b 0 = if b ≤ 143 then 8 else 9 := by decide +kernel

theorem fixedLen : ∀ s, s < 286 → 257 ≤ s → fixedTree.1.getD s 0 = 7 + if s > 279 then 1 else 0 := by decide +kernel

theorem fixedDist : ∀ s, s < 32 → fixedTree.2.getD s 0 = 5 := by decide +kernel

theorem fcost_eq {x : LitLen} (hx : x.InRange) : itemCost fixedTree.1 fixedTree.2 x = fcost x := by
  have h := itemSize_eq fixed_sizes.1 fixed_sizes.2 hx
  cases x with
  | literal b =>
    have hb : b < 256 := hx
    rw [itemSize, guardR_eq (by simp only [decide_eq_true_eq]; omega), some_bind] at h
    simp only [getD_eq fixed_sizes.1 (show b < 288 by omega), Option.some.injEq] at h
    rw [← h, fixedLit b hb]
    rfl
  | lengthDist len dist =>
    obtain ⟨h1, h2, h3, h4⟩ := hx
    obtain ⟨s, eb, v, e1, e2, e3, g1, g2, g3, g4, g5, g6, g7, g8⟩ := length_spec h1 h2
    obtain ⟨d1, d2, d3, d4, d5, d6, d7⟩ := dist_spec h3 h4
    rw [itemSize, guardR_eq (by simp only [decide_eq_true_eq]; omega), some_bind] at h
    simp only [e1, some_bind, getD_eq fixed_sizes.1 (show s < 288 by omega), getD_eq fixed_sizes.2 (show getDistSymbol dist < 32 by omega), g3, d2] at h
    have h := Option.some.inj h
    rw [← h, fixedLen s (by omega) g1, fixedDist _ (by omega)]
    simp only [fcost, e1, e2, Option.getD_some]
    omega

theorem fcost_lit_le (b : Nat) : fcost (.literal b) ≤ 9 := by
  show (if b ≤ 143 then 8 else 9) ≤ 9
  split <;> omega

theorem fcost_copy (len dist : Nat) : fcost (.lengthDist len dist) =
    7 + (if (getLengthSymbol len).getD 0 > 279 then 1 else 0) + 5 + getDistExtraBits dist + (getLengthExtraBits len).getD 0 := rfl

theorem fcost_len : ∀ len, len < 256 → (if (getLengthSymbol (len + 3)).getD 0 > 279 then 1 else 0) + (getLengthExtraBits (len + 3)).getD 0 + 25 ≤ 9 * (len + 3) := by
  decide +kernel

theorem fcost_copy_le {len dist : Nat} (h : (LitLen.lengthDist len dist).InRange) : 12 ≤ fcost (.lengthDist len dist) ∧ fcost (.lengthDist len dist) ≤ 9 * len := by
  obtain ⟨h1, h2, h3, h4⟩ := h
  have := fcost_len (len - 3) (by omega)
  rw [show len - 3 + 3 = len by omega] at this
  obtain ⟨d1, d2, d3, d4, d5, d6, d7⟩ := dist_spec h3 h4
  rw [fcost_copy]
  omega

theorem distExtra_unique {dv dist b e : Nat} (h1 : distBase[dv]? = some b) (h2 : distExtra[dv]? = some e) (hlo : b ≤ dist) (hhi : dist < b + 2 ^ e) :
    1 ≤ dist ∧ dist ≤ 32768 ∧ getDistExtraBits dist = e := by
  have hdv : dv < 30 := (List.getElem?_eq_some_iff.mp h1).1
  have key0 : ∀ i, i < 30 → ∀ b, distBase[i]? = some b → ∀ e, distExtra[i]? = some e → 1 ≤ b ∧ b + 2 ^ e ≤ 32769 := by decide +kernel
  obtain ⟨k1, k2⟩ := key0 dv hdv b h1 e h2
  refine ⟨by omega, by omega, ?_⟩
  obtain ⟨d1, d2, d3, d4, d5, d6, d7⟩ := dist_spec (dist := dist) (by omega) (by omega)
  have key : ∀ i, i < 30 → ∀ j, j < 30 → i < j → ∀ b, distBase[i]? = some b → ∀ e, distExtra[i]? = some e → ∀ b', distBase[j]? = some b' → b + 2 ^ e ≤ b' := by
    decide +kernel
  rcases Nat.lt_trichotomy dv (getDistSymbol dist) with h | h | h
  · have := key _ hdv _ d1 h _ h1 _ h2 _ d7
    omega
  · rw [← h, h2] at d3
    exact (Option.some.inj d3).symm
  · have := key _ d1 _ hdv h _ d7 _ d3 _ h1
    omega

theorem getDistExtraBits_mono {d d' : Nat} (h1 : 1 ≤ d) (h : d ≤ d') (h2 : d' ≤ 32768) : getDistExtraBits d ≤ getDistExtraBits d' := by
  obtain ⟨a1, -, a3, a4, a5, -, a7⟩ := dist_spec h1 (Nat.le_trans h h2)
  obtain ⟨b1, -, b3, b4, b5, -, b7⟩ := dist_spec (Nat.le_trans h1 h) h2
  have key : ∀ i, i < 30 → ∀ j, j < 30 → i < j → ∀ b, distBase[i]? = some b → ∀ e, distExtra[i]? = some e → ∀ b', distBase[j]? = some b' → b + 2 ^ e ≤ b' := by
    decide +kernel
  have key2 : ∀ i, i < 30 → ∀ j, j < 30 → i ≤ j → ∀ e, distExtra[i]? = some e → ∀ e', distExtra[j]? = some e' → e ≤ e' := by decide +kernel
  by_cases hs : getDistSymbol d ≤ getDistSymbol d'
  · exact key2 _ a1 _ b1 hs _ a3 _ b3
  · have := key _ b1 _ a1 (by omega) _ b7 _ b3 _ a7
    omega

/-! ## Reading -/

theorem next_pos {s s' : Bits} {b : Bool} (h : s.next = some (b, s')) : s'.pos = s.pos + 1 := by
  obtain ⟨bits, p⟩ := s
  cases bits with
  | nil => cases h
  | cons x xs => cases h; rfl

theorem nat_pos : ∀ {n : Nat} {s s' : Bits} {v : Nat}, s.nat n = some (v, s') → s'.pos = s.pos + n ∧ v < 2 ^ n
  | 0, s, s', v, h => by cases h; simp
  | n + 1, s, s', v, h => by
    simp only [Bits.nat, Option.bind_eq_bind, Option.bind_eq_some_iff, Option.pure_def, Option.some.injEq, Prod.exists, Prod.mk.injEq] at h
    obtain ⟨b, s1, e1, v', s2, e2, rfl, rfl⟩ := h
    have h1 := next_pos e1
    obtain ⟨h2, h3⟩ := nat_pos e2
    have : b.toNat ≤ 1 := Bool.toNat_le b
    rw [Nat.pow_succ]
    omega

theorem decodeFrom_pos {lens : List Nat} : ∀ {fuel len code first : Nat} {s s' : Bits} {v : Nat}, decodeFrom lens fuel len code first s = some (v, s') →
    ∃ l, lens[v]? = some l ∧ s'.pos + len = s.pos + l
  | 0, _, _, _, _, _, _, h => by cases h
  | fuel + 1, len, code, first, s, s', v, h => by
    simp only [decodeFrom, Option.bind_eq_bind, Option.bind_eq_some_iff, Prod.exists] at h
    obtain ⟨b, s1, e1, h⟩ := h
    have h1 := next_pos e1
    split at h
    · rename_i sym hsym
      cases h
      have := List.mem_of_getElem? hsym
      rw [symsOfLen, List.mem_filter] at this
      exact ⟨len + 1, by simpa using this.2, by omega⟩
    · obtain ⟨l, g1, g2⟩ := decodeFrom_pos h
      exact ⟨l, g1, by omega⟩

theorem decodeSym_pos {lens : List Nat} {s s' : Bits} {v : Nat} (h : decodeSym lens s = some (v, s')) : ∃ l, lens[v]? = some l ∧ s'.pos = s.pos + l := by
  obtain ⟨l, h1, h2⟩ := decodeFrom_pos h
  exact ⟨l, h1, by omega⟩

/-- A symbol takes at least as many bits as the item it stands for. -/
theorem readSym_cost {s s' : Bits} {y : Option Sym} (h : readSym fixedLL fixedD s = some (y, s')) :
    match y with
    | none => s'.pos = s.pos + 7
    | some y => ∃ x : LitLen, x.InRange ∧ y = symOf x ∧ s.pos + fcost x ≤ s'.pos := by
  simp only [readSym, Option.bind_eq_bind, Option.bind_eq_some_iff, Prod.exists] at h
  obtain ⟨v, s1, e1, h⟩ := h
  obtain ⟨l, hl, hp⟩ := decodeSym_pos e1
  have hv : v < fixedLL.length := (List.getElem?_eq_some_iff.mp hl).1
  split at h
  · rename_i hv2
    cases h
    have key : ∀ v, v < 256 → ∀ l, fixedLL[v]? = some l → l = if v ≤ 143 then 8 else 9 := by decide +kernel
    have := key v hv2 l hl
    exact ⟨.literal v, hv2, rfl, by show s.pos + (if v ≤ 143 then 8 else 9) ≤ _; omega⟩
  split at h
  · rename_i hv2
    cases h
    subst hv2
    have : fixedLL[256]? = some 7 := by decide +kernel
    rw [this] at hl
    cases hl
    exact hp
  · rename_i hv1 hv2
    simp only [Option.bind_eq_some_iff, Prod.exists, Option.pure_def, Option.some.injEq, Prod.mk.injEq] at h
    obtain ⟨base, hb, extra, he, e, s2, e2, dv, s3, e3, dbase, hdb, dextra, hde, de, s4, e4, rfl, rfl⟩ := h
    obtain ⟨p2, lt2⟩ := nat_pos e2
    obtain ⟨p4, lt4⟩ := nat_pos e4
    obtain ⟨l', hl', p3⟩ := decodeSym_pos e3
    have hdv : dv < 30 := (List.getElem?_eq_some_iff.mp hdb).1
    have h29 : v - 257 < 29 := (List.getElem?_eq_some_iff.mp hb).1
    have h5 : l' = 5 := by
      have : ∀ i, i < 30 → fixedD[i]? = some 5 := by decide +kernel
      rw [this dv hdv] at hl'
      exact (Option.some.inj hl').symm
    obtain ⟨q1, q2, q3⟩ := distExtra_unique hdb hde (dist := dbase + de) (by omega) (by omega)
    have he5 : extra ≤ 5 := by
      have : ∀ i, i < 29 → ∀ x, lengthExtra[i]? = some x → x ≤ 5 := by decide +kernel
      exact this _ h29 _ he
    have he32 : e < 32 := Nat.lt_of_lt_of_le lt2 (Nat.pow_le_pow_right (by omega) he5)
    have key : ∀ i, i < 29 → ∀ e, e < 32 → ∀ b, lengthBase[i]? = some b → ∀ x, lengthExtra[i]? = some x → e < 2 ^ x → ∀ l, fixedLL[i + 257]? = some l →
        3 ≤ b + e ∧ b + e ≤ 258 ∧ 7 + (if (getLengthSymbol (b + e)).getD 0 > 279 then 1 else 0) + (getLengthExtraBits (b + e)).getD 0 ≤ l + x := by
      decide +kernel
    rw [show v = v - 257 + 257 by omega] at hl
    obtain ⟨k1, k2, k3⟩ := key _ h29 e he32 _ hb _ he lt2 _ hl
    refine ⟨.lengthDist (base + e) (dbase + de), ⟨k1, k2, q1, q2⟩, rfl, ?_⟩
    rw [fcost_copy]
    omega

theorem readSyms_cost {s s' : Bits} : ∀ {ys : List Sym}, readSyms fixedLL fixedD s = some (ys, s') →
    ∃ xs : List LitLen, (∀ x ∈ xs, x.InRange) ∧ ys = xs.map symOf ∧ s.pos + (xs.map fcost).sum + 7 ≤ s'.pos := by
  intro ys
  induction ys generalizing s with
  | nil =>
    intro h
    rw [readSyms] at h
    simp only [Option.bind_eq_bind, Option.bind_eq_some_iff, Prod.exists] at h
    obtain ⟨y, s1, e1, h⟩ := h
    have := readSym_cost e1
    cases y with
    | none => cases h; exact ⟨[], by simp, rfl, by simp; omega⟩
    | some y =>
      dsimp only at h
      simp only [Option.bind_eq_some_iff, Prod.exists] at h
      obtain ⟨l, s2, -, h⟩ := h
      cases h
  | cons y0 ys ih =>
    intro h
    rw [readSyms] at h
    simp only [Option.bind_eq_bind, Option.bind_eq_some_iff, Prod.exists] at h
    obtain ⟨y, s1, e1, h⟩ := h
    have h1 := readSym_cost e1
    cases y with
    | none => cases h
    | some y =>
      dsimp only at h h1
      simp only [Option.bind_eq_some_iff, Prod.exists] at h
      obtain ⟨l, s2, e2, h⟩ := h
      cases h
      obtain ⟨x, r1, rfl, r2⟩ := h1
      obtain ⟨xs, q1, rfl, q2⟩ := ih e2
      refine ⟨x :: xs, by simpa using ⟨r1, q1⟩, rfl, ?_⟩
      rw [List.map_cons, List.sum_cons]
      omega

/-- The bits of any fixed block. -/
theorem readBlock_cost {s s' : Bits} {f : Bool} {ys : List Sym} (h : readBlock s = some (⟨f, .fixed ys⟩, s')) :
    ∃ xs : List LitLen, (∀ x ∈ xs, x.InRange) ∧ ys = xs.map symOf ∧ s.pos + 3 + (xs.map fcost).sum + 7 ≤ s'.pos := by
  simp only [readBlock, Option.bind_eq_bind, Option.bind_eq_some_iff, Prod.exists] at h
  obtain ⟨final, s1, e1, bt, s2, e2, h⟩ := h
  have p1 := next_pos e1
  obtain ⟨p2, -⟩ := nat_pos e2
  split at h
  · simp only [Option.bind_eq_some_iff, Prod.exists] at h
    obtain ⟨_, _, _, _, _, _, _, _, h⟩ := h
    split at h
    · simp at h
    · simp [Option.bind_eq_some_iff] at h
  split at h
  · simp only [Option.bind_eq_some_iff, Prod.exists] at h
    obtain ⟨l, s3, e3, h⟩ := h
    cases h
    obtain ⟨xs, q1, q2, q3⟩ := readSyms_cost e3
    exact ⟨xs, q1, q2, by omega⟩
  split at h
  · simp only [Option.bind_eq_some_iff, Prod.exists] at h
    obtain ⟨_, _, _, _, _, _, h⟩ := h
    cases h
  · cases h

end Zopfli
