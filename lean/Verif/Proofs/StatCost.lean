import Verif.Proofs.Cheapest
import Verif.Proofs.Debug
import Verif.Spec.Cheapest
import Verif.Props.Trees
/-! # The costs estimated from statistics, and ideal ones -/

namespace Zopfli
open Fp Rfc

variable {log2 : Fp → Fp}

/-- The logarithm does not decrease below `L`. -/
structure Log2Up (log2 : Fp → Fp) (L : Nat) : Prop where
  mono : Log2Mono log2 L
  lo : 288 < L
  hi : L ≤ 2 ^ 60

theorem lgOf_spec (hlog : Log2Ok log2) {n : Nat} (h1 : 1 ≤ n) (h2 : n < 2 ^ 60) : log2 (round64 n) = .fin (lgOf log2 n) ∧ 0 ≤ lgOf log2 n ∧ lgOf log2 n ≤ 64 := by
  obtain ⟨q, e, h⟩ := hlog n h1 h2
  have : lgOf log2 n = q := by unfold lgOf; rw [e]
  rw [this]
  exact ⟨e, h⟩

theorem lgOf_mono (hlog : Log2Ok log2) {L : Nat} (hmono : Log2Up log2 L) {m n : Nat} (h1 : 1 ≤ m) (h2 : m ≤ n) (h3 : n < L) : lgOf log2 m ≤ lgOf log2 n := by
  have h := hmono.mono m n h1 h2 h3
  have := hmono.hi
  rw [(lgOf_spec hlog h1 (by omega)).1, (lgOf_spec hlog (by omega) (by omega)).1] at h
  exact of_decide_eq_true h

/-- A computed cost of a symbol and the ideal one. -/
structure NearS (c w : ℚ) : Prop where
  c0 : 0 ≤ c
  w0 : 0 ≤ w
  w1 : w ≤ 64
  lo : w - w / 2 ^ 53 - 1 / 2 ^ 100 ≤ c
  hi : c ≤ w + w / 2 ^ 53 + 1 / 2 ^ 100

theorem getD_of_get {a : Array Nat} {i v : Nat} (h : a[i]? = some v) : a.getD i 0 = v := by
  rw [Array.getD_eq_getD_getElem?, h]; rfl

theorem entropyOf_get (F : FloatOps) {a : Array Nat} {i v : Nat} (h : a[i]? = some v) :
    (entropyOf F a)[i]? = some (if v = 0 then F.log2 (F.ofUsize (if a.toList.sum = 0 then a.size else a.toList.sum))
      else F.sub (F.log2 (F.ofUsize (if a.toList.sum = 0 then a.size else a.toList.sum))) (F.log2 (F.ofUsize v))) := by
  unfold entropyOf
  rw [Array.getElem?_map, h]
  rfl

theorem ieee_log (hlog : Log2Ok log2) {n : Nat} (h1 : 1 ≤ n) (h2 : n < 2 ^ 60) : (ieee log2).log2 ((ieee log2).ofUsize n) = Fp.fin (lgOf log2 n) := by
  rw [ieee_ofUsize, Nat.mod_eq_of_lt (by omega)]; exact (lgOf_spec hlog h1 h2).1

theorem entropyOf_near (hlog : Log2Ok log2) {L : Nat} (hmono : Log2Up log2 L) {a : Array Nat} (h0 : 1 ≤ a.size) (hs : a.size < L) (hsum : a.toList.sum < L)
    {i : Nat} (hi : i < a.size) : ∃ c, (entropyOf (ieee log2) a)[i]? = some (Fp.fin c) ∧ NearS c (surprise (lgOf log2) a i) := by
  have hv : a[i]? = some a[i] := Array.getElem?_eq_getElem hi
  have hvs : a[i] ≤ a.toList.sum := List.single_le_sum (by simp) _ (by simp)
  generalize a[i] = v at hv hvs
  have hg := entropyOf_get (ieee log2) hv
  unfold surprise
  dsimp only
  rw [getD_of_get hv]
  generalize ht : (if a.toList.sum = 0 then a.size else a.toList.sum) = t at *
  have hL := hmono.hi
  have ht2 : t < L := by
    rw [← ht]
    split <;> omega
  have ht1 : 1 ≤ t ∧ t < 2 ^ 60 ∧ v ≤ t := by
    rw [← ht]
    split <;> omega
  obtain ⟨-, a1, a2⟩ := lgOf_spec hlog ht1.1 ht1.2.1
  cases v with
  | zero =>
    rw [if_pos rfl, ieee_log hlog ht1.1 ht1.2.1] at hg
    refine ⟨_, hg, ⟨a1, a1, a2, ?_, ?_⟩⟩
    · show lgOf log2 t - lgOf log2 t / 2 ^ 53 - 1 / 2 ^ 100 ≤ lgOf log2 t
      linarith
    · show lgOf log2 t ≤ lgOf log2 t + lgOf log2 t / 2 ^ 53 + 1 / 2 ^ 100
      linarith
  | succ v =>
    obtain ⟨-, b1, b2⟩ := lgOf_spec hlog (n := v + 1) (by omega) (by omega)
    rw [if_neg (Nat.succ_ne_zero v), ieee_log hlog ht1.1 ht1.2.1, ieee_log hlog (by omega) (by omega)] at hg
    have hle := lgOf_mono hlog hmono (m := v + 1) (by omega) ht1.2.2 ht2
    obtain ⟨c, hc, -⟩ := ieee_add_fin log2 (a := lgOf log2 t) (b := -lgOf log2 (v + 1)) (k := 7) (by norm_num) (by
      rw [abs_neg, abs_of_nonneg a1, abs_of_nonneg b1]
      linarith)
    have hc1 : round64 (lgOf log2 t + -lgOf log2 (v + 1)) = .fin c := hc
    have hr := round64_rel' hc1
    rw [← sub_eq_add_neg] at hc1 hr
    have hw : 0 ≤ lgOf log2 t - lgOf log2 (v + 1) := by linarith
    rw [abs_of_nonneg hw, abs_le] at hr
    refine ⟨c, hg.trans (congrArg some hc), round_nonneg hw hc1, hw, ?_, ?_, ?_⟩
    · show lgOf log2 t - lgOf log2 (v + 1) ≤ 64
      linarith
    · show lgOf log2 t - lgOf log2 (v + 1) - (lgOf log2 t - lgOf log2 (v + 1)) / 2 ^ 53 - 1 / 2 ^ 100 ≤ c
      linarith [hr.1]
    · show c ≤ lgOf log2 t - lgOf log2 (v + 1) + (lgOf log2 t - lgOf log2 (v + 1)) / 2 ^ 53 + 1 / 2 ^ 100
      linarith [hr.2]

/-- The statistics' costs are those of the counts. -/
structure CostsOf (log2 : Fp → Fp) (ll d : Array Nat) (s : SymbolStats (ieee log2)) : Prop where
  ll : s.llSymbols = entropyOf (ieee log2) ll
  d : s.dSymbols = entropyOf (ieee log2) d

/-- The counts are usable. -/
structure TallyOk (L : Nat) (ll d : Array Nat) : Prop where
  ll0 : ll.size = 288
  d0 : d.size = 32
  ll1 : ll.toList.sum < L
  d1 : d.toList.sum < L

theorem lengthSymbol_facts {len : Nat} (h1 : 3 ≤ len) (h2 : len ≤ 258) : ∃ eb, getLengthSymbol len = some (lengthSymbol len) ∧ getLengthExtraBits len = some eb ∧
    lengthExtra.getD (lengthSymbol len - 257) 0 = eb ∧ eb ≤ 5 ∧ lengthSymbol len < 288 := by
  obtain ⟨s, eb, v, e1, e2, -, hs1, hs2, -, e3, -, -, h5, -⟩ := length_spec h1 h2
  have := llSym_eq (x := .lengthDist len 1) ⟨h1, h2, by omega, by omega⟩
  have hs : s = lengthSymbol len := by
    have h : (getLengthSymbol len).getD 0 = lengthSymbol len := this
    rw [e1] at h
    exact h
  subst hs
  exact ⟨eb, e1, e2, by rw [List.getD_eq_getElem?_getD, e3]; rfl, h5, by omega⟩

theorem distSymbol_facts {dist : Nat} (h1 : 1 ≤ dist) (h2 : dist ≤ 32768) : getDistSymbol dist = distSymbol dist ∧
    distExtra.getD (distSymbol dist) 0 = getDistExtraBits dist ∧ getDistExtraBits dist ≤ 13 ∧ distSymbol dist < 30 := by
  obtain ⟨a1, -, a3, -, -, a6, -⟩ := dist_spec h1 h2
  have e := distSymbol_eq h1 h2
  rw [e] at a1 a3
  exact ⟨e, by rw [List.getD_eq_getElem?_getD, a3]; rfl, a6, a1⟩

theorem getCostStat_read (F : FloatOps) {s : SymbolStats F} {len dist lsym eb : Nat} {cl cd : F.F64} (h1 : len < 288) (h2 : dist ≠ 0)
    (e1 : getLengthSymbol len = some lsym) (e2 : getLengthExtraBits len = some eb) (el : s.llSymbols[lsym]? = some cl) (ed : s.dSymbols[getDistSymbol dist]? = some cd) :
    getCostStat F s len dist = some (F.add (F.add (F.add (F.ofUsize eb) (F.ofUsize (getDistExtraBits dist))) cl) cd) := by
  unfold getCostStat
  rw [guardR_eq (by dsimp only [NUM_LL]; simp; omega), some_bind, if_neg h2, e1, some_bind, e2, some_bind]
  dsimp only
  rw [el, some_bind, ed, some_bind]
  rfl

section
variable {ll d : Array Nat} {s : SymbolStats (ieee log2)}

theorem cost_lit (hlog : Log2Ok log2) {L : Nat} (hmono : Log2Up log2 L) (hk : TallyOk L ll d) (hc : CostsOf log2 ll d s) {b : Nat} (hb : b < 256) :
    ∃ c, getCostStat (ieee log2) s b 0 = some (Fp.fin c) ∧ NearW c (estimate (lgOf log2) ll d (.literal b)) := by
  obtain ⟨c, e, h⟩ := entropyOf_near hlog hmono (a := ll) (by rw [hk.ll0]; omega) (by rw [hk.ll0]; exact hmono.lo) hk.ll1 (i := b) (by rw [hk.ll0]; omega)
  refine ⟨c, ?_, ?_⟩
  · unfold getCostStat
    rw [guardR_eq (by dsimp only [NUM_LL]; simp; omega), some_bind, if_pos rfl, hc.ll]
    exact e
  · obtain ⟨h1, h2, h3, h4, h5⟩ := h
    refine ⟨h1, h2, by linarith, ?_, ?_⟩ <;> unfold estimate <;> linarith

theorem cost_copy (hlog : Log2Ok log2) {L : Nat} (hmono : Log2Up log2 L) (hk : TallyOk L ll d) (hc : CostsOf log2 ll d s) {len dist : Nat}
    (h : (LitLen.lengthDist len dist).InRange) :
    ∃ c, getCostStat (ieee log2) s len dist = some (Fp.fin c) ∧ NearW c (estimate (lgOf log2) ll d (.lengthDist len dist)) ∧
      estimate (lgOf log2) ll d (.lengthDist len dist) ≤ 2 ^ 8 := by
  obtain ⟨h1, h2, h3, h4⟩ := h
  obtain ⟨eb, e1, e2, e3, e4, e5⟩ := lengthSymbol_facts h1 h2
  obtain ⟨d1, d2, d3, d4⟩ := distSymbol_facts h3 h4
  obtain ⟨cl, el, a1, a2, a3, a4, a5⟩ := entropyOf_near hlog hmono (a := ll) (by rw [hk.ll0]; omega) (by rw [hk.ll0]; exact hmono.lo) hk.ll1 (i := lengthSymbol len) (by rw [hk.ll0]; omega)
  obtain ⟨cd, ed, b1, b2, b3, b4, b5⟩ := entropyOf_near hlog hmono (a := d) (by rw [hk.d0]; omega) (by rw [hk.d0]; have := hmono.lo; omega) hk.d1 (i := distSymbol dist) (by rw [hk.d0]; omega)
  have x0 : (0 : ℚ) ≤ (eb + getDistExtraBits dist : Nat) := Nat.cast_nonneg _
  have x1 : ((eb + getDistExtraBits dist : Nat) : ℚ) ≤ 18 := by
    have : eb + getDistExtraBits dist ≤ 18 := by omega
    exact_mod_cast this
  have ee : estimate (lgOf log2) ll d (.lengthDist len dist) = (eb + getDistExtraBits dist : Nat) + surprise (lgOf log2) ll (lengthSymbol len) + surprise (lgOf log2) d (distSymbol dist) := by
    show (lengthExtra.getD (lengthSymbol len - 257) 0 : ℚ) + (distExtra.getD (distSymbol dist) 0 : ℚ) +
      surprise (lgOf log2) ll (lengthSymbol len) + surprise (lgOf log2) d (distSymbol dist) = _
    rw [e3, d2, Nat.cast_add]
  rw [ee]
  have hadd : (ieee log2).add ((ieee log2).ofUsize eb) ((ieee log2).ofUsize (getDistExtraBits dist)) = Fp.fin ((eb + getDistExtraBits dist : Nat) : ℚ) := by
    rw [ieee_ofUsize_small log2 (by omega), ieee_ofUsize_small log2 (by omega)]
    show round64 ((eb : ℚ) + (getDistExtraBits dist : ℚ)) = _
    rw [← Nat.cast_add]
    exact round64_nat (by omega)
  generalize ((eb + getDistExtraBits dist : Nat) : ℚ) = x at *
  generalize surprise (lgOf log2) ll (lengthSymbol len) = wl at *
  generalize surprise (lgOf log2) d (distSymbol dist) = wd at *
  obtain ⟨v1, hv1, hv1'⟩ := ieee_add_fin log2 (a := x) (b := cl) (k := 7) (by norm_num) (by
    rw [abs_of_nonneg x0, abs_of_nonneg a1]; linarith)
  have hv1r : round64 (x + cl) = .fin v1 := hv1
  have r1 := round64_rel' hv1r
  have v10 : 0 ≤ v1 := round_nonneg (by linarith) hv1r
  rw [abs_of_nonneg (by linarith : 0 ≤ x + cl), abs_le] at r1
  rw [abs_of_nonneg v10] at hv1'
  obtain ⟨v2, hv2, hv2'⟩ := ieee_add_fin log2 (a := v1) (b := cd) (k := 8) (by norm_num) (by
    rw [abs_of_nonneg v10, abs_of_nonneg b1]; linarith)
  have hv2r : round64 (v1 + cd) = .fin v2 := hv2
  have r2 := round64_rel' hv2r
  have v20 : 0 ≤ v2 := round_nonneg (by linarith) hv2r
  rw [abs_of_nonneg (by linarith : 0 ≤ v1 + cd), abs_le] at r2
  rw [abs_of_nonneg v20] at hv2'
  refine ⟨v2, ?_, ⟨v20, by linarith, by linarith, by linarith [r1.1, r2.1], by linarith [r1.2, r2.2]⟩, by linarith⟩
  rw [← hc.ll] at el
  rw [← hc.d] at ed
  rw [← d1] at ed
  refine (getCostStat_read (ieee log2) (by omega) (by omega) e1 e2 el ed).trans ?_
  rw [hadd]
  have hv1' : (ieee log2).add (Fp.fin x) (Fp.fin cl) = Fp.fin v1 := hv1
  rw [hv1']
  exact congrArg some hv2
end

end Zopfli
