import Verif.Proofs.StatMin
import Mathlib.Algebra.Order.Ring.Pow
/-! # A pass with statistics finds a cheapest parse, up to rounding -/

namespace Zopfli
open Fp Rfc

variable {log2 : Fp → Fp} {ll d : Array Nat} {s : SymbolStats (ieee log2)}

theorem surprise_nonneg (hlog : Log2Ok log2) {L : Nat} (hmono : Log2Up log2 L) {a : Array Nat} (h0 : 1 ≤ a.size) (hs : a.size < L) (hsum : a.toList.sum < L)
    (i : Nat) : 0 ≤ surprise (lgOf log2) a i := by
  by_cases hi : i < a.size
  · obtain ⟨c, -, h⟩ := entropyOf_near hlog hmono h0 hs hsum hi
    exact h.w0
  · unfold surprise
    dsimp only
    rw [Array.getD_eq_getD_getElem?, Array.getElem?_eq_none (by omega)]
    have := hmono.hi
    refine (lgOf_spec hlog ?_ ?_).2.1 <;> split <;> omega

theorem estimate_nonneg (hlog : Log2Ok log2) {L : Nat} (hmono : Log2Up log2 L) (hk : TallyOk L ll d) (x : LitLen) : 0 ≤ estimate (lgOf log2) ll d x := by
  have h1 := surprise_nonneg hlog hmono (a := ll) (by rw [hk.ll0]; omega) (by rw [hk.ll0]; exact hmono.lo) hk.ll1
  have h2 := surprise_nonneg hlog hmono (a := d) (by rw [hk.d0]; omega) (by rw [hk.d0]; have := hmono.lo; omega) hk.d1
  cases x with
  | literal b => exact h1 b
  | lengthDist len dist =>
    show (0 : ℚ) ≤ (lengthExtra.getD (lengthSymbol len - 257) 0 : ℚ) + (distExtra.getD (distSymbol dist) 0 : ℚ) + surprise _ ll (lengthSymbol len) + surprise _ d (distSymbol dist)
    exact add_nonneg (add_nonneg (add_nonneg (Nat.cast_nonneg _) (Nat.cast_nonneg _)) (h1 _)) (h2 _)

theorem costStat_ok (hlog : Log2Ok log2) {L : Nat} (hmono : Log2Up log2 L) (hk : TallyOk L ll d) (hc : CostsOf log2 ll d s) :
    CostOk (ieeeLaws hlog) (getCostStat (ieee log2) s) where
  lit b hb := by
    obtain ⟨c, e, h⟩ := cost_lit hlog hmono hk hc hb
    exact ⟨_, e, c, rfl, by rw [abs_of_nonneg h.c0]; exact h.c1⟩
  copy len dist h1 h2 h3 h4 := by
    obtain ⟨c, e, h, -⟩ := cost_copy hlog hmono hk hc (len := len) (dist := dist) ⟨h1, h2, h3, h4⟩
    exact ⟨_, e, c, rfl, by rw [abs_of_nonneg h.c0]; exact h.c1⟩

theorem itemsAlong_costQ (lg : Nat → ℚ) (ll d : Array Nat) (arr : Array UInt8) (O : Oracle) : ∀ (ks : List Nat) (pos : Nat),
    estimateAll lg ll d (itemsAlong arr O pos ks) = pathCostQ (fun pos k => estimate lg ll d (itemOf arr O pos k)) pos ks
  | [], _ => rfl
  | k :: ks, pos => by
    rw [itemsAlong, estimateAll, List.map_cons, List.sum_cons, pathCostQ]
    exact congrArg _ (itemsAlong_costQ lg ll d arr O ks (pos + k))

theorem itemsAlong_length (arr : Array UInt8) (O : Oracle) : ∀ (ks : List Nat) (pos : Nat), (itemsAlong arr O pos ks).length = ks.length
  | [], _ => rfl
  | k :: ks, pos => by rw [itemsAlong, List.length_cons, itemsAlong_length arr O ks, List.length_cons]

section
variable {arr : Array UInt8} {ws instart : Nat} {O : Oracle}

theorem IsOracle.repeats (hO : IsOracle arr ws O) {pos k : Nat} (hp : ws ≤ pos) (hpos : pos ≤ arr.size) (h3 : 3 ≤ k) (hk : k ≤ O.L pos) :
    O.D pos k ≤ 32767 ∧ Repeats arr pos k (O.D pos k) := by
  have htm := hO.tm pos k hp (by omega) hk
  have := htm.d1
  have := htm.d2
  have := htm.d3
  have := hO.le' pos hpos
  exact ⟨by omega, by omega, by omega, by omega, htm.eq⟩

theorem nearest_along (hO : IsOracle arr ws O) (hws : ws + 32767 ≤ instart ∨ ws = 0) (hwp : ws ≤ instart)
    (hp : ∀ pos, instart ≤ pos → pos < arr.size → Plain arr pos) : ∀ (ks : List Nat) (a : Nat), instart ≤ a → PathOk O a ks arr.size →
      Nearest arr a (itemsAlong arr O a ks)
  | [], _, _, _ => trivial
  | k :: ks, a, ha, h => by
    have hle := h.2.le
    rw [itemsAlong]
    refine ⟨?_, ?_⟩
    · intro len dist e dist' hd hr
      split at e
      · cases e
      · cases e
        obtain ⟨h1, h2⟩ := h
        have := hO.le a
        have := hr.2.2.1
        exact ((hp a ha (by omega)).best hO (by omega) (by omega) (len := k) (dist := dist') ⟨by omega, by omega, hr.1, hd, hr.2.1, hr.2.2.1, hr.2.2.2⟩).2
    · have := nearest_along hO hws hwp hp ks (a + k) (by omega) h.2
      split
      · rename_i hlt
        rw [show LitLen.size (.literal _) = 1 from rfl]
        have := h.1
        have hk1 : k = 1 := by omega
        subst hk1
        exact nearest_along hO hws hwp hp ks (a + 1) (by omega) h.2
      · exact this

theorem nearest_path (hO : IsOracle arr ws O) (hws : ws + 32767 ≤ instart ∨ ws = 0) (hwp : ws ≤ instart)
    (hp : ∀ pos, instart ≤ pos → pos < arr.size → Plain arr pos) : ∀ (xs : List LitLen) (a : Nat), instart ≤ a → Parses arr a xs arr.size → Nearest arr a xs →
      PathOk O a (xs.map LitLen.size) arr.size ∧ itemsAlong arr O a (xs.map LitLen.size) = xs
  | [], a, _, h, _ => ⟨h, rfl⟩
  | x :: xs, a, ha, h, hn => by
    obtain ⟨g1, g2⟩ := nearest_path hO hws hwp hp xs (a + x.size) (by omega) h.2 hn.2
    have hle := h.1.le
    have h1 := LitLen.size_pos h.1
    have key : (x.size = 1 ∨ 3 ≤ x.size ∧ x.size ≤ O.L a) ∧ itemOf arr O a x.size = x := by
      cases x with
      | literal v =>
        obtain ⟨u, e, rfl⟩ := h.1
        exact ⟨.inl rfl, by rw [itemOf, if_pos (by simp [LitLen.size]), e]; rfl⟩
      | lengthDist len dist =>
        obtain ⟨b1, b2⟩ := (hp a ha (by omega)).best hO (by omega) (by omega) h.1
        obtain ⟨k1, k2, k3, k4, k5, k6, k7⟩ := h.1
        refine ⟨.inr ⟨k1, b1⟩, ?_⟩
        obtain ⟨c1, c2⟩ := hO.repeats (by omega) (by omega) k1 b1
        have := hn.1 len dist rfl _ c1 c2
        rw [show LitLen.size (.lengthDist len dist) = len from rfl, itemOf, if_neg (by omega), show O.D a len = dist by omega]
    refine ⟨⟨key.1, g1⟩, ?_⟩
    rw [List.map_cons, itemsAlong, g2]
    exact congrArg (· :: xs) key.2

theorem qinv_start (W : Nat → Nat → ℚ) (arr : Array UInt8) (O : Oracle) (instart : Nat) (hc) :
    QInv W arr O instart instart ((Array.replicate (arr.size - instart + 1) (Fp.inf false)).set 0 (Fp.fin 0) hc) (Array.replicate (arr.size - instart + 1) 0) := by
  have hn0 : ∀ (x k : Nat), (Array.replicate (arr.size - instart + 1) 0)[x]? = some k → k = 0 := by
    intro x k hx
    rw [Array.getElem?_replicate] at hx
    split at hx
    · cases hx; rfl
    · cases hx
  refine ⟨fun x => if x = 0 then some 0 else none, ⟨by simp, by simp, ?_, rfl, ?_, ?_, ?_⟩⟩
  · intro x hx
    rw [Array.getElem?_set]
    by_cases h0 : x = 0
    · subst h0
      simp [encQ]
    · rw [if_neg (by omega), if_neg h0, Array.getElem?_replicate, if_pos (by omega), encQ]
  · intro x m hx
    split at hx
    · cases hx
      exact ⟨le_refl _, by norm_num, 0, by unfold round32 Fp.round; dsimp only; rw [zero_div, rne_zero]; simp⟩
    · cases hx
  · intro x k hx hk
    exact absurd (hn0 x k hx) hk
  · rintro j k ⟨h, -⟩
    omega
end

/-- A pass, with exact exponents. -/
def NearlyCheapest (lg : Nat → ℚ) (ll d : Array Nat) (xs ys : List LitLen) : Prop :=
  (1 - tolU) ^ xs.length * estimateAll lg ll d xs ≤ (1 + tolU) ^ ys.length * (estimateAll lg ll d ys + ys.length * tolD) + xs.length * tolD

theorem statRun_cheapest (hlog : Log2Ok log2) {L : Nat} (hmono : Log2Up log2 L) (hk : TallyOk L ll d) (hcs : CostsOf log2 ll d s)
    {O : Oracle} {data : Array UInt8} {instart inend : Nat}
    (hO : IsOracle (data.extract 0 inend) (instart - 32768) O) (h1 : instart ≤ inend) (h2 : inend ≤ data.size)
    (hp : ∀ pos, instart ≤ pos → pos < inend → Plain (data.extract 0 inend) pos)
    (hrun : ∀ t, instart ≤ t → ¬ Run (data.extract 0 inend) t 775) :
    CRet (data.extract 0 inend) O instart (fun lmc => lz77OptimalRun (ieee log2) lmc data instart inend (getCostStat (ieee log2) s) Lz77Store.new)
      (fun st => StoreOk data instart inend st ∧ Nearest (data.extract 0 inend) instart st.litlens.toList ∧
        ∀ xs, Parses (data.extract 0 inend) instart xs inend → Nearest (data.extract 0 inend) instart xs →
          NearlyCheapest (lgOf log2) ll d st.litlens.toList xs) := by
  have hsz : (data.extract 0 inend).size = inend := by rw [Array.size_extract]; omega
  obtain ⟨mc, hW⟩ := statWeights hlog hmono hk hcs hO (instart := instart) (Nat.sub_le _ _)
  have hW0 : ∀ pos k, 0 ≤ (fun pos k => estimate (lgOf log2) ll d (itemOf (data.extract 0 inend) O pos k)) pos k := fun pos k => estimate_nonneg hlog hmono hk _
  obtain ⟨la, ⟨hla, costs, hx⟩, g1⟩ := getBestLengths_inv (L := ieeeLaws hlog) hO (costStat_ok hlog hmono hk hcs) h1 h2
    (QInv (fun pos k => estimate (lgOf log2) ll d (itemOf (data.extract 0 inend) O pos k)) (data.extract 0 inend) O instart)
    (fun hc => by
      have := qinv_start (fun pos k => estimate (lgOf log2) ll d (itemOf (data.extract 0 inend) O pos k)) (data.extract 0 inend) O instart
      simp only [hsz] at this
      exact this hc)
    (by
      intro mc' b b' e hb hlt hX hs
      have e' := hW.min.symm.trans e
      cases e'
      exact step_nearQ hO hW (Nat.sub_le _ _) hrun hb (by rw [hsz]; exact hlt) hX hs)
  obtain ⟨path, e, hpath⟩ := traceFrom_spec hO.le hla (inend - instart) (Nat.le_refl _)
  rw [show instart + (inend - instart) = inend by omega] at hpath
  obtain ⟨st, hs, g2⟩ := followPath_spec hO h1 h2 hpath
  refine ⟨st, ⟨hs.1, ?_, fun xs hxs hn => ?_⟩, fun lmc hc => ?_⟩
  · rw [hs.2]
    exact nearest_along hO (by omega) (Nat.sub_le _ _) (fun pos a b => hp pos a (by omega)) _ instart (Nat.le_refl _) (by rw [hsz]; exact hpath)
  · obtain ⟨g, hX⟩ := hx
    obtain ⟨c1, c2⟩ := nearest_path hO (by omega) (Nat.sub_le _ _) (fun pos a b => hp pos a (by omega)) xs instart (Nat.le_refl _) (by rw [hsz]; exact hxs) hn
    rw [hsz] at c1
    obtain ⟨m, e1, e2⟩ := pathQ_le hW0 hX (xs.map LitLen.size) 0 0 hX.zero (by rw [Nat.add_zero]; exact c1)
    obtain ⟨-, v, e3, e4⟩ := traceQ_cost hX hW0 (inend - instart) path e
    rw [e1] at e3
    cases e3
    rw [Nat.add_zero, ← itemsAlong_costQ, c2, List.length_map, zero_add] at e2
    rw [← itemsAlong_costQ, ← hs.2] at e4
    unfold NearlyCheapest
    have hlen : st.litlens.toList.length = path.length := by rw [hs.2, itemsAlong_length, List.length_reverse]
    rw [hlen]
    linarith
  · obtain ⟨lmc', hc', e1⟩ := g1 lmc hc
    obtain ⟨lmc2, hc2, e2⟩ := g2 lmc' hc'
    refine ⟨lmc2, hc2, ?_⟩
    show lz77OptimalRun _ _ _ _ _ _ _ = _
    have e1 : getBestLengths (ieee log2) lmc data instart inend (getCostStat (ieee log2) s) = some (la, lmc') := e1
    rw [lz77OptimalRun, e1, some_bind]
    dsimp only
    rw [trace, e, some_bind]
    exact e2

theorem nearly_simple {lg : Nat → ℚ} {xs ys : List LitLen} (h : NearlyCheapest lg ll d xs ys) (hx : 0 ≤ estimateAll lg ll d xs) (hy : 0 ≤ estimateAll lg ll d ys) {n : Nat}
    (hn1 : xs.length ≤ n) (hn2 : ys.length ≤ n) (hn : n ≤ 2 ^ 23) :
    estimateAll lg ll d xs * (1 - n / 2 ^ 23) ^ 2 ≤ estimateAll lg ll d ys + n / 2 ^ 31 := by
  unfold NearlyCheapest at h
  have hu : (0 : ℚ) ≤ tolU := by unfold tolU; norm_num
  have hu1 : tolU ≤ (1 : ℚ) := by unfold tolU; norm_num
  have hd : (0 : ℚ) ≤ tolD := by unfold tolD; norm_num
  have ht : (1 : ℚ) - n / 2 ^ 23 = 1 - n * tolU := by unfold tolU; ring
  have ht0 : (0 : ℚ) ≤ 1 - n * tolU := by
    have : (n : ℚ) ≤ 2 ^ 23 := by exact_mod_cast hn
    unfold tolU
    linarith
  have hnu : 0 ≤ (n : ℚ) * tolU := by positivity
  have ht1 : (1 : ℚ) - n * tolU ≤ 1 := by linarith
  have hle : ∀ k, k ≤ n → 1 - n * tolU ≤ (1 - tolU) ^ k := by
    intro k hk
    have hb := one_add_mul_le_pow (show (-2 : ℚ) ≤ -tolU by linarith) k
    have : (k : ℚ) * tolU ≤ n * tolU := mul_le_mul_of_nonneg_right (by exact_mod_cast hk) hu
    rw [← sub_eq_add_neg] at hb
    linarith
  have hB : (1 + tolU) ^ ys.length * (1 - n * tolU) ≤ 1 := by
    refine le_trans (mul_le_mul_of_nonneg_left (hle _ hn2) (by positivity)) ?_
    rw [← mul_pow]
    refine pow_le_one₀ (mul_nonneg (by linarith) (by linarith)) ?_
    nlinarith
  have hA := hle _ hn1
  rw [ht]
  have hn31 : (n : ℚ) / 2 ^ 31 = n * tolD + n * tolD := by unfold tolD; ring
  rw [hn31]
  have k1 : (xs.length : ℚ) * tolD ≤ n * tolD := mul_le_mul_of_nonneg_right (by exact_mod_cast hn1) hd
  have k2 : (ys.length : ℚ) * tolD ≤ n * tolD := mul_le_mul_of_nonneg_right (by exact_mod_cast hn2) hd
  have k3 : (0 : ℚ) ≤ (ys.length : ℚ) * tolD := by positivity
  have k4 : (0 : ℚ) ≤ (xs.length : ℚ) * tolD := by positivity
  generalize estimateAll lg ll d xs = X at *
  generalize estimateAll lg ll d ys = Y at *
  generalize (1 - tolU) ^ xs.length = A at *
  generalize (1 + tolU) ^ ys.length = B at *
  generalize (1 : ℚ) - n * tolU = t at *
  have s1 := mul_le_mul_of_nonneg_right hA (mul_nonneg hx ht0)
  have s2 := mul_le_mul_of_nonneg_right h ht0
  have s3 := mul_le_mul_of_nonneg_right hB (add_nonneg hy k3)
  have s4 := mul_le_mul_of_nonneg_right ht1 k4
  nlinarith

end Zopfli
