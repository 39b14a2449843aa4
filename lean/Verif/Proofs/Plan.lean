import Verif.Proofs.Split
import Verif.Model.Deflate
/-! # The LZ77 data of a part and its block boundaries -/

namespace Zopfli

variable {F : FloatOps}

theorem appendFold_spec {data : Array UInt8} {a : Nat} : ∀ (xs : List LitLen) (b c : Nat) (s : Lz77Store), StoreOk data a b s → Parses data b xs c →
    Ret ((xs.zip (posList b xs)).foldlM (fun s (x, p) => s.appendStoreItem x p) s) fun s' =>
      StoreOk data a c s' ∧ s'.litlens.toList = s.litlens.toList ++ xs
  | [], b, c, s, h1, h2 => by cases h2; exact ⟨s, rfl, h1, by simp⟩
  | x :: xs, b, c, s, h1, h2 => by
    rw [posList, List.zip_cons_cons, List.foldlM_cons]
    refine Ret.bind' (h1.append h2.1) ?_
    rintro s1 ⟨g1, g2⟩
    refine Ret.mono (appendFold_spec xs _ c s1 g1 h2.2) ?_
    rintro s2 ⟨k1, k2⟩
    exact ⟨k1, by rw [k2, g2]; simp⟩

theorem appendStore_spec {data : Array UInt8} {a b c : Nat} {s t : Lz77Store} (h1 : StoreOk data a b s) (h2 : StoreOk data b c t) :
    Ret (appendStore s t) fun s' => StoreOk data a c s' ∧ s'.litlens.toList = s.litlens.toList ++ t.litlens.toList := by
  unfold appendStore
  rw [h2.poss]
  exact appendFold_spec _ _ _ _ h1 h2.parses

theorem StoreOk.size_pos {data : Array UInt8} {a b : Nat} {s : Lz77Store} (h : StoreOk data a b s) (hlt : a < b) : 0 < s.size := by
  by_contra hc
  have hs : s.litlens.toList = [] := by
    rw [← List.length_eq_zero_iff]
    have : s.size = s.litlens.toList.length := by simp [Lz77Store.size]
    omega
  have := h.parses
  rw [hs] at this
  have : a = b := this
  omega

theorem Lz77Store.size_eq (s : Lz77Store) : s.size = s.litlens.toList.length := by simp [Lz77Store.size]

/-- `lz77_optimal` with a fresh cache. -/
theorem lz77Optimal_new (L : FloatLaws F) {data : Array UInt8} {instart inend : Nat} (h1 : instart ≤ inend) (h2 : inend ≤ data.size)
    (hsz : data.size < 2 * L.lim) (maxIt maxWithout : Nat) :
    Ret (lz77Optimal F (.lmc (.new (inend - instart))) data instart inend maxIt maxWithout) (StoreOk data instart inend) := by
  obtain ⟨O, hO⟩ := oracle_exists (data.extract 0 inend) (instart - 32768)
  obtain ⟨s, hs, g⟩ := lz77Optimal_spec L hO h1 h2 hsz maxIt maxWithout
  have hc := cacheInv_new (data.extract 0 inend) O instart
  rw [show (data.extract 0 inend).size = inend by simp; omega] at hc
  exact ⟨s, g _ hc, hs⟩

/-- `lz77_optimal_fixed` with a fresh cache. -/
theorem lz77OptimalFixed_new (L : FloatLaws F) {data : Array UInt8} {instart inend : Nat} (h1 : instart ≤ inend) (h2 : inend ≤ data.size) :
    Ret (lz77OptimalFixed F (.lmc (.new (inend - instart))) data instart inend Lz77Store.new) fun r => StoreOk data instart inend r.1 := by
  obtain ⟨O, hO⟩ := oracle_exists (data.extract 0 inend) (instart - 32768)
  obtain ⟨s, hs, g⟩ := lz77OptimalRun_spec hO (costFixed_ok L) h1 h2
  have hc := cacheInv_new (data.extract 0 inend) O instart
  rw [show (data.extract 0 inend).size = inend by simp; omega] at hc
  obtain ⟨lmc', -, e⟩ := g _ hc
  exact ⟨(s, lmc'), e, hs⟩

/-- Split points collected so far: increasing, positive, at most `n`. -/
def SplitLe (n : Nat) (sp : List Nat) : Prop := sp.Pairwise (· < ·) ∧ ∀ x ∈ sp, 0 < x ∧ x ≤ n

theorem SplitLe.push {n n' : Nat} {sp : List Nat} (h : SplitLe n sp) (hlt : n < n') : SplitLe n' (sp ++ [n']) := by
  refine ⟨?_, ?_⟩
  · rw [List.pairwise_append]
    refine ⟨h.1, by simp, fun x hx y hy => ?_⟩
    have := (h.2 x hx).2
    simp at hy
    omega
  · intro x hx
    rw [List.mem_append] at hx
    rcases hx with hx | hx
    · have := h.2 x hx; omega
    · simp at hx; omega

theorem SplitLe.ok {n n' : Nat} {sp : List Nat} (h : SplitLe n sp) (hlt : n < n') : SplitOk n' sp :=
  ⟨h.1, fun x hx => by have := h.2 x hx; omega⟩

theorem optimizeParts_spec (L : FloatLaws F) (options : Options) {data : Array UInt8} {instart inend : Nat} (h2 : inend ≤ data.size)
    (hsz : data.size < 2 * L.lim) : ∀ (items : List Nat) (lz77 : Lz77Store) (sp : List Nat) (tc : F.F64) (last : Nat),
    items.Pairwise (· < ·) → (∀ x ∈ items, last < x ∧ x < inend) → StoreOk data instart last lz77 → SplitLe lz77.size sp →
    Ret (optimizeParts F options data items (lz77, sp, tc, last)) fun r => StoreOk data instart r.2.2.2 r.1 ∧ SplitLe r.1.size r.2.1 ∧
      r.2.1.length = sp.length + items.length ∧ (if items = [] then r.2.2.2 = last ∧ r.2.1 = sp else r.2.2.2 < inend)
  | [], lz77, sp, tc, last, h3, h4, h5, h6 => ⟨_, rfl, h5, h6, by simp, by simp⟩
  | item :: rest, lz77, sp, tc, last, h3, h4, h5, h6 => by
    have hi := h4 item (by simp)
    rw [List.pairwise_cons] at h3
    rw [optimizeParts, usub_eq (by omega), some_bind]
    refine Ret.bind' (lz77Optimal_new L (by omega) (by omega) hsz _ _) fun store hst => ?_
    obtain ⟨c, e⟩ := autoType_ret (F := F) hst.inv (lstart := 0) (lend := store.size) (by omega) (by omega)
    rw [e, some_bind]
    dsimp only
    have hpos := hst.size_pos hi.1
    rw [guardR_eq (by simp only [decide_eq_true_eq]; exact hpos), some_bind]
    refine Ret.bind' (appendStore_spec h5 hst) ?_
    rintro s' ⟨g1, g2⟩
    have hsize : s'.size = lz77.size + store.size := by
      rw [Lz77Store.size_eq, Lz77Store.size_eq, Lz77Store.size_eq, g2, List.length_append]
    refine Ret.mono (optimizeParts_spec L options h2 hsz rest s' _ _ item h3.2 (fun x hx => ⟨h3.1 x hx, (h4 x (by simp [hx])).2⟩) g1
      (h6.push (by omega))) ?_
    rintro ⟨a, b, c, d⟩ ⟨k1, k2, k3, k4⟩
    refine ⟨k1, k2, ?_, ?_⟩
    · dsimp only at k3 ⊢
      rw [k3]; simp; omega
    · rw [if_neg (by simp)]
      dsimp only at k4 ⊢
      split at k4
      · omega
      · exact k4

theorem totalCostOf_ret {lz77 : Lz77Store} (h : StoreInv lz77) : ∀ (sp : List Nat) (last : Nat) (acc : F.F64),
    sp.Pairwise (· < ·) → (∀ x ∈ sp, last ≤ x ∧ x ≤ lz77.size) → last ≤ lz77.size → ∃ c, totalCostOf F lz77 sp last acc = some c
  | [], last, acc, _, _, h3 => by
    obtain ⟨c, e⟩ := autoType_ret (F := F) h h3 (Nat.le_refl _)
    exact ⟨_, by rw [totalCostOf, e]; rfl⟩
  | item :: rest, last, acc, h1, h2, h3 => by
    have hi := h2 item (by simp)
    rw [List.pairwise_cons] at h1
    obtain ⟨c, e⟩ := autoType_ret (F := F) h hi.1 hi.2
    rw [totalCostOf, e, some_bind]
    exact totalCostOf_ret h rest item _ h1.2 (fun x hx => ⟨Nat.le_of_lt (h1.1 x hx), (h2 x (by simp [hx])).2⟩) hi.2

/-- The plan: the LZ77 data describes the part, and the boundaries partition it within the limit. -/
theorem blocksplitPlan_spec (L : FloatLaws F) (options : Options) {data : Array UInt8} {instart inend : Nat} (h1 : instart ≤ inend)
    (h2 : inend ≤ data.size) (hsz : data.size < 2 * L.lim) :
    Ret (blocksplitPlan F options data instart inend) fun r => StoreOk data instart inend r.1 ∧ SplitOk r.1.size r.2 ∧
      r.2.length + 1 ≤ Max.max 1 options.maximumBlockSplits := by
  unfold blocksplitPlan
  refine Ret.bind' (blocksplit_spec h1 h2 _) ?_
  rintro spu ⟨a1, a2, a3⟩
  refine Ret.bind' (optimizeParts_spec L options h2 hsz spu _ _ _ instart a1 a2 (StoreOk.new _ _) ⟨by simp, by simp⟩) ?_
  rintro ⟨lz77, sp, tc, last⟩ ⟨b1, b2, b3, b4⟩
  dsimp only at b1 b2 b3 b4 ⊢
  have hlast : last ≤ inend := by
    split at b4
    · omega
    · omega
  rw [usub_eq hlast, some_bind]
  refine Ret.bind' (lz77Optimal_new L hlast h2 hsz _ _) fun store hst => ?_
  obtain ⟨c, e⟩ := autoType_ret (F := F) hst.inv (lstart := 0) (lend := store.size) (by omega) (by omega)
  rw [e, some_bind]
  have hpos : instart = inend ∨ store.size > 0 := by
    by_cases hne : instart = inend
    · exact .inl hne
    · refine .inr (hst.size_pos ?_)
      split at b4
      · omega
      · omega
  rw [guardR_eq (by simp only [decide_eq_true_eq]; exact hpos), some_bind]
  refine Ret.bind' (appendStore_spec b1 hst) ?_
  rintro s' ⟨g1, g2⟩
  have hsize : s'.size = lz77.size + store.size := by
    rw [Lz77Store.size_eq, Lz77Store.size_eq, Lz77Store.size_eq, g2, List.length_append]
  have hsp : SplitOk s'.size sp := by
    by_cases hn : spu = []
    · rw [if_pos hn] at b4
      rw [b4.2]
      exact ⟨by simp, by simp⟩
    · rw [if_neg hn] at b4
      have := hst.size_pos b4
      exact b2.ok (by omega)
  have hlen : sp.length + 1 ≤ Max.max 1 options.maximumBlockSplits := by
    rw [b3]; simpa using a3
  split
  · refine Ret.bind' (blocksplitLz77_spec g1.inv _) ?_
    rintro sp2 ⟨k1, k2⟩
    obtain ⟨c2, e2⟩ := totalCostOf_ret (F := F) g1.inv sp2 0 (F.ofUsize 0) k1.1 (fun x hx => by have := k1.2 x hx; omega) (by omega)
    rw [e2, some_bind]
    split
    · exact ⟨_, rfl, g1, k1, k2⟩
    · exact ⟨_, rfl, g1, hsp, hlen⟩
  · exact ⟨_, rfl, g1, hsp, hlen⟩

end Zopfli
