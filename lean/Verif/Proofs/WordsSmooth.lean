import Verif.Model.Words
import Verif.Proofs.Smooth
import Verif.Proofs.WordsCodes
import Verif.Proofs.Katajainen2
/-! # The sums in `optimize_huffman_for_rle` fit in a machine word

Replacing a run of `stride` counts by their rounded average adds at most `stride` to the sum of the counts. -/

namespace Zopfli.Words

variable [Checks]
set_option linter.unusedSectionVars false

theorem forRange_congr_inv {σ : Type} {f g : Nat → σ → Option σ} (I : Nat → σ → Prop) {a b : Nat} {s : σ} (hab : a ≤ b) (h0 : I a s)
    (h : ∀ i s, a ≤ i → i < b → I i s → f i s = g i s ∧ ∀ s', g i s = some s' → I (i + 1) s') :
    forRange a b s f = forRange a b s g ∧ ∀ s', forRange a b s g = some s' → I b s' := by
  induction b, hab using Nat.le_induction with
  | base =>
    rw [forRange_empty (Nat.le_refl _), forRange_empty (Nat.le_refl _)]
    exact ⟨rfl, fun s' e => by cases e; exact h0⟩
  | succ b hab ih =>
    obtain ⟨e1, e2⟩ := ih fun i s hi hi' => h i s hi (by omega)
    rw [forRange_snoc hab, forRange_snoc hab, e1]
    cases hg : forRange a b s g with
    | none => exact ⟨rfl, fun _ e => by cases e⟩
    | some s1 => exact h b s1 hab (by omega) (e2 s1 hg)

/-- Sum of a range of the counts. -/
def seg (c : Array Nat) (a b : Nat) : Nat := ∑ j ∈ Finset.Ico a b, c.getD j 0

theorem seg_add (c : Array Nat) {a b d : Nat} (h1 : a ≤ b) (h2 : b ≤ d) : seg c a d = seg c a b + seg c b d :=
  (Finset.sum_Ico_consecutive _ h1 h2).symm

theorem seg_self (c : Array Nat) (a : Nat) : seg c a a = 0 := by simp [seg]

theorem seg_succ (c : Array Nat) {a b : Nat} (h : a ≤ b) : seg c a (b + 1) = seg c a b + c.getD b 0 := by
  unfold seg; exact Finset.sum_Ico_succ_top h _

theorem seg_total (c : Array Nat) : seg c 0 c.size = c.toList.sum := by
  have h := Katajainen.sum_map_finset c.toList id
  rw [List.map_id] at h
  rw [h, seg, ← Finset.range_eq_Ico, Array.length_toList]
  apply Finset.sum_congr rfl
  intro j hj
  simp

theorem get_le_seg (c : Array Nat) {i : Nat} {x : Nat} (h : c[i]? = some x) : x ≤ seg c 0 c.size := by
  have hi : i < c.size := by
    by_contra hge
    rw [Array.getElem?_eq_none (by omega)] at h
    cases h
  rw [seg_add c (Nat.zero_le i) (Nat.le_of_lt hi), seg_add c (Nat.le_succ i) hi, seg_succ c (Nat.le_refl i), seg_self]
  have : c.getD i 0 = x := by simp [h]
  omega

/-- The counts after a run has been replaced. -/
theorem seg_set (c : Array Nat) {count i stride : Nat} (h : stride ≤ i) (h' : i ≤ c.size) :
    seg (c.mapIdx fun k x => if i - stride ≤ k ∧ k < i then count else x) 0 c.size + seg c (i - stride) i = seg c 0 c.size + stride * count := by
  have hget : ∀ j, j < c.size → (c.mapIdx fun k x => if i - stride ≤ k ∧ k < i then count else x).getD j 0 = if i - stride ≤ j ∧ j < i then count else c.getD j 0 := by
    intro j hj
    simp [hj]
  rw [seg_add _ (Nat.zero_le (i - stride)) (show i - stride ≤ c.size by omega), seg_add _ (show i - stride ≤ i by omega) h',
    seg_add c (Nat.zero_le (i - stride)) (show i - stride ≤ c.size by omega), seg_add c (show i - stride ≤ i by omega) h']
  have e1 : seg (c.mapIdx fun k x => if i - stride ≤ k ∧ k < i then count else x) 0 (i - stride) = seg c 0 (i - stride) := by
    apply Finset.sum_congr rfl
    intro j hj
    have := Finset.mem_Ico.mp hj
    rw [hget j (by omega), if_neg (by omega)]
  have e2 : seg (c.mapIdx fun k x => if i - stride ≤ k ∧ k < i then count else x) i c.size = seg c i c.size := by
    apply Finset.sum_congr rfl
    intro j hj
    have := Finset.mem_Ico.mp hj
    rw [hget j (by omega), if_neg (by omega)]
  have e3 : seg (c.mapIdx fun k x => if i - stride ≤ k ∧ k < i then count else x) (i - stride) i = stride * count := by
    have : seg (c.mapIdx fun k x => if i - stride ≤ k ∧ k < i then count else x) (i - stride) i = ∑ j ∈ Finset.Ico (i - stride) i, count := by
      apply Finset.sum_congr rfl
      intro j hj
      have := Finset.mem_Ico.mp hj
      rw [hget j (by omega), if_pos (by omega)]
    rw [this]
    simp
    left
    omega
  omega

structure SumInv (T length N i : Nat) (st : RleState) : Prop where
  size : st.counts.size = N
  tot : seg st.counts 0 N ≤ T + N
  run : i ≤ length → st.stride ≤ i ∧ st.sum = seg st.counts (i - st.stride) i ∧ seg st.counts 0 N ≤ T + (i - st.stride)

theorem rleStep_words {W T length N : Nat} {good : Array Bool} (hlen : length ≤ N) (hW : 4 * (T + N) + N + 2 < 2 ^ W) {i : Nat} (hi : i ≤ length)
    {st : RleState} (h : SumInv T length N i st) :
    rleStep W length good i st = Zopfli.rleStep length good i st ∧
      ∀ st', Zopfli.rleStep length good i st = some st' → SumInv T length N (i + 1) st' := by
  obtain ⟨counts, stride, limit, sum⟩ := st
  obtain ⟨hs, htot, hrun⟩ := h
  dsimp only at hs htot hrun
  obtain ⟨r1, r2, r3⟩ := hrun hi
  subst hs
  have hsumle : sum ≤ T + counts.size := by
    have := seg_add counts (Nat.zero_le (i - stride)) (show i - stride ≤ counts.size by omega)
    have := seg_add counts (show i - stride ≤ i by omega) (show i ≤ counts.size by omega)
    omega
  unfold rleStep Zopfli.rleStep
  dsimp only
  cases hcol : (if i = length then some true else do if ← good[i]? then some true else farFrom (← counts[i]?) limit) with
  | none => exact ⟨rfl, fun _ e => by cases e⟩
  | some collapse =>
    rw [some_bind, some_bind]
    -- the collapse
    have hmid : (if collapse then do
        let counts ←
          (if stride ≥ 4 ∨ (stride ≥ 3 ∧ sum = 0) then do
            let count ← (if sum = 0 then some 0 else do some (max ((← usize W (sum + stride / 2)) / stride) 1))
            setCountsToCount counts count i stride
          else some counts)
        let limit ←
          (if length > 2 ∧ i < length - 3 then do
            let s ← usize W ((← counts[i]?) + (← counts[i + 1]?))
            let s ← usize W (s + (← counts[i + 2]?))
            let s ← usize W (s + (← counts[i + 3]?))
            some ((← usize W (s + 2)) / 4)
          else if i < length then counts[i]?
          else some 0)
        some (counts, 0, limit, 0)
      else some (counts, stride, limit, sum)) =
      (if collapse then do
        let counts ←
          (if stride ≥ 4 ∨ (stride ≥ 3 ∧ sum = 0) then
            setCountsToCount counts (if sum = 0 then 0 else max ((sum + stride / 2) / stride) 1) i stride
          else some counts)
        let limit ←
          (if length > 2 ∧ i < length - 3 then do
            some (((← counts[i]?) + (← counts[i + 1]?) + (← counts[i + 2]?) + (← counts[i + 3]?) + 2) / 4)
          else if i < length then counts[i]?
          else some 0)
        some (counts, 0, limit, 0)
      else some (counts, stride, limit, sum)) ∧
      ∀ r, (if collapse then do
        let counts ←
          (if stride ≥ 4 ∨ (stride ≥ 3 ∧ sum = 0) then
            setCountsToCount counts (if sum = 0 then 0 else max ((sum + stride / 2) / stride) 1) i stride
          else some counts)
        let limit ←
          (if length > 2 ∧ i < length - 3 then do
            some (((← counts[i]?) + (← counts[i + 1]?) + (← counts[i + 2]?) + (← counts[i + 3]?) + 2) / 4)
          else if i < length then counts[i]?
          else some 0)
        some (counts, 0, limit, 0)
      else some (counts, stride, limit, sum)) = some r →
        r.1.size = counts.size ∧ r.2.1 ≤ i ∧ r.2.2.2 = seg r.1 (i - r.2.1) i ∧ seg r.1 0 counts.size ≤ T + (i - r.2.1) := by
      cases collapse with
      | false => exact ⟨rfl, fun r e => by cases e; exact ⟨rfl, r1, r2, r3⟩⟩
      | true =>
        simp only [if_true]
        have hc : (if stride ≥ 4 ∨ (stride ≥ 3 ∧ sum = 0) then do
            let count ← (if sum = 0 then some 0 else do some (max ((← usize W (sum + stride / 2)) / stride) 1))
            setCountsToCount counts count i stride
          else some counts) = (if stride ≥ 4 ∨ (stride ≥ 3 ∧ sum = 0) then
            setCountsToCount counts (if sum = 0 then 0 else max ((sum + stride / 2) / stride) 1) i stride
          else some counts) := by
          split
          · split
            · rfl
            · rw [usize_eq (show sum + stride / 2 < 2 ^ W by omega)]
              rfl
          · rfl
        rw [hc]
        cases hcs : (if stride ≥ 4 ∨ (stride ≥ 3 ∧ sum = 0) then
            setCountsToCount counts (if sum = 0 then 0 else max ((sum + stride / 2) / stride) 1) i stride
          else some counts) with
        | none => exact ⟨rfl, fun _ e => by cases e⟩
        | some c =>
          rw [some_bind, some_bind]
          have hcz : c.size = counts.size ∧ seg c 0 counts.size ≤ T + i := by
            split at hcs
            · rename_i hst
              rw [setCounts_eq r1 (by omega)] at hcs
              cases hcs
              refine ⟨by simp, ?_⟩
              have := seg_set counts (count := if sum = 0 then 0 else max ((sum + stride / 2) / stride) 1) r1 (show i ≤ counts.size by omega)
              have hm : stride * (if sum = 0 then 0 else max ((sum + stride / 2) / stride) 1) ≤ sum + stride := by
                split
                · omega
                · rcases Nat.le_total ((sum + stride / 2) / stride) 1 with hle | hle
                  · rw [Nat.max_eq_right hle]; omega
                  · rw [Nat.max_eq_left hle]
                    have := Nat.mul_div_le (sum + stride / 2) stride
                    omega
              omega
            · cases hcs
              exact ⟨rfl, by omega⟩
          obtain ⟨z1, z2⟩ := hcz
          have hg : ∀ (k x : Nat), c[k]? = some x → x ≤ T + counts.size := by
            intro k x hx
            have := get_le_seg c hx
            rw [z1] at this
            omega
          have hlim : (if length > 2 ∧ i < length - 3 then do
              let s ← usize W ((← c[i]?) + (← c[i + 1]?))
              let s ← usize W (s + (← c[i + 2]?))
              let s ← usize W (s + (← c[i + 3]?))
              some ((← usize W (s + 2)) / 4)
            else if i < length then c[i]?
            else some 0) = (if length > 2 ∧ i < length - 3 then do
            some (((← c[i]?) + (← c[i + 1]?) + (← c[i + 2]?) + (← c[i + 3]?) + 2) / 4)
          else if i < length then c[i]?
          else some 0) := by
            split
            · cases h0 : c[i]? with
              | none => rfl
              | some x0 =>
                cases h1 : c[i + 1]? with
                | none => rfl
                | some x1 =>
                  have b0 := hg _ _ h0
                  have b1 := hg _ _ h1
                  rw [some_bind, some_bind, usize_eq (show x0 + x1 < 2 ^ W by omega), some_bind, some_bind, some_bind]
                  cases h2 : c[i + 2]? with
                  | none => rfl
                  | some x2 =>
                    have b2 := hg _ _ h2
                    rw [some_bind, usize_eq (show x0 + x1 + x2 < 2 ^ W by omega), some_bind, some_bind]
                    cases h3 : c[i + 3]? with
                    | none => rfl
                    | some x3 =>
                      have b3 := hg _ _ h3
                      rw [some_bind, usize_eq (show x0 + x1 + x2 + x3 < 2 ^ W by omega), some_bind, usize_eq (show x0 + x1 + x2 + x3 + 2 < 2 ^ W by omega)]
                      rfl
            · rfl
          rw [hlim]
          refine ⟨rfl, fun r e => ?_⟩
          simp only [Option.bind_eq_bind, Option.bind_eq_some_iff] at e
          obtain ⟨lim, -, e⟩ := e
          cases e
          exact ⟨z1, Nat.zero_le _, by simp [seg_self], z2⟩
    obtain ⟨m1, m2⟩ := hmid
    rw [m1]
    cases hr : (if collapse then do
        let counts ←
          (if stride ≥ 4 ∨ (stride ≥ 3 ∧ sum = 0) then
            setCountsToCount counts (if sum = 0 then 0 else max ((sum + stride / 2) / stride) 1) i stride
          else some counts)
        let limit ←
          (if length > 2 ∧ i < length - 3 then do
            some (((← counts[i]?) + (← counts[i + 1]?) + (← counts[i + 2]?) + (← counts[i + 3]?) + 2) / 4)
          else if i < length then counts[i]?
          else some 0)
        some (counts, 0, limit, 0)
      else some (counts, stride, limit, sum)) with
    | none => exact ⟨rfl, fun _ e => by cases e⟩
    | some r =>
      obtain ⟨n1, n2, n3, n4⟩ := m2 r hr
      obtain ⟨c, stride', limit', sum'⟩ := r
      dsimp only at n1 n2 n3 n4
      rw [some_bind, some_bind]
      dsimp only
      have hlast : (if i ≠ length then do usize W (sum' + (← c[i]?)) else some sum') = (if i ≠ length then do some (sum' + (← c[i]?)) else some sum') := by
        split
        · cases hx : c[i]? with
          | none => rfl
          | some x =>
            rw [some_bind, some_bind, usize_eq]
            have a1 := seg_add c (Nat.zero_le (i - stride')) (show i - stride' ≤ counts.size by omega)
            have a2 := seg_add c (show i - stride' ≤ i by omega) (show i ≤ counts.size by omega)
            have := get_le_seg c hx
            rw [n1] at this
            omega
        · rfl
      rw [hlast]
      refine ⟨rfl, fun st' e => ?_⟩
      simp only [Option.bind_eq_bind, Option.bind_eq_some_iff] at e
      obtain ⟨s2, hs2, e⟩ := e
      cases e
      refine ⟨n1, by dsimp only; omega, fun hil => ⟨by dsimp only; omega, ?_, ?_⟩⟩
      · dsimp only
        rw [if_pos (by omega)] at hs2
        simp only [Option.bind_eq_some_iff] at hs2
        obtain ⟨x, hx, e⟩ := hs2
        cases e
        have : c.getD i 0 = x := by simp [hx]
        rw [show i + 1 - (stride' + 1) = i - stride' by omega, seg_succ c (by omega), ← n3, this]
      · dsimp only
        rw [show i + 1 - (stride' + 1) = i - stride' by omega]
        exact n4

/-- `optimize_huffman_for_rle` in machine words is the same as with exact numbers, and adds at most one per count. -/
theorem optimizeHuffmanForRle_words {W : Nat} (counts : Array Nat) (hW : 4 * (counts.toList.sum + counts.size) + counts.size + 2 < 2 ^ W) :
    optimizeHuffmanForRle W counts = Zopfli.optimizeHuffmanForRle counts ∧
      ∀ c, Zopfli.optimizeHuffmanForRle counts = some c → c.size = counts.size ∧ c.toList.sum ≤ counts.toList.sum + counts.size := by
  unfold optimizeHuffmanForRle Zopfli.optimizeHuffmanForRle
  cases htrim : trimTrailing counts counts.size with
  | none => exact ⟨rfl, fun _ e => by cases e⟩
  | some length =>
    rw [some_bind, some_bind]
    split
    · exact ⟨rfl, fun c e => by cases e; exact ⟨rfl, by omega⟩⟩
    · cases hgood : markGoodForRle counts length with
      | none => exact ⟨rfl, fun _ e => by cases e⟩
      | some good =>
        rw [some_bind, some_bind]
        cases h0 : counts[0]? with
        | none => exact ⟨rfl, fun _ e => by cases e⟩
        | some limit =>
          rw [some_bind, some_bind]
          have hlen : length ≤ counts.size := by
            exact ((trimTrailing_spec counts counts.size (Nat.le_refl _)).elim htrim).1
          obtain ⟨e1, e2⟩ := forRange_congr_inv (f := fun i st => rleStep W length good i st) (g := fun i st => Zopfli.rleStep length good i st)
            (SumInv counts.toList.sum length counts.size) (Nat.zero_le (length + 1)) (s := (⟨counts, 0, limit, 0⟩ : RleState))
            ⟨rfl, by rw [seg_total]; exact Nat.le_add_right _ _, fun _ => ⟨Nat.zero_le _, by simp [seg_self], by rw [seg_total]; exact Nat.le_add_right _ _⟩⟩
            (fun i s _ hi hI => rleStep_words hlen hW (by omega) hI)
          rw [e1]
          refine ⟨rfl, fun c e => ?_⟩
          simp only [Option.bind_eq_bind, Option.bind_eq_some_iff] at e
          obtain ⟨st, hst, e⟩ := e
          cases e
          have := e2 st hst
          have hz := this.size
          refine ⟨hz, ?_⟩
          rw [← seg_total st.counts, hz]
          exact this.tot

end Zopfli.Words
