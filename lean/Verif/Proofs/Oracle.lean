import Verif.Proofs.Match
/-! # The longest matches of a range, as a function of the position -/

namespace Zopfli

/-- For every position the length `L` of the longest match found, and for every length `k` the distance `D k` found
for it. -/
structure Oracle where
  L : Nat → Nat
  D : Nat → Nat → Nat

/-- The oracle describes what `find_longest_match_loop` returns at every position, for every limit. -/
structure IsOracle (arr : Array UInt8) (ws : Nat) (O : Oracle) : Prop where
  small : ∀ pos, arr.size < pos + 3 → O.L pos = 0
  le : ∀ pos, O.L pos ≤ 258
  le' : ∀ pos, pos ≤ arr.size → pos + O.L pos ≤ arr.size
  tm : ∀ pos k, ws ≤ pos → 2 ≤ k → k ≤ O.L pos → TrueMatch arr ws pos k (O.D pos k)
  run : ∀ pos h, ws ≤ pos → pos + 3 ≤ arr.size → hashAt arr ws (pos + 1) = some h →
    ∀ lim sub, 2 ≤ lim → lim ≤ 258 → pos + lim ≤ arr.size →
      findLongestMatchLoop h arr pos arr.size lim sub =
        some (if 1 < min lim (O.L pos) then O.D pos (min lim (O.L pos)) else 0, max 1 (min lim (O.L pos)),
          sub.map (updSub 1 (min lim (O.L pos)) (O.D pos)))
  const : ∀ pos, ws < pos → pos + 258 ≤ arr.size → Run arr (pos - 1) 258 → O.L pos = 258

theorem findLongestMatchLoop_start {h : ZopfliHash} {arr : Array UInt8} {ws pos : Nat} (hi : HashInv arr ws (pos + 1) h) (hws : ws ≤ pos) :
    ∃ p, h.prevAt (pos % 32768) .hash1 = some p ∧ CandOk h .hash1 ws pos p (slotDist p (pos % 32768)) := by
  obtain ⟨p, e, hp⟩ := prevAt_spec hi .hash1 (q := pos) hws (by omega) (by omega)
  refine ⟨p, e, ?_⟩
  rcases hp with rfl | ⟨q', g1, g2, g3, rfl, g5⟩
  · intro hlt
    unfold slotDist at hlt
    dsimp only [WINDOW_SIZE] at hlt
    split at hlt <;> omega
  · rw [slotDist_spec g2 g3]
    intro hlt
    exact ⟨by omega, by omega, by rw [show pos - (pos - q') = q' by omega], by rw [g5 (by omega), valAt_spec hi _ hws]⟩

theorem oracle_at {arr : Array UInt8} {ws pos : Nat} (hws : ws ≤ pos) (hpos : pos + 3 ≤ arr.size) :
    ∃ (L : Nat) (D : Nat → Nat), L ≤ 258 ∧ 1 ≤ L ∧ pos + L ≤ arr.size ∧
      (∀ k, 2 ≤ k → k ≤ L → TrueMatch arr ws pos k (D k)) ∧
      (∀ h, hashAt arr ws (pos + 1) = some h → ∀ lim sub, 2 ≤ lim → lim ≤ 258 → pos + lim ≤ arr.size →
        findLongestMatchLoop h arr pos arr.size lim sub =
          some (if 1 < min lim L then D (min lim L) else 0, max 1 (min lim L), sub.map (updSub 1 (min lim L) D))) ∧
      (ws < pos → pos + 258 ≤ arr.size → Run arr (pos - 1) 258 → L = 258) := by
  obtain ⟨h0, e0, hi0⟩ := hashAt_inv (arr := arr) (ws := ws) (by omega) (pos - ws) (by omega)
  rw [show ws + (pos - ws) = pos by omega] at e0 hi0
  obtain ⟨h, e1, hi, hc⟩ := hashUpdate_spec hi0 hws (by omega)
  have eh : hashAt arr ws (pos + 1) = some h := by rw [hashAt_succ hws, e0, some_bind, e1]
  obtain ⟨p, ep, hcand⟩ := findLongestMatchLoop_start hi hws
  obtain ⟨L, D, g1, g2, g3, g4⟩ := matchLoop_spec hi (L0 := min 258 (arr.size - pos)) (by omega) (by omega) MAX_CHAIN_HITS
    .hash1 p (slotDist p (pos % 32768)) 1 hcand (by omega)
  have hrun : ∀ lim sub, 2 ≤ lim → lim ≤ 258 → pos + lim ≤ arr.size →
      findLongestMatchLoop h arr pos arr.size lim sub =
        some (if 1 < min lim L then D (min lim L) else 0, max 1 (min lim L), sub.map (updSub 1 (min lim L) D)) := by
    intro lim sub h1 h2 h3
    obtain ⟨w', p', d', e⟩ := g4 lim 0 sub (by omega) (by omega)
    unfold findLongestMatchLoop
    dsimp only [WINDOW_SIZE]
    have hb : (if 1 < min lim L then D (min lim L) else 0) < 65536 := by
      split
      · have := (g3 (min lim L) (by omega) (by omega)).d2
        omega
      · omega
    rw [ep, some_bind, e, some_bind, guardR_eq (by simp only [decide_eq_true_eq]; exact ⟨hb, by omega⟩), some_bind, show max 1 (min lim L) = min lim L by omega]
    rfl
  refine ⟨L, D, by omega, by omega, by omega, fun k h1 h2 => g3 k (by omega) h2, ?_, ?_⟩
  · intro h' eh' lim sub
    rw [eh] at eh'
    cases eh'
    exact hrun lim sub
  · intro hlt hsz hr
    obtain ⟨e, ee, hprev⟩ := hc hlt (by omega) ⟨by omega, fun j hj => hr.2 j (by omega)⟩
    have ep' : h.prevAt (pos % 32768) .hash1 = some ((pos - 1) % 32768) := by
      rw [ZopfliHash.prevAt, ZopfliHash.table, ee, ← hprev]
      rfl
    have hd : slotDist ((pos - 1) % 32768) (pos % 32768) = 1 := by
      rw [slotDist_spec (by omega) (by omega)]; omega
    have hl : IsLcp arr arr pos (pos - 1) 258 258 := by
      refine ⟨Nat.le_refl _, fun k hk => ?_, by omega⟩
      rw [hr.2 k (by omega)]
      have := hr.2 (k + 1) (by omega)
      rwa [show pos - 1 + (k + 1) = pos + k by omega] at this
    obtain ⟨r, er, hrr⟩ := currentLength_spec hi (limit := 258) (bl := 1) (dist := 1) (by omega) (by omega) (by omega) (by omega) (by omega) (by omega) hl
    have hr2 : r = 258 := by omega
    have hrun := hrun 258 none (by omega) (by omega) hsz
    unfold findLongestMatchLoop at hrun
    dsimp only [WINDOW_SIZE] at hrun
    rw [ep', some_bind, hd, show MAX_CHAIN_HITS = 8191 + 1 from rfl,
      matchLoop_succ _ _ _ _ _ _ _ _ _ _ _ _ (by
        obtain ⟨_, hm, -⟩ := Option.bind_eq_some_iff.mp hrun
        exact matchLoop_passed (n := 8191) hm), if_pos (by decide), if_pos (by decide), er, some_bind, hr2] at hrun
    dsimp only at hrun
    rw [if_pos (by omega), if_pos (by omega), if_pos (by omega)] at hrun
    have := Option.some.inj hrun
    have h2 := (Prod.mk.inj (Prod.mk.inj this).2).1
    dsimp only at h2
    omega

theorem oracle_exists (arr : Array UInt8) (ws : Nat) : ∃ O, IsOracle arr ws O := by
  classical
  have hch : ∀ pos, ∃ (LD : Nat × (Nat → Nat)), (arr.size < pos + 3 → LD.1 = 0) ∧ (pos + 3 ≤ arr.size → ws ≤ pos →
      LD.1 ≤ 258 ∧ 1 ≤ LD.1 ∧ pos + LD.1 ≤ arr.size ∧
      (∀ k, 2 ≤ k → k ≤ LD.1 → TrueMatch arr ws pos k (LD.2 k)) ∧
      (∀ h, hashAt arr ws (pos + 1) = some h → ∀ lim sub, 2 ≤ lim → lim ≤ 258 → pos + lim ≤ arr.size →
        findLongestMatchLoop h arr pos arr.size lim sub =
          some (if 1 < min lim LD.1 then LD.2 (min lim LD.1) else 0, max 1 (min lim LD.1), sub.map (updSub 1 (min lim LD.1) LD.2))) ∧
      (ws < pos → pos + 258 ≤ arr.size → Run arr (pos - 1) 258 → LD.1 = 258)) ∧
      (pos < ws → LD.1 = 0) := by
    intro pos
    by_cases h1 : pos + 3 ≤ arr.size
    · by_cases h2 : ws ≤ pos
      · obtain ⟨L, D, h⟩ := oracle_at h2 h1
        exact ⟨(L, D), by intro; omega, fun _ _ => h, by intro; omega⟩
      · exact ⟨(0, fun _ => 0), fun _ => rfl, by intros; omega, fun _ => rfl⟩
    · exact ⟨(0, fun _ => 0), fun _ => rfl, by intros; omega, fun _ => rfl⟩
  choose LD hLD using hch
  refine ⟨⟨fun p => (LD p).1, fun p => (LD p).2⟩, ?_, ?_, ?_, ?_, ?_, ?_⟩
  · intro pos h
    exact (hLD pos).1 h
  · intro pos
    by_cases h1 : pos + 3 ≤ arr.size
    · by_cases h2 : ws ≤ pos
      · exact ((hLD pos).2.1 h1 h2).1
      · show (LD pos).1 ≤ 258
        rw [(hLD pos).2.2 (by omega)]; omega
    · show (LD pos).1 ≤ 258
      rw [(hLD pos).1 (by omega)]; omega
  · intro pos hp
    show pos + (LD pos).1 ≤ _
    by_cases h1 : pos + 3 ≤ arr.size
    · by_cases h2 : ws ≤ pos
      · exact ((hLD pos).2.1 h1 h2).2.2.1
      · rw [(hLD pos).2.2 (by omega)]; omega
    · rw [(hLD pos).1 (by omega)]; omega
  · intro pos k h2 hk hkL
    have h1 : pos + 3 ≤ arr.size := by
      by_contra h
      dsimp only at hkL
      rw [(hLD pos).1 (by omega)] at hkL
      omega
    exact ((hLD pos).2.1 h1 h2).2.2.2.1 k hk hkL
  · intro pos h h2 h1
    exact ((hLD pos).2.1 h1 h2).2.2.2.2.1 h
  · intro pos h2 h1 hr
    exact ((hLD pos).2.1 (by omega) (by omega)).2.2.2.2.2 h2 h1 hr

end Zopfli
