import Verif.Proofs.Hash
import Verif.Proofs.GetMatch
/-! # Finding the longest match -/

namespace Zopfli

theorem lcp_exists (a b : Array UInt8) (i j : Nat) : ∀ limit, ∃ m, IsLcp a b i j limit m
  | 0 => ⟨0, by omega, by intros; omega, by omega⟩
  | limit + 1 => by
    obtain ⟨m, h⟩ := lcp_exists a b i j limit
    by_cases hm : m = limit
    · subst hm
      by_cases he : a[i + m]? = b[j + m]?
      · refine ⟨m + 1, by omega, fun k hk => ?_, by omega⟩
        by_cases hkm : k = m
        · subst hkm; exact he
        · exact h.eq k (by omega)
      · exact ⟨m, by omega, h.eq, fun _ => he⟩
    · exact ⟨m, by have := h.le; omega, h.eq, fun _ => h.ne (by have := h.le; omega)⟩

theorem IsLcp.limit {a b : Array UInt8} {i j limit lim m : Nat} (h : IsLcp a b i j limit m) (hl : lim ≤ limit) :
    IsLcp a b i j lim (min lim m) :=
  ⟨by omega, fun k hk => h.eq k (by omega), fun hlt => by
    rw [show min lim m = m by omega]
    exact h.ne (by omega)⟩

/-- A true match: the `len` bytes at `pos` are those `dist` bytes earlier, which lie inside the window. -/
structure TrueMatch (arr : Array UInt8) (ws pos len dist : Nat) : Prop where
  d1 : 1 ≤ dist
  d2 : dist < 32768
  d3 : ws + dist ≤ pos
  eq : ∀ k, k < len → arr[pos + k]? = arr[pos - dist + k]?

theorem extract_lcp {arr : Array UInt8} {s m e k : Nat} (hs : s ≤ e) (hms : m ≤ s) (he : e ≤ arr.size)
    (h : IsLcp (arr.extract s e) (arr.extract m e) 0 0 (min (arr.extract s e).size (arr.extract m e).size) k) :
    IsLcp arr arr s m (e - s) k := by
  have hmin : min (arr.extract s e).size (arr.extract m e).size = e - s := by
    rw [Array.size_extract, Array.size_extract]; omega
  rw [hmin] at h
  have e1 : ∀ j, j < e - s → (arr.extract s e)[0 + j]? = arr[s + j]? := by
    intro j hj
    rw [Nat.zero_add, Array.getElem?_extract, if_pos (by omega)]
  have e2 : ∀ j, j < e - s → (arr.extract m e)[0 + j]? = arr[m + j]? := by
    intro j hj
    rw [Nat.zero_add, Array.getElem?_extract, if_pos (by omega)]
  refine ⟨h.le, fun j hj => ?_, fun hlt => ?_⟩
  · have := h.eq j hj
    have hle := h.le
    rwa [e1 j (by omega), e2 j (by omega)] at this
  · have := h.ne hlt
    rwa [e1 k hlt, e2 k hlt] at this

/-- The length computed for a candidate: the common prefix, or zero when the quick test shows that it is not better. -/
theorem currentLength_spec {h : ZopfliHash} {arr : Array UInt8} {ws pos limit bl dist l : Nat} (hi : HashInv arr ws (pos + 1) h)
    (hlim : pos + limit ≤ arr.size) (hlim2 : limit ≤ 258) (hbl : bl < limit) (hd1 : 1 ≤ dist) (hd2 : dist < 32768) (hd3 : ws + dist ≤ pos)
    (hl : IsLcp arr arr pos (pos - dist) limit l) :
    ∃ r, currentLength h arr pos arr.size limit bl dist = some r ∧ (r = l ∨ (r = 0 ∧ l ≤ bl)) := by
  unfold currentLength
  rw [if_neg (by omega)]
  dsimp only
  rw [if_neg (by omega), Array.getElem?_eq_getElem (by omega), some_bind, Array.getElem?_eq_getElem (by omega), some_bind, some_bind]
  split
  · rename_i htest
    have hss := hi.sameSize
    have hs0 : pos % 32768 < h.same.size := by rw [hss]; exact Nat.mod_lt _ (by omega)
    have hs1 : (pos - dist) % 32768 < h.same.size := by rw [hss]; exact Nat.mod_lt _ (by omega)
    rw [Array.getElem?_eq_getElem hs0, some_bind]
    have key : ∀ same, same ≤ limit → (∀ k, k < same → arr[pos + k]? = arr[pos - dist + k]?) →
        ∃ r, (do
          let m ← getMatch (← slice arr (pos + same) (pos + limit)) (← slice arr (pos - dist + same) (pos + limit))
          pure (m + (pos + same) - pos)) = some r ∧ (r = l ∨ (r = 0 ∧ l ≤ bl)) := by
      intro same hsl hse
      rw [slice_eq (by omega) hlim, some_bind, slice_eq (by omega) hlim, some_bind]
      obtain ⟨m, em, hm⟩ := getMatch_spec (arr.extract (pos + same) (pos + limit)) (arr.extract (pos - dist + same) (pos + limit))
      rw [em, some_bind]
      have hm := extract_lcp (by omega) (by omega) hlim hm
      refine ⟨_, rfl, .inl ?_⟩
      rw [show m + (pos + same) - pos = same + m by omega]
      refine IsLcp.unique ⟨by have := hm.le; omega, fun k hk => ?_, fun hlt => ?_⟩ hl
      · by_cases hks : k < same
        · exact hse k hks
        · have := hm.eq (k - same) (by omega)
          rwa [show pos + same + (k - same) = pos + k by omega, show pos - dist + same + (k - same) = pos - dist + k by omega] at this
      · have := hm.ne (by omega)
        rwa [Nat.add_assoc, Nat.add_assoc] at this
    by_cases h2 : h.same[pos % 32768] > 2
    · rw [if_pos h2, Array.getElem?_eq_getElem (by omega), some_bind, Array.getElem?_eq_getElem (by omega), some_bind, some_bind]
      split
      · rename_i heq
        have heq := of_decide_eq_true heq
        rw [Array.getElem?_eq_getElem hs1, some_bind, some_bind]
        have r0 := hi.same pos _ (by omega) (by omega) (by omega) (Array.getElem?_eq_getElem hs0)
        have r1 := hi.same (pos - dist) _ (by omega) (by omega) (by omega) (Array.getElem?_eq_getElem hs1)
        refine key _ (by omega) fun k hk => ?_
        rw [r0.2 k (by omega), r1.2 k (by omega), Array.getElem?_eq_getElem (by omega), Array.getElem?_eq_getElem (by omega), heq]
      · rw [some_bind]
        exact key 0 (by omega) (by intros; omega)
    · rw [if_neg h2, some_bind]
      exact key 0 (by omega) (by intros; omega)
  · rename_i htest
    refine ⟨0, rfl, .inr ⟨rfl, ?_⟩⟩
    rcases Nat.lt_or_ge bl l with hlt | hge
    · have := hl.eq bl hlt
      rw [Array.getElem?_eq_getElem (by omega), Array.getElem?_eq_getElem (by omega), Option.some.injEq] at this
      exact absurd (decide_eq_true this) htest
    · exact hge

/-- The next slot to look at: the part of `matchLoop` that follows the hash chain. -/
def advance (h : ZopfliHash) (pos bl : Nat) (w : Which) (p : Nat) : Option (Which × Nat) := do
  let switch ←
    (if w = .hash1 then do
      if bl ≥ (← h.same[pos % WINDOW_SIZE]?) then
        some (decide (some (h.valOf .hash2) = (← h.hashValAt p .hash2)))
      else some false
    else some false)
  let w := if switch then Which.hash2 else w
  let p ← h.prevAt p w
  return (w, p)

theorem matchLoop_checked (h : ZopfliHash) (array : Array UInt8) (pos size limit n : Nat) (w : Which) (p dist bl bd : Nat)
    (sub : Option (Array Nat)) :
    matchLoop h array pos size limit (n + 1) ⟨w, p, dist, bl, bd, sub⟩ =
    if dist < WINDOW_SIZE then chainChecks h pos size w p dist >>= fun _ => do
      let cl ← (if dist > 0 then currentLength h array pos size limit bl dist else some 0)
      let better := dist > 0 ∧ cl > bl
      let sub := if better then sub.map fun s => setSublen s (bl + 1) cl dist else sub
      let bd := if better then dist else bd
      let bl := if better then cl else bl
      if better ∧ cl ≥ limit then return ⟨w, p, dist, bl, bd, sub⟩
      else do
        let (w, p') ← advance h pos bl w p
        if p' = p then return ⟨w, p', dist, bl, bd, sub⟩
        else matchLoop h array pos size limit n ⟨w, p', dist + slotDist p' p, bl, bd, sub⟩
    else some ⟨w, p, dist, bl, bd, sub⟩ := by
  rw [matchLoop]
  split
  · congr 1
    funext _
    congr 1
    funext cl
    dsimp only
    split
    · rfl
    · simp only [advance, bind_assoc, pure_bind]
  · rfl

theorem matchLoop_succ (h : ZopfliHash) (array : Array UInt8) (pos size limit n : Nat) (w : Which) (p dist bl bd : Nat)
    (sub : Option (Array Nat)) (hck : dist < 32768 → chainChecks h pos size w p dist = some ()) :
    matchLoop h array pos size limit (n + 1) ⟨w, p, dist, bl, bd, sub⟩ =
    if dist < WINDOW_SIZE then do
      let cl ← (if dist > 0 then currentLength h array pos size limit bl dist else some 0)
      let better := dist > 0 ∧ cl > bl
      let sub := if better then sub.map fun s => setSublen s (bl + 1) cl dist else sub
      let bd := if better then dist else bd
      let bl := if better then cl else bl
      if better ∧ cl ≥ limit then return ⟨w, p, dist, bl, bd, sub⟩
      else do
        let (w, p') ← advance h pos bl w p
        if p' = p then return ⟨w, p', dist, bl, bd, sub⟩
        else matchLoop h array pos size limit n ⟨w, p', dist + slotDist p' p, bl, bd, sub⟩
    else some ⟨w, p, dist, bl, bd, sub⟩ := by
  rw [matchLoop_checked]
  split
  · rename_i hd
    rw [hck hd, some_bind]
  · rfl

/-- An iteration that ends normally has passed its checks. -/
theorem matchLoop_passed {h : ZopfliHash} {array : Array UInt8} {pos size limit n : Nat} {w : Which} {p dist bl bd : Nat}
    {sub : Option (Array Nat)} {st : MatchState} (e : matchLoop h array pos size limit (n + 1) ⟨w, p, dist, bl, bd, sub⟩ = some st) :
    dist < 32768 → chainChecks h pos size w p dist = some () := by
  intro hd
  rw [matchLoop_checked, if_pos hd] at e
  obtain ⟨_, h, -⟩ := Option.bind_eq_some_iff.mp e
  exact h

/-- The slot `p` holds the position `dist` bytes before `pos` (when that is inside the window), which has the same hash. -/
def CandOk (h : ZopfliHash) (w : Which) (ws pos p dist : Nat) : Prop :=
  dist < 32768 → 1 ≤ dist ∧ ws + dist ≤ pos ∧ p = (pos - dist) % 32768 ∧ h.hashValAt p w = some (some (h.valOf w))

theorem CandOk.checks {h : ZopfliHash} {w : Which} {ws pos size p dist : Nat} (hc : CandOk h w ws pos p dist) (hs : pos < size)
    (hd : dist < 32768) : chainChecks h pos size w p dist = some () := by
  obtain ⟨c1, -, c3, c4⟩ := hc hd
  have hp : p < 32768 := by rw [c3]; exact Nat.mod_lt _ (by omega)
  unfold chainChecks
  rw [guardR_eq (by simpa using hp), some_bind, c4, some_bind, guardR_eq (by simp), some_bind, if_pos (by omega),
    guardR_eq (by simpa using hs)]

theorem prevAt_spec {h : ZopfliHash} {arr : Array UInt8} {ws pos q : Nat} (hi : HashInv arr ws (pos + 1) h) (w : Which)
    (h1 : ws ≤ q) (h2 : q ≤ pos) (h3 : pos < q + 32768) :
    ∃ p', h.prevAt (q % 32768) w = some p' ∧
      (p' = q % 32768 ∨ ∃ q', ws ≤ q' ∧ q' < q ∧ q < q' + 32768 ∧ p' = q' % 32768 ∧
        (pos < q' + 32768 → h.hashValAt (q' % 32768) w = h.hashValAt (q % 32768) w)) := by
  have ht : TableInv (h.table w) ws (pos + 1) := by cases w; exacts [hi.t1, hi.t2]
  obtain ⟨e, e1, e2⟩ := ht.prev q h1 (by omega) (by omega)
  refine ⟨e.prev, by rw [ZopfliHash.prevAt, e1]; rfl, ?_⟩
  rcases e2 with e2 | ⟨q', a1, a2, a3, a4, a5⟩
  · exact .inl e2
  · refine .inr ⟨q', a1, a2, a3, a4, fun hle => ?_⟩
    obtain ⟨e', c1, c2⟩ := a5 (by omega)
    rw [ZopfliHash.hashValAt, ZopfliHash.hashValAt, c1, e1]
    show some e'.hashval = some e.hashval
    rw [c2]

theorem valAt_spec {h : ZopfliHash} {arr : Array UInt8} {ws pos : Nat} (hi : HashInv arr ws (pos + 1) h) (w : Which) (hws : ws ≤ pos) :
    h.hashValAt (pos % 32768) w = some (some (h.valOf w)) := by
  have ht : TableInv (h.table w) ws (pos + 1) := by cases w; exacts [hi.t1, hi.t2]
  obtain ⟨-, e, e1, e2⟩ := ht.last (by omega)
  rw [Nat.add_sub_cancel] at e1
  rw [ZopfliHash.hashValAt, e1]
  exact congrArg some e2

theorem slotDist_spec {q q' : Nat} (h1 : q' < q) (h2 : q < q' + 32768) : slotDist (q' % 32768) (q % 32768) = q - q' := by
  unfold slotDist
  dsimp only [WINDOW_SIZE]
  split <;> omega

theorem advance_spec {h : ZopfliHash} {arr : Array UInt8} {ws pos dist p : Nat} (hi : HashInv arr ws (pos + 1) h) (w : Which) (bl : Nat)
    (hd : dist < 32768) (hc : CandOk h w ws pos p dist) :
    ∃ w' p', advance h pos bl w p = some (w', p') ∧ (p' = p ∨ CandOk h w' ws pos p' (dist + slotDist p' p)) := by
  obtain ⟨c1, c2, rfl, c4⟩ := hc hd
  have hss := hi.sameSize
  have hs0 : pos % 32768 < h.same.size := by rw [hss]; exact Nat.mod_lt _ (by omega)
  have hhv : ∃ v, h.hashValAt ((pos - dist) % 32768) .hash2 = some v := by
    have := hi.t2.pahSize
    have hlt : (pos - dist) % 32768 < h.hash2.prevAndHashval.size := by rw [this]; exact Nat.mod_lt _ (by omega)
    refine ⟨h.hash2.prevAndHashval[(pos - dist) % 32768].hashval, ?_⟩
    rw [ZopfliHash.hashValAt, ZopfliHash.table, Array.getElem?_eq_getElem hlt]; rfl
  obtain ⟨v, hv⟩ := hhv
  have key : ∀ w, h.hashValAt ((pos - dist) % 32768) w = some (some (h.valOf w)) → ∃ p', h.prevAt ((pos - dist) % 32768) w = some p' ∧
      (p' = (pos - dist) % 32768 ∨ CandOk h w ws pos p' (dist + slotDist p' ((pos - dist) % 32768))) := by
    intro w hw
    obtain ⟨p', e, hp⟩ := prevAt_spec hi w (q := pos - dist) (by omega) (by omega) (by omega)
    refine ⟨p', e, ?_⟩
    rcases hp with hp | ⟨q', g1, g2, g3, rfl, g5⟩
    · exact .inl hp
    · right
      rw [slotDist_spec g2 g3]
      intro hlt
      refine ⟨by omega, by omega, ?_, by rw [g5 (by omega), hw]⟩
      rw [show pos - (dist + (pos - dist - q')) = q' by omega]
  unfold advance
  have hsw : ∃ b, (if w = .hash1 then do
      if bl ≥ (← h.same[pos % WINDOW_SIZE]?) then
        some (decide (some (h.valOf .hash2) = (← h.hashValAt ((pos - dist) % 32768) .hash2)))
      else some false
    else some false) = some b ∧ (b = true → some (h.valOf .hash2) = v) := by
    dsimp only [WINDOW_SIZE]
    rw [Array.getElem?_eq_getElem hs0, some_bind, hv, some_bind]
    split
    · split
      · exact ⟨_, rfl, of_decide_eq_true⟩
      · exact ⟨_, rfl, by simp⟩
    · exact ⟨_, rfl, by simp⟩
  obtain ⟨b, hb, hbv⟩ := hsw
  rw [hb, some_bind]
  dsimp only
  obtain ⟨p', e, hp⟩ := key (if b = true then Which.hash2 else w) (by
    cases b with
    | false => exact c4
    | true => rw [if_pos rfl, hv, hbv rfl])
  rw [e, some_bind]
  exact ⟨_, _, rfl, hp⟩

/-- `sublen` after the lengths `lo < k ≤ hi` have been given their distances. -/
def updSub (lo hi : Nat) (D : Nat → Nat) (s : Array Nat) : Array Nat :=
  s.mapIdx fun k x => if lo < k ∧ k ≤ hi then D k else x

/-- The search loop: there are a greatest length `L` and distances `D` such that the result for any `limit` is the
restriction to lengths up to `limit`. -/
theorem matchLoop_spec {h : ZopfliHash} {arr : Array UInt8} {ws pos L0 : Nat} (hi : HashInv arr ws (pos + 1) h)
    (hL0 : pos + L0 ≤ arr.size) (hL1 : L0 ≤ 258) :
    ∀ (n : Nat) (w : Which) (p dist bl : Nat), CandOk h w ws pos p dist → bl < L0 →
    ∃ (L : Nat) (D : Nat → Nat), bl ≤ L ∧ L ≤ L0 ∧ (∀ k, bl < k → k ≤ L → TrueMatch arr ws pos k (D k)) ∧
      ∀ (lim bd : Nat) (sub : Option (Array Nat)), bl < lim → lim ≤ L0 → ∃ w' p' dist',
        matchLoop h arr pos arr.size lim n ⟨w, p, dist, bl, bd, sub⟩ =
          some ⟨w', p', dist', min lim L, if bl < min lim L then D (min lim L) else bd, sub.map (updSub bl (min lim L) D)⟩ := by
  have hid : ∀ (bl lim : Nat) (bd : Nat) (D : Nat → Nat) (sub : Option (Array Nat)), bl < lim →
      min lim bl = bl ∧ (if bl < min lim bl then D (min lim bl) else bd) = bd ∧ sub.map (updSub bl (min lim bl) D) = sub := by
    intro bl lim bd D sub hl
    rw [show min lim bl = bl by omega, if_neg (by omega)]
    refine ⟨rfl, rfl, ?_⟩
    have : ∀ s, updSub bl bl D s = s := by
      intro s
      apply Array.ext
      · simp [updSub]
      · intro i h1 h2
        simp only [updSub, Array.getElem_mapIdx]
        rw [if_neg (by omega)]
    cases sub with
    | none => rfl
    | some s => simp [this]
  intro n
  induction n with
  | zero =>
    intro w p dist bl _ hbl
    refine ⟨bl, fun _ => 0, Nat.le_refl _, by omega, by intros; omega, fun lim bd sub h1 h2 => ⟨w, p, dist, ?_⟩⟩
    obtain ⟨e1, e2, e3⟩ := hid bl lim bd (fun _ => 0) sub h1
    rw [e2, e3, e1, matchLoop]
  | succ n ih =>
    intro w p dist bl hc hbl
    by_cases hd : dist < 32768
    · obtain ⟨c1, c2, -, -⟩ := hc hd
      have hck : dist < 32768 → chainChecks h pos arr.size w p dist = some () := hc.checks (by omega)
      obtain ⟨l0, hl0⟩ := lcp_exists arr arr pos (pos - dist) L0
      have hcur : ∀ lim, bl < lim → lim ≤ L0 → ∃ r, currentLength h arr pos arr.size lim bl dist = some r ∧
          (r = min lim l0 ∨ (r = 0 ∧ min lim l0 ≤ bl)) := fun lim h1 h2 =>
        currentLength_spec hi (by omega) (by omega) h1 c1 hd c2 (hl0.limit h2)
      by_cases hlt : l0 ≤ bl
      · -- not better
        obtain ⟨w', p', ea, hp⟩ := advance_spec hi w bl hd hc
        have step : ∀ (lim bd : Nat) (sub : Option (Array Nat)), bl < lim → lim ≤ L0 →
            matchLoop h arr pos arr.size lim (n + 1) ⟨w, p, dist, bl, bd, sub⟩ =
              if p' = p then some ⟨w', p', dist, bl, bd, sub⟩
              else matchLoop h arr pos arr.size lim n ⟨w', p', dist + slotDist p' p, bl, bd, sub⟩ := by
          intro lim bd sub h1 h2
          obtain ⟨r, er, hr⟩ := hcur lim h1 h2
          rw [matchLoop_succ _ _ _ _ _ _ _ _ _ _ _ _ hck, if_pos hd, if_pos (by omega), er, some_bind]
          have hnb : ¬ (dist > 0 ∧ r > bl) := by
            have : min lim l0 ≤ l0 := Nat.min_le_right _ _
            rintro ⟨-, h⟩
            rcases hr with hr | hr <;> omega
          have hnb2 : ¬ ((dist > 0 ∧ r > bl) ∧ r ≥ lim) := fun h => hnb h.1
          simp only [if_neg hnb, if_neg hnb2]
          rw [ea, some_bind]
          rfl
        by_cases hpp : p' = p
        · refine ⟨bl, fun _ => 0, Nat.le_refl _, by omega, by intros; omega, fun lim bd sub h1 h2 => ⟨w', p', dist, ?_⟩⟩
          obtain ⟨e1, e2, e3⟩ := hid bl lim bd (fun _ => 0) sub h1
          rw [e2, e3, e1, step lim bd sub h1 h2, if_pos hpp]
        · obtain ⟨L, D, g1, g2, g3, g4⟩ := ih w' p' (dist + slotDist p' p) bl (hp.resolve_left hpp) hbl
          refine ⟨L, D, g1, g2, g3, fun lim bd sub h1 h2 => ?_⟩
          obtain ⟨w2, p2, d2, e⟩ := g4 lim bd sub h1 h2
          exact ⟨w2, p2, d2, by rw [step lim bd sub h1 h2, if_neg hpp, e]⟩
      · -- better
        have hset : ∀ (hi' : Nat) (s : Array Nat), setSublen s (bl + 1) hi' dist = updSub bl hi' (fun _ => dist) s := by
          intro hi' s
          apply Array.ext
          · simp [setSublen, updSub]
          · intro i h1 h2
            simp only [setSublen, updSub, Array.getElem_mapIdx]
            by_cases hh : bl < i ∧ i ≤ hi'
            · rw [if_pos hh, if_pos (by omega)]
            · rw [if_neg hh, if_neg (by omega)]
        have step : ∀ (lim bd : Nat) (sub : Option (Array Nat)), bl < lim → lim ≤ L0 →
            matchLoop h arr pos arr.size lim (n + 1) ⟨w, p, dist, bl, bd, sub⟩ =
              if l0 ≥ lim then some ⟨w, p, dist, lim, dist, sub.map (updSub bl lim fun _ => dist)⟩
              else advance h pos l0 w p >>= fun (w', p') =>
                if p' = p then some ⟨w', p', dist, l0, dist, sub.map (updSub bl l0 fun _ => dist)⟩
                else matchLoop h arr pos arr.size lim n ⟨w', p', dist + slotDist p' p, l0, dist, sub.map (updSub bl l0 fun _ => dist)⟩ := by
          intro lim bd sub h1 h2
          obtain ⟨r, er, hr⟩ := hcur lim h1 h2
          rw [matchLoop_succ _ _ _ _ _ _ _ _ _ _ _ _ hck, if_pos hd, if_pos (by omega), er, some_bind]
          have hr : r = min lim l0 := by omega
          have hb : dist > 0 ∧ r > bl := by omega
          simp only [if_pos hb, hset]
          by_cases hl : l0 ≥ lim
          · have hb2 : (dist > 0 ∧ r > bl) ∧ r ≥ lim := ⟨hb, by omega⟩
            rw [if_pos hb2, if_pos hl, show r = lim by omega]
            rfl
          · have hb2 : ¬ ((dist > 0 ∧ r > bl) ∧ r ≥ lim) := by omega
            rw [if_neg hb2, if_neg hl, show r = l0 by omega]
            rfl
        have htm : ∀ k, k ≤ l0 → TrueMatch arr ws pos k dist := fun k hk => ⟨c1, hd, c2, fun j hj => hl0.eq j (by omega)⟩
        by_cases hfull : l0 = L0
        · refine ⟨l0, fun _ => dist, by omega, by omega, fun k _ hk => htm k hk, fun lim bd sub h1 h2 => ⟨w, p, dist, ?_⟩⟩
          rw [step lim bd sub h1 h2, if_pos (by omega), show min lim l0 = lim by omega, if_pos h1]
        · have hl0' : l0 < L0 := by have := hl0.le; omega
          obtain ⟨w', p', ea, hp⟩ := advance_spec hi w l0 hd hc
          by_cases hpp : p' = p
          · refine ⟨l0, fun _ => dist, by omega, by omega, fun k _ hk => htm k hk, fun lim bd sub h1 h2 => ?_⟩
            rw [step lim bd sub h1 h2]
            by_cases hl : l0 ≥ lim
            · exact ⟨w, p, dist, by rw [if_pos hl, show min lim l0 = lim by omega, if_pos h1]⟩
            · refine ⟨w', p', dist, ?_⟩
              rw [if_neg hl, ea, some_bind, show min lim l0 = l0 by omega, if_pos (by omega)]
              dsimp only
              rw [if_pos hpp]
          · obtain ⟨L, D, g1, g2, g3, g4⟩ := ih w' p' (dist + slotDist p' p) l0 (hp.resolve_left hpp) hl0'
            refine ⟨L, fun k => if k ≤ l0 then dist else D k, by omega, g2, ?_, fun lim bd sub h1 h2 => ?_⟩
            · intro k h1 h2
              dsimp only
              split
              · exact htm k (by omega)
              · exact g3 k (by omega) h2
            · rw [step lim bd sub h1 h2]
              by_cases hl : l0 ≥ lim
              · refine ⟨w, p, dist, ?_⟩
                rw [if_pos hl, show min lim L = lim by omega, if_pos h1]
                dsimp only
                rw [if_pos hl]
                have : ∀ s, updSub bl lim (fun k => if k ≤ l0 then dist else D k) s = updSub bl lim (fun _ => dist) s := by
                  intro s
                  apply Array.ext
                  · simp [updSub]
                  · intro i h1 h2
                    simp only [updSub, Array.getElem_mapIdx]
                    split
                    · rw [if_pos (by omega)]
                    · rfl
                rw [show updSub bl lim (fun k => if k ≤ l0 then dist else D k) = _ from funext this]
              · obtain ⟨w2, p2, d2, e⟩ := g4 lim dist (sub.map (updSub bl l0 fun _ => dist)) (by omega) h2
                refine ⟨w2, p2, d2, ?_⟩
                rw [if_neg hl, ea, some_bind]
                dsimp only
                rw [if_neg hpp, e, Option.map_map]
                have : ∀ s, updSub bl (min lim L) (fun k => if k ≤ l0 then dist else D k) s
                    = updSub l0 (min lim L) D (updSub bl l0 (fun _ => dist) s) := by
                  intro s
                  apply Array.ext
                  · simp [updSub]
                  · intro i h1 h2
                    simp only [updSub, Array.getElem_mapIdx]
                    by_cases ha : i ≤ bl
                    · rw [if_neg (by omega), if_neg (by omega), if_neg (by omega)]
                    · by_cases hb : i ≤ l0
                      · rw [if_pos (by omega), if_pos hb, if_neg (by omega), if_pos (by omega)]
                      · by_cases hc : i ≤ min lim L
                        · rw [if_pos (by omega), if_neg hb, if_pos (by omega)]
                        · rw [if_neg (by omega), if_neg (by omega), if_neg (by omega)]
                rw [show updSub bl (min lim L) (fun k => if k ≤ l0 then dist else D k) = _ from funext this,
                  if_pos (show bl < min lim L by omega)]
                by_cases hL : l0 < min lim L
                · rw [if_pos hL, if_neg (by omega)]
                  rfl
                · rw [if_neg hL, if_pos (by omega)]
                  rfl
    · refine ⟨bl, fun _ => 0, Nat.le_refl _, by omega, by intros; omega, fun lim bd sub h1 h2 => ⟨w, p, dist, ?_⟩⟩
      obtain ⟨e1, e2, e3⟩ := hid bl lim bd (fun _ => 0) sub h1
      rw [e2, e3, e1, matchLoop_checked, if_neg hd]

end Zopfli
