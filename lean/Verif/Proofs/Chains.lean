import Verif.Proofs.Oracle
import Mathlib.Order.Interval.Finset.Nat
/-! # The hash chains are complete: every earlier position with the same key is on the chain -/

namespace Zopfli

/-- The table after the positions `ws ≤ q < n`, with keys `K q`, have been entered: heads and links are exactly the last
earlier position with the same key. -/
structure TableK (K : Nat → Nat) (T : HashThing) (ws n : Nat) : Prop where
  headSize : T.head.size = 65536
  pahSize : T.prevAndHashval.size = 32768
  head : ∀ v, v < 65536 →
    (T.head[v]? = some none ∧ ∀ q, ws ≤ q → q < n → K q ≠ v) ∨
    ∃ q, ws ≤ q ∧ q < n ∧ K q = v ∧ (∀ q', q < q' → q' < n → K q' ≠ v) ∧ T.head[v]? = some (some (q % 32768))
  pah : ∀ q, ws ≤ q → q < n → n ≤ q + 32768 → ∃ e, T.prevAndHashval[q % 32768]? = some e ∧ e.hashval = some (K q) ∧
    ((e.prev = q % 32768 ∧ ∀ q', ws ≤ q' → q' < q → q < q' + 32768 → K q' ≠ K q) ∨
      ∃ q', ws ≤ q' ∧ q' < q ∧ q < q' + 32768 ∧ K q' = K q ∧ (∀ q'', q' < q'' → q'' < q → K q'' ≠ K q) ∧ e.prev = q' % 32768)
  val : ws < n → T.val = K (n - 1)

theorem tableK_init (K : Nat → Nat) (ws : Nat) {T : HashThing} (h1 : T.head = Array.replicate 65536 none)
    (h2 : T.prevAndHashval.size = 32768) : TableK K T ws ws where
  headSize := by rw [h1]; simp
  pahSize := h2
  head := by
    intro v hv
    left
    refine ⟨?_, by intros; omega⟩
    rw [h1, Array.getElem?_replicate, if_pos hv]
  pah := by intros; omega
  val := by intro h; omega

theorem tableK_update {K : Nat → Nat} {T : HashThing} {ws n : Nat} (h : TableK K T ws n) (hws : ws ≤ n) (hK : K n < 65536) :
    ∃ T', HashThing.update { T with val := K n } (n % 32768) = some T' ∧ TableK K T' ws (n + 1) := by
  obtain ⟨head, pah, val0⟩ := T
  have hs1 : head.size = 65536 := h.headSize
  have hs2 : pah.size = 32768 := h.pahSize
  have hlt : n % 32768 < 32768 := Nat.mod_lt _ (by omega)
  unfold HashThing.update
  dsimp only
  have key : ∀ prev, ((prev = n % 32768 ∧ ∀ q', ws ≤ q' → q' < n → n < q' + 32768 → K q' ≠ K n) ∨
      ∃ q', ws ≤ q' ∧ q' < n ∧ n < q' + 32768 ∧ K q' = K n ∧ (∀ q'', q' < q'' → q'' < n → K q'' ≠ K n) ∧ prev = q' % 32768) →
      ∃ T', (do
        let pah ← aset pah (n % 32768) ⟨prev, some (K n)⟩
        let head ← aset head (K n) (some (n % 32768))
        pure (⟨head, pah, K n⟩ : HashThing)) = some T' ∧ TableK K T' ws (n + 1) := by
    intro prev hp
    rw [aset_eq (by omega), some_bind, aset_eq (by omega), some_bind]
    refine ⟨_, rfl, by simpa using hs1, by simpa using hs2, ?_, ?_, fun _ => by simp⟩
    · intro v hv
      dsimp only
      rw [Array.getElem?_set]
      by_cases hvn : K n = v
      · rw [if_pos hvn]
        exact .inr ⟨n, hws, by omega, hvn, by intros; omega, rfl⟩
      · rw [if_neg hvn]
        rcases h.head v hv with ⟨a, b⟩ | ⟨q, a, b, c, d, e⟩
        · refine .inl ⟨a, fun q g1 g2 => ?_⟩
          rcases Nat.lt_or_ge q n with g | g
          · exact b q g1 g
          · rwa [show q = n by omega]
        · refine .inr ⟨q, a, by omega, c, fun q' g1 g2 => ?_, e⟩
          rcases Nat.lt_or_ge q' n with g | g
          · exact d q' g1 g
          · rwa [show q' = n by omega]
    · intro q g1 g2 g3
      dsimp only
      rw [Array.getElem?_set]
      by_cases hqn : q = n
      · subst hqn
        rw [if_pos rfl]
        exact ⟨_, rfl, rfl, hp⟩
      · rw [if_neg (by omega)]
        exact h.pah q g1 (by omega) (by omega)
  rcases h.head (K n) hK with ⟨a, b⟩ | ⟨q, a, b, c, d, e⟩
  · dsimp only at a
    rw [a, some_bind]
    exact key _ (.inl ⟨rfl, fun q' g1 g2 _ => b q' g1 g2⟩)
  · dsimp only at e
    rw [e, some_bind]
    dsimp only
    have hq : q % 32768 < pah.size := by rw [hs2]; exact Nat.mod_lt _ (by omega)
    rw [Array.getElem?_eq_getElem hq, some_bind]
    by_cases hw : n ≤ q + 32768
    · obtain ⟨en, e1, e2, -⟩ := h.pah q a b hw
      dsimp only at e1
      rw [Array.getElem?_eq_getElem hq] at e1
      rw [Option.some.inj e1, e2, c, if_pos rfl]
      by_cases hn : n = q + 32768
      · refine key _ (.inl ⟨by omega, fun q' g1 g2 g3 => d q' (by omega) g2⟩)
      · exact key _ (.inr ⟨q, a, b, by omega, c, d, rfl⟩)
    · obtain ⟨q2, r1, r2, r3, r4⟩ := slot_recent (ws := ws) a b
      obtain ⟨en, e1, e2, -⟩ := h.pah q2 r1 r2 r3
      dsimp only at e1
      rw [r4, Array.getElem?_eq_getElem hq] at e1
      have hne : K q2 ≠ K n := d q2 (by omega) r2
      rw [Option.some.inj e1, e2, if_neg (by simpa using hne)]
      exact key _ (.inl ⟨rfl, fun q' g1 g2 g3 => d q' (by omega) g2⟩)

/-- `s + 1` equal bytes at `q`, no more (unless `s` is the greatest `u16`). -/
structure IsSame (arr : Array UInt8) (q s : Nat) : Prop where
  run : Run arr q s
  le : s ≤ 65535
  max : s < 65535 → ¬ Run arr q (s + 1)

theorem Run.mono {arr : Array UInt8} {q s t : Nat} (h : Run arr q s) (ht : t ≤ s) : Run arr q t :=
  ⟨by have := h.1; omega, fun j hj => h.2 j (by omega)⟩

theorem IsSame.unique {arr : Array UInt8} {q s t : Nat} (h : IsSame arr q s) (h' : IsSame arr q t) : s = t := by
  rcases Nat.lt_trichotomy s t with g | g | g
  · exact absurd (h'.run.mono (t := s + 1) (by omega)) (h.max (by have := h'.le; omega))
  · exact g
  · exact absurd (h.run.mono (t := t + 1) (by omega)) (h'.max (by have := h.le; omega))

theorem extendSame_isSame {arr : Array UInt8} {q : Nat} {c : UInt8} (hc : arr[q]? = some c) :
    ∀ (m amount : Nat), arr.size - amount = m → Run arr q amount → amount ≤ 65535 →
      IsSame arr q (extendSame arr c amount (q + amount + 1)) := by
  intro m
  induction m using Nat.strongRecOn with
  | ind m ih =>
    intro amount hm hr hle
    rw [extendSame]
    split
    · rename_i hlt
      split
      · rename_i hcond
        have hr' : Run arr q (amount + 1) := by
          refine ⟨by omega, fun j hj => ?_⟩
          by_cases h : j = amount + 1
          · subst h
            rw [← Nat.add_assoc, Array.getElem?_eq_getElem hlt, ← hcond.1, hc]
          · exact hr.2 j (by omega)
        have := hr.1
        have := ih (arr.size - (amount + 1)) (by omega) (amount + 1) rfl hr' (by omega)
        rwa [show q + (amount + 1) + 1 = q + amount + 1 + 1 by omega] at this
      · rename_i hcond
        refine ⟨hr, hle, fun h hr' => hcond ⟨?_, h⟩⟩
        have := hr'.2 (amount + 1) (Nat.le_refl _)
        rw [← Nat.add_assoc, Array.getElem?_eq_getElem hlt, hc] at this
        exact (Option.some.inj this).symm
    · rename_i hlt
      exact ⟨hr, hle, fun h hr' => hlt (by have := hr'.1; omega)⟩

/-- The number of further bytes equal to the one at `q` (at most 65535). -/
def sameLen (arr : Array UInt8) (q : Nat) : Nat := extendSame arr ((arr[q]?).getD 0) 0 (q + 1)

theorem sameLen_spec {arr : Array UInt8} {q : Nat} (hq : q < arr.size) : IsSame arr q (sameLen arr q) := by
  have h := extendSame_isSame (arr := arr) (q := q) (c := arr[q]) (Array.getElem?_eq_getElem hq) _ 0 rfl
    ⟨by omega, fun j hj => by rw [show j = 0 by omega]; rfl⟩ (by omega)
  rw [Nat.add_zero] at h
  unfold sameLen
  rwa [Array.getElem?_eq_getElem hq, Option.getD_some]

/-- The first key of a position: the rolling hash of its three bytes (missing bytes count as zero). -/
def key1 (arr : Array UInt8) (q : Nat) : Nat :=
  updateVal (updateVal (updateVal 0 ((arr[q]?).getD 0)) ((arr[q + 1]?).getD 0)) ((arr[q + 2]?).getD 0)

/-- The second key: the first, and the length of the run of equal bytes. -/
def key2 (arr : Array UInt8) (q : Nat) : Nat := (((sameLen arr q + 65533) % 65536) &&& 255) ^^^ key1 arr q

def keyOf (arr : Array UInt8) : Which → Nat → Nat
  | .hash1 => key1 arr
  | .hash2 => key2 arr

/-- The hash after the positions `ws ≤ q < n` have been entered. -/
structure HashK (arr : Array UInt8) (ws n : Nat) (h : ZopfliHash) : Prop where
  t1 : TableK (key1 arr) h.hash1 ws n
  t2 : TableK (key2 arr) h.hash2 ws n
  sameSize : h.same.size = 32768
  same0 : n = ws → ∀ (i s : Nat), h.same[i]? = some s → s = 0
  same : ∀ q, ws ≤ q → q < n → n ≤ q + 32768 → h.same[q % 32768]? = some (sameLen arr q)
  val : ∃ v, h.hash1.val = updateVal (updateVal v ((arr[n]?).getD 0)) ((arr[n + 1]?).getD 0)

theorem hashK_update {arr : Array UInt8} {ws n : Nat} {h : ZopfliHash} (hi : HashK arr ws n h) (hws : ws ≤ n) (hn : n < arr.size) :
    ∃ h', h.update arr n = some h' ∧ HashK arr ws (n + 1) h' := by
  obtain ⟨⟨head1, pah1, val1⟩, ⟨head2, pah2, val2⟩, same⟩ := h
  have hss : same.size = 32768 := hi.sameSize
  unfold ZopfliHash.update
  dsimp only [WINDOW_SIZE, MIN_MATCH]
  have hlt : n % 32768 < 32768 := Nat.mod_lt _ (by omega)
  obtain ⟨v0, hv0⟩ := hi.val
  dsimp only at hv0
  have hk1 : updateVal val1 ((arr[n + 3 - 1]?).getD 0) = key1 arr n := by
    rw [hv0, show n + 3 - 1 = n + 2 by omega]
    exact uv3 _ _ _ _ _
  have hk1lt : key1 arr n < 32768 := updateVal_lt _ _
  rw [hk1]
  obtain ⟨T1, e1, i1⟩ := tableK_update hi.t1 hws (by omega)
  dsimp only at e1
  rw [e1, some_bind]
  have hlt2 : (n + 32768 - 1) % 32768 < same.size := by rw [hss]; exact Nat.mod_lt _ (by omega)
  rw [Array.getElem?_eq_getElem hlt2, some_bind]
  generalize hs : same[(n + 32768 - 1) % 32768] = s
  rw [Array.getElem?_eq_getElem hn, some_bind]
  generalize ham : (if s > 1 then s - 1 else 0) = am
  have hrun : Run arr n am ∧ am ≤ 65535 := by
    subst ham
    split
    · rename_i hs1
      have hwn : ws < n := by
        rcases Nat.lt_or_ge ws n with h | h
        · exact h
        · have := hi.same0 (by omega) ((n + 32768 - 1) % 32768) s (by dsimp only; rw [Array.getElem?_eq_getElem hlt2, hs])
          omega
      have hr := hi.same (n - 1) (by omega) (by omega) (by omega)
      dsimp only at hr
      rw [show (n - 1) % 32768 = (n + 32768 - 1) % 32768 by omega, Array.getElem?_eq_getElem hlt2, hs, Option.some.injEq] at hr
      have hsm := sameLen_spec (arr := arr) (q := n - 1) (by omega)
      rw [← hr] at hsm
      obtain ⟨r1, r2⟩ := hsm.run
      refine ⟨⟨by omega, fun j hj => ?_⟩, by have := hsm.le; omega⟩
      have a1 := r2 (j + 1) (by omega)
      have a2 := r2 1 (by omega)
      rw [show n - 1 + (j + 1) = n + j by omega] at a1
      rw [show n - 1 + 1 = n by omega] at a2
      rw [a1, a2]
    · exact ⟨⟨by omega, fun j hj => by rw [show j = 0 by omega]; rfl⟩, by omega⟩
  have hext := extendSame_isSame (c := arr[n]'hn) (Array.getElem?_eq_getElem hn) _ am rfl hrun.1 hrun.2
  have hx := hext.unique (sameLen_spec hn)
  rw [hx, guardR_eq (by have := (sameLen_spec hn).le; simp only [decide_eq_true_eq]; omega), some_bind, aset_eq (by omega), some_bind]
  have hv2 : key2 arr n < 65536 := xor_lt16 (Nat.lt_trans (and255_lt _) (by omega)) (by omega)
  obtain ⟨T2, e2, i2⟩ := tableK_update hi.t2 hws hv2
  dsimp only [key2] at e2
  rw [e2, some_bind]
  refine ⟨_, rfl, ⟨i1, i2, by simpa using hss, by intro; omega, ?_, ?_⟩⟩
  · intro q g1 g2 g3
    dsimp only [WINDOW_SIZE]
    rw [Array.getElem?_set]
    by_cases hqn : q = n
    · subst hqn
      rw [if_pos rfl]
    · rw [if_neg (by omega)]
      exact hi.same q g1 (by omega) (by omega)
  · refine ⟨updateVal 0 ((arr[n]?).getD 0), ?_⟩
    have := i1.val (by omega)
    dsimp only
    rw [this, show n + 1 - 1 = n by omega]
    rfl

theorem hashAt_K {arr : Array UInt8} {ws : Nat} (hws : ws + 1 < arr.size) :
    ∀ d, ws + d ≤ arr.size → ∃ h, hashAt arr ws (ws + d) = some h ∧ HashK arr ws (ws + d) h
  | 0, _ => by
    unfold hashAt
    rw [Nat.add_zero, show (fun h : ZopfliHash => forRange ws ws h fun i h => h.update arr i) = fun h => some h from
      funext fun h => forRange_empty (Nat.le_refl _)]
    unfold ZopfliHash.warmup
    dsimp only [ZopfliHash.new]
    rw [Array.getElem?_eq_getElem (by omega), some_bind, if_pos hws, Array.getElem?_eq_getElem hws, some_bind, some_bind]
    refine ⟨_, rfl, tableK_init _ ws rfl (by simp [HashThing.init]), tableK_init _ ws rfl (by simp [HashThing.init]), by simp, ?_, by intros; omega, ⟨0, ?_⟩⟩
    · intro _ i s h
      dsimp only at h
      rw [Array.getElem?_replicate] at h
      split at h
      · exact (Option.some.inj h).symm
      · simp at h
    · dsimp only
      rw [Array.getElem?_eq_getElem (by omega), Array.getElem?_eq_getElem hws]
      rfl
  | d + 1, hd => by
    obtain ⟨h, e, hi⟩ := hashAt_K hws d (by omega)
    obtain ⟨h', e', hi'⟩ := hashK_update hi (by omega) (by omega)
    exact ⟨h', by rw [← Nat.add_assoc, hashAt_succ (by omega), e, some_bind, e'], hi'⟩

/-- The `l` bytes at `q` are those at `pos`. -/
def SameAt (arr : Array UInt8) (pos q l : Nat) : Prop := ∀ k, k < l → arr[pos + k]? = arr[q + k]?

theorem key1_eq {arr : Array UInt8} {pos q l : Nat} (h : SameAt arr pos q l) (hl : 3 ≤ l) : key1 arr q = key1 arr pos := by
  unfold key1
  have h0 := h 0 (by omega)
  rw [Nat.add_zero, Nat.add_zero] at h0
  rw [h0, h 1 (by omega), h 2 (by omega)]

theorem sameLen_eq {arr : Array UInt8} {pos q l : Nat} (h : SameAt arr pos q l) (hq : q < pos) (hsz : pos + l ≤ arr.size)
    (hl : sameLen arr pos + 2 ≤ l) : sameLen arr q = sameLen arr pos := by
  have hs := sameLen_spec (arr := arr) (q := pos) (by omega)
  have h0 : arr[pos]? = arr[q]? := h 0 (by omega)
  refine (sameLen_spec (by omega)).unique ⟨⟨by omega, fun j hj => ?_⟩, hs.le, fun hlt hr => hs.max hlt ⟨by omega, fun j hj => ?_⟩⟩
  · rw [← h j (by omega), hs.run.2 j hj, h0]
  · rw [h j (by omega), hr.2 j hj, h0]

theorem key2_eq {arr : Array UInt8} {pos q l : Nat} (h : SameAt arr pos q l) (hq : q < pos) (hsz : pos + l ≤ arr.size)
    (hl3 : 3 ≤ l) (hl : sameLen arr pos + 2 ≤ l) : key2 arr q = key2 arr pos := by
  unfold key2
  rw [sameLen_eq h hq hsz hl, key1_eq h hl3]

/-- The byte of which a run is made, recovered from the hash. -/
def unkey (k : Nat) : Nat := k % 32 + 32 * (((k / 32) ^^^ k) % 8)

theorem unkey_spec : ∀ x : Fin 256, unkey (updateVal (updateVal (updateVal 0 (UInt8.ofNat x.val)) (UInt8.ofNat x.val)) (UInt8.ofNat x.val)) = x.val := by
  decide +kernel

theorem run_key_inj {x y : UInt8} (h : updateVal (updateVal (updateVal 0 x) x) x = updateVal (updateVal (updateVal 0 y) y) y) : x = y := by
  have hx := unkey_spec ⟨x.toNat, x.toNat_lt⟩
  have hy := unkey_spec ⟨y.toNat, y.toNat_lt⟩
  dsimp only at hx hy
  rw [UInt8.ofNat_toNat] at hx hy
  rw [h, hy] at hx
  exact UInt8.toNat_inj.mp hx.symm

theorem key1_run {arr : Array UInt8} {q s : Nat} (h : Run arr q s) (hs : 2 ≤ s) :
    ∃ x, arr[q]? = some x ∧ key1 arr q = updateVal (updateVal (updateVal 0 x) x) x := by
  have hq : q < arr.size := by have := h.1; omega
  refine ⟨arr[q]'hq, Array.getElem?_eq_getElem _, ?_⟩
  unfold key1
  rw [h.2 1 (by omega), h.2 2 (by omega), Array.getElem?_eq_getElem hq]
  rfl

/-- A candidate with both keys equal repeats the whole run. -/
theorem both_keys {arr : Array UInt8} {pos q : Nat} (hq : q < pos) (hpos : pos < arr.size) (h1 : key1 arr q = key1 arr pos)
    (h2 : key2 arr q = key2 arr pos) (hs2 : 2 ≤ sameLen arr pos) (hs : sameLen arr pos ≤ 255) : SameAt arr pos q (sameLen arr pos + 1) := by
  have a := sameLen_spec hpos
  have b := sameLen_spec (arr := arr) (q := q) (by omega)
  unfold key2 at h2
  rw [h1] at h2
  have h3 : ((sameLen arr q + 65533) % 65536 &&& 255) = ((sameLen arr pos + 65533) % 65536 &&& 255) := by
    have := congrArg (· ^^^ key1 arr pos) h2
    simpa [Nat.xor_assoc] using this
  rw [show 255 = 2 ^ 8 - 1 by rfl, Nat.and_two_pow_sub_one_eq_mod, Nat.and_two_pow_sub_one_eq_mod] at h3
  have hge : sameLen arr pos ≤ sameLen arr q := by have := b.le; omega
  obtain ⟨x, x1, x2⟩ := key1_run a.run hs2
  obtain ⟨y, y1, y2⟩ := key1_run (b.run.mono hge) hs2
  have hxy : x = y := run_key_inj (by rw [← x2, ← y2, h1])
  intro k hk
  rw [a.run.2 k (by omega), b.run.2 k (by omega), x1, y1, hxy]

/-- 1 in the corner case: `pos` is the start of a run of exactly 257 or 258 equal bytes. -/
def corner (arr : Array UInt8) (ws pos : Nat) : Nat :=
  if (sameLen arr pos = 256 ∨ sameLen arr pos = 257) ∧ ¬ (ws < pos ∧ arr[pos - 1]? = arr[pos]?) then 1 else 0

/-- A match of length `l` is accounted for by a best length of `bl`: not longer, or one byte longer in the corner case. -/
def Good (c s l bl : Nat) : Prop := l ≤ bl ∨ (c = 1 ∧ l = s + 1 ∧ s ≤ bl)

theorem Good.mono {c s l bl bl' : Nat} (h : Good c s l bl) (hb : bl ≤ bl') : Good c s l bl' := by
  unfold Good at *
  omega

/-- What holds of the best length when the search has switched to the second table. -/
def OnSecond (c s bl : Nat) (w : Which) : Prop := w = .hash2 → s ≤ bl ∧ (s < 2 ∨ s + 1 ≤ bl ∨ c = 1)

theorem OnSecond.mono {c s bl bl' : Nat} {w : Which} (h : OnSecond c s bl w) (hb : bl ≤ bl') : OnSecond c s bl' w := by
  intro e
  have := h e
  omega

/-- A position that is not on the chain has no better match. -/
theorem skipped {arr : Array UInt8} {c pos q l bl : Nat} {w : Which} (hB : OnSecond c (sameLen arr pos) bl w) (hq : q < pos)
    (hne : keyOf arr w q ≠ keyOf arr w pos) (hl3 : 3 ≤ l) (hsz : pos + l ≤ arr.size) (h : SameAt arr pos q l) : Good c (sameLen arr pos) l bl := by
  cases w with
  | hash1 => exact absurd (key1_eq h hl3) hne
  | hash2 =>
    have hB := hB rfl
    have : ¬ sameLen arr pos + 2 ≤ l := fun hl => hne (key2_eq h hq hsz hl3 hl)
    unfold Good
    omega

/-- In a run, the position before repeats the rest of the run. -/
theorem sameAt_before {arr : Array UInt8} {pos : Nat} (h0 : 0 < pos) (hpos : pos < arr.size) (h : arr[pos - 1]? = arr[pos]?) :
    SameAt arr pos (pos - 1) (sameLen arr pos + 1) := by
  have a := sameLen_spec hpos
  intro k hk
  rw [a.run.2 k (by omega)]
  cases k with
  | zero => exact h.symm
  | succ k =>
    rw [show pos - 1 + (k + 1) = pos + k by omega, a.run.2 k (by omega)]

theorem prevAt_K {h : ZopfliHash} {arr : Array UInt8} {ws pos q : Nat} (hk : HashK arr ws (pos + 1) h) (w : Which)
    (h1 : ws ≤ q) (h2 : q ≤ pos) (h3 : pos < q + 32768) :
    ∃ p', h.prevAt (q % 32768) w = some p' ∧ h.hashValAt (q % 32768) w = some (some (keyOf arr w q)) ∧
      ((p' = q % 32768 ∧ ∀ q', ws ≤ q' → q' < q → q < q' + 32768 → keyOf arr w q' ≠ keyOf arr w q) ∨
        ∃ q', ws ≤ q' ∧ q' < q ∧ q < q' + 32768 ∧ keyOf arr w q' = keyOf arr w q ∧
          (∀ q'', q' < q'' → q'' < q → keyOf arr w q'' ≠ keyOf arr w q) ∧ p' = q' % 32768) := by
  have ht : TableK (keyOf arr w) (h.table w) ws (pos + 1) := by cases w; exacts [hk.t1, hk.t2]
  obtain ⟨e, e1, e2, e3⟩ := ht.pah q h1 (by omega) (by omega)
  exact ⟨e.prev, by rw [ZopfliHash.prevAt, e1]; rfl, by rw [ZopfliHash.hashValAt, e1, ← e2]; rfl, e3⟩

theorem advance_K {h : ZopfliHash} {arr : Array UInt8} {ws pos q : Nat} (hk : HashK arr ws (pos + 1) h) (w : Which) (bl : Nat)
    (h1 : ws ≤ q) (h2 : q < pos) (h3 : pos < q + 32768) (hpos : pos < arr.size) (hkey : keyOf arr w q = keyOf arr w pos)
    (hbl : bl < 258) (hB : OnSecond (corner arr ws pos) (sameLen arr pos) bl w)
    (hA : ∀ l, 3 ≤ l → l ≤ 258 → sameLen arr pos ≤ bl → l ≤ bl + 1 → SameAt arr pos q l → Good (corner arr ws pos) (sameLen arr pos) l bl)
    (hA1 : ws < pos → sameLen arr pos ≤ bl → SameAt arr pos (pos - 1) (sameLen arr pos + 1) → 2 ≤ sameLen arr pos →
      Good (corner arr ws pos) (sameLen arr pos) (sameLen arr pos + 1) bl) :
    ∃ w' p', advance h pos bl w (q % 32768) = some (w', p') ∧ OnSecond (corner arr ws pos) (sameLen arr pos) bl w' ∧ keyOf arr w' q = keyOf arr w' pos ∧
      (w' = .hash1 → w = .hash1 ∧ ¬ (sameLen arr pos ≤ bl ∧ key2 arr q = key2 arr pos)) ∧
      ((p' = q % 32768 ∧ ∀ q', ws ≤ q' → q' < q → q < q' + 32768 → keyOf arr w' q' ≠ keyOf arr w' pos) ∨
        ∃ q', ws ≤ q' ∧ q' < q ∧ q < q' + 32768 ∧ keyOf arr w' q' = keyOf arr w' pos ∧
          (∀ q'', q' < q'' → q'' < q → keyOf arr w' q'' ≠ keyOf arr w' pos) ∧ p' = q' % 32768) := by
  unfold advance
  dsimp only [WINDOW_SIZE]
  have hs := hk.same pos (by omega) (by omega) (by omega)
  obtain ⟨-, -, hv, -⟩ := prevAt_K hk .hash2 h1 (by omega) h3
  have hval : h.valOf .hash2 = key2 arr pos := by
    have := hk.t2.val (by omega)
    rwa [Nat.add_sub_cancel] at this
  rw [hs, hv, hval]
  have hsw : ∃ b, (if w = .hash1 then do
      if bl ≥ (← some (sameLen arr pos)) then
        some (decide (some (key2 arr pos) = (← some (some (keyOf arr Which.hash2 q)))))
      else some false
    else some false) = some b ∧ OnSecond (corner arr ws pos) (sameLen arr pos) bl (if b = true then .hash2 else w) ∧
      keyOf arr (if b = true then .hash2 else w) q = keyOf arr (if b = true then .hash2 else w) pos ∧
      ((if b = true then Which.hash2 else w) = .hash1 → w = .hash1 ∧ ¬ (sameLen arr pos ≤ bl ∧ key2 arr q = key2 arr pos)) := by
    rw [some_bind, some_bind]
    split
    · rename_i hw1
      split
      · rename_i hge
        by_cases hd : some (key2 arr pos) = some (keyOf arr Which.hash2 q)
        · refine ⟨true, by rw [decide_eq_true hd], ?_, ?_, fun h => by cases h⟩
          · rw [if_pos rfl]
            intro _
            refine ⟨hge, ?_⟩
            by_cases hc : sameLen arr pos < 2 ∨ corner arr ws pos = 1
            · omega
            by_cases hc2 : sameLen arr pos = 256 ∨ sameLen arr pos = 257
            · have hpre : ws < pos ∧ arr[pos - 1]? = arr[pos]? := by
                by_contra hn
                exact hc (.inr (by unfold corner; rw [if_pos ⟨hc2, hn⟩]))
              have := hA1 hpre.1 hge (sameAt_before (by omega) hpos hpre.2) (by omega)
              unfold Good at this
              omega
            · have hS := both_keys h2 hpos (by rw [hw1] at hkey; exact hkey) (Option.some.inj hd).symm (by omega) (by omega)
              have := hA (sameLen arr pos + 1) (by omega) (by omega) hge (by omega) hS
              unfold Good at this
              omega
          · rw [if_pos rfl]
            exact (Option.some.inj hd).symm
        · exact ⟨false, by rw [decide_eq_false hd], by simpa using hB, by simpa using hkey, fun _ => ⟨hw1, fun h => hd (congrArg some h.2.symm)⟩⟩
      · rename_i hlt
        exact ⟨false, rfl, by simpa using hB, by simpa using hkey, fun _ => ⟨hw1, fun h => hlt h.1⟩⟩
    · rename_i hw
      exact ⟨false, rfl, by simpa using hB, by simpa using hkey, fun h => absurd h hw⟩
  obtain ⟨b, hb, hB', hkey', hstay⟩ := hsw
  rw [hb, some_bind]
  generalize (if b = true then Which.hash2 else w) = w' at hB' hkey' hstay
  obtain ⟨p', e, -, hp⟩ := prevAt_K hk w' h1 (by omega) h3
  rw [hkey'] at hp
  rw [e, some_bind]
  exact ⟨w', p', rfl, hB', hkey', hstay, hp⟩

/-- The positions in the window of `pos`. -/
def InWindow (ws pos q : Nat) : Prop := ws ≤ q ∧ q < pos ∧ pos < q + 32768

/-- Position `q` repeats as many bytes as a match can have. -/
def Full (arr : Array UInt8) (pos q : Nat) : Prop := ∀ k, k < 258 → pos + k < arr.size → arr[pos + k]? = arr[q + k]?

/-- Position `q` shares both keys with `pos`. -/
def Both (arr : Array UInt8) (pos q : Nat) : Prop := key1 arr q = key1 arr pos ∧ key2 arr q = key2 arr pos

/-- A long run starts at `pos`. -/
def LongStart (arr : Array UInt8) (ws pos : Nat) : Prop := 256 ≤ sameLen arr pos ∧ ¬ (ws < pos ∧ arr[pos - 1]? = arr[pos]?)

/-- Position `q` may be looked at when searching for a match at `pos`. -/
def LooksAt (arr : Array UInt8) (ws pos q : Nat) : Prop :=
  (key1 arr q = key1 arr pos ∨ key2 arr q = key2 arr pos) ∧
    (corner arr ws pos = 1 ∨ (∀ q', q < q' → q' < pos → ¬ Full arr pos q') ∧
      (key2 arr q = key2 arr pos ∨ LongStart arr ws pos ∨ ∀ q', q < q' → q' < pos → ¬ Both arr pos q'))

noncomputable instance (arr : Array UInt8) (ws pos : Nat) : DecidablePred (LooksAt arr ws pos) := Classical.decPred _

/-- The positions of the window that may be looked at when searching for a match at `pos`. -/
noncomputable def sharers (arr : Array UInt8) (ws pos : Nat) : Finset Nat :=
  (Finset.Ico ws pos).filter fun q => pos < q + 32768 ∧ LooksAt arr ws pos q

theorem corner_cases (arr : Array UInt8) (ws pos : Nat) : corner arr ws pos = 0 ∨ corner arr ws pos = 1 := by
  unfold corner
  split <;> omega

theorem matchLoop_complete {h : ZopfliHash} {arr : Array UInt8} {ws pos lim : Nat} (hi : HashInv arr ws (pos + 1) h)
    (hk : HashK arr ws (pos + 1) h) (hlim : pos + lim ≤ arr.size) (hlim2 : lim ≤ 258) (hlim3 : 3 ≤ lim) (hpos : pos < arr.size) :
    ∀ (n : Nat) (w : Which) (p dist bl bd : Nat) (sub : Option (Array Nat)) (st : MatchState),
      (dist < 32768 → 1 ≤ dist ∧ ws + dist ≤ pos ∧ p = (pos - dist) % 32768 ∧ keyOf arr w (pos - dist) = keyOf arr w pos) →
      OnSecond (corner arr ws pos) (sameLen arr pos) bl w →
      (∀ q l, InWindow ws pos q → pos < q + dist → 3 ≤ l → l ≤ lim → SameAt arr pos q l → Good (corner arr ws pos) (sameLen arr pos) l bl) →
      (∀ q l, InWindow ws pos q → pos < q + bd → 3 ≤ l → l ≤ lim → SameAt arr pos q l → Good (corner arr ws pos) (sameLen arr pos) l (bl - 1)) →
      (w = .hash1 → corner arr ws pos = 1 ∨ LongStart arr ws pos ∨ ∀ q', ws ≤ q' → pos < q' + dist → q' < pos → ¬ Both arr pos q') →
      ((sharers arr ws pos).filter fun q => q + dist ≤ pos).card ≤ n →
      1 ≤ bl → bl < lim →
      matchLoop h arr pos arr.size lim n ⟨w, p, dist, bl, bd, sub⟩ = some st →
      (∀ q l, InWindow ws pos q → 3 ≤ l → l ≤ lim → SameAt arr pos q l → Good (corner arr ws pos) (sameLen arr pos) l st.bestlength) ∧
      (∀ q l, InWindow ws pos q → pos < q + st.bestdist → 3 ≤ l → l ≤ lim → SameAt arr pos q l →
        Good (corner arr ws pos) (sameLen arr pos) l (st.bestlength - 1)) := by
  have hmem : ∀ (w : Which) (dist bl : Nat), 1 ≤ dist → ws + dist ≤ pos → dist < 32768 → keyOf arr w (pos - dist) = keyOf arr w pos → bl < lim →
      (∀ q l, InWindow ws pos q → pos < q + dist → 3 ≤ l → l ≤ lim → SameAt arr pos q l → Good (corner arr ws pos) (sameLen arr pos) l bl) →
      (w = .hash1 → corner arr ws pos = 1 ∨ LongStart arr ws pos ∨ ∀ q', ws ≤ q' → pos < q' + dist → q' < pos → ¬ Both arr pos q') →
      pos - dist ∈ (sharers arr ws pos).filter fun q => q + dist ≤ pos := by
    intro w dist bl c1 c2 hd c4 hbl hA hI
    rw [Finset.mem_filter, sharers, Finset.mem_filter, Finset.mem_Ico]
    refine ⟨⟨⟨by omega, by omega⟩, by omega, ?_, ?_⟩, by omega⟩
    · cases w
      · exact .inl c4
      · exact .inr c4
    · rcases corner_cases arr ws pos with hc | hc
      · refine .inr ⟨?_, ?_⟩
        · rintro q' h1 h2 hS
          have := hA q' lim ⟨by omega, h2, by omega⟩ (by omega) hlim3 (Nat.le_refl _) fun k hk => hS k (by omega) (by omega)
          unfold Good at this
          omega
        · cases w
          · rcases hI rfl with h | h | h
            · omega
            · exact .inr (.inl h)
            · exact .inr (.inr fun q' h1 h2 => h q' (by omega) (by omega) h2)
          · exact .inl c4
      · exact .inl hc
  intro n
  induction n with
  | zero =>
    intro w p dist bl bd sub st hcand hB hA hC hI hcount hbl1 hbl e
    rw [matchLoop] at e
    cases e
    refine ⟨fun q l hq h3 hl hS => ?_, hC⟩
    by_cases hd : dist < 32768
    · obtain ⟨c1, c2, -, c4⟩ := hcand hd
      have := hmem w dist bl c1 c2 hd c4 hbl hA hI
      rw [Finset.card_eq_zero.mp (Nat.le_zero.mp hcount)] at this
      simp at this
    · exact hA q l hq (by have := hq.2.2; omega) h3 hl hS
  | succ n ih =>
    intro w p dist bl bd sub st hcand hB hA hC hI hcount hbl1 hbl e
    rw [matchLoop_succ _ _ _ _ _ _ _ _ _ _ _ _ (matchLoop_passed e)] at e
    by_cases hd : dist < 32768
    · obtain ⟨c1, c2, rfl, c4⟩ := hcand hd
      rw [if_pos hd, if_pos (by omega)] at e
      obtain ⟨l0, hl0⟩ := lcp_exists arr arr pos (pos - dist) lim
      obtain ⟨r, er, hr⟩ := currentLength_spec hi hlim hlim2 hbl c1 hd c2 hl0
      rw [er, some_bind] at e
      dsimp only at e
      obtain ⟨bl', hbl'⟩ : ∃ x, x = if dist > 0 ∧ r > bl then r else bl := ⟨_, rfl⟩
      obtain ⟨bd', hbd'⟩ : ∃ x, x = if dist > 0 ∧ r > bl then dist else bd := ⟨_, rfl⟩
      rw [← hbl', ← hbd'] at e
      have hle : bl ≤ bl' := by rw [hbl']; split <;> omega
      have hl0' : l0 ≤ bl' := by rw [hbl']; split <;> omega
      have hA' : ∀ q l, InWindow ws pos q → pos ≤ q + dist → 3 ≤ l → l ≤ lim → SameAt arr pos q l → Good (corner arr ws pos) (sameLen arr pos) l bl' := by
        intro q l hq hqd h3 hl hS
        rcases Nat.lt_or_ge pos (q + dist) with g | g
        · exact (hA q l hq g h3 hl hS).mono hle
        · left
          have hqe : q = pos - dist := by omega
          subst hqe
          have : l ≤ l0 := by
            by_contra hlt
            exact hl0.ne (by omega) (hS l0 (by omega))
          omega
      have hC' : ∀ q l, InWindow ws pos q → pos < q + bd' → 3 ≤ l → l ≤ lim → SameAt arr pos q l → Good (corner arr ws pos) (sameLen arr pos) l (bl' - 1) := by
        intro q l hq hqd h3 hl hS
        rw [hbd'] at hqd
        by_cases hb : dist > 0 ∧ r > bl
        · rw [if_pos hb] at hqd hbl'
          exact (hA q l hq hqd h3 hl hS).mono (by omega)
        · rw [if_neg hb] at hqd hbl'
          rw [hbl']
          exact hC q l hq hqd h3 hl hS
      by_cases hfull : (dist > 0 ∧ r > bl) ∧ r ≥ lim
      · rw [if_pos hfull] at e
        cases e
        dsimp only
        refine ⟨fun q l hq h3 hl hS => .inl ?_, hC'⟩
        rw [if_pos hfull.1] at hbl'
        omega
      · rw [if_neg hfull] at e
        have hbl2 : bl' < lim := by
          rw [hbl']
          by_cases hb : dist > 0 ∧ r > bl
          · rw [if_pos hb]
            by_contra hge
            exact hfull ⟨hb, by omega⟩
          · rw [if_neg hb]; exact hbl
        obtain ⟨w', p', ea, hB', hkey', hstay, hp⟩ := advance_K hk w bl' (q := pos - dist) (by omega) (by omega) (by omega) hpos c4 (by omega)
          (hB.mono hle) (fun l h3 _ _ hl hS => hA' (pos - dist) l ⟨by omega, by omega, by omega⟩ (by omega) h3 (by omega) hS)
          (fun hw hs hS h2 => hA' (pos - 1) _ ⟨by omega, by omega, by omega⟩ (by omega) (by omega) (by omega) hS)
        rw [ea, some_bind] at e
        dsimp only at e
        rcases hp with ⟨rfl, hnone⟩ | ⟨q', g1, g2, g3, g4, g5, rfl⟩
        · rw [if_pos rfl] at e
          cases e
          dsimp only
          refine ⟨fun q l hq h3 hl hS => ?_, hC'⟩
          rcases Nat.lt_or_ge (q + dist) pos with g | g
          · exact skipped hB' hq.2.1 (hnone q hq.1 (by omega) (by have := hq.2.2; omega)) h3 (by omega) hS
          · exact hA' q l hq g h3 hl hS
        · rw [if_neg (by omega), slotDist_spec g2 g3, show dist + (pos - dist - q') = pos - q' by omega] at e
          refine ih w' _ (pos - q') bl' bd' _ st ?_ hB' ?_ hC' ?_ ?_ (by omega) hbl2 e
          · intro _
            rw [show pos - (pos - q') = q' by omega]
            exact ⟨by omega, by omega, rfl, g4⟩
          · intro q l hq hqd h3 hl hS
            rcases Nat.lt_or_ge (q + dist) pos with g | g
            · exact skipped hB' hq.2.1 (g5 q (by omega) (by omega)) h3 (by omega) hS
            · exact hA' q l hq g h3 hl hS
          · intro hw'
            obtain ⟨hw, hns⟩ := hstay hw'
            rcases hI hw with hI | hI | hI
            · exact .inl hI
            · exact .inr (.inl hI)
            rcases corner_cases arr ws pos with hc | hc
            · by_cases hls : LongStart arr ws pos
              · exact .inr (.inl hls)
              refine .inr (.inr fun q'' i1 i2 i3 hb => ?_)
              rcases Nat.lt_trichotomy q'' (pos - dist) with g | g | g
              · have := g5 q'' (by omega) g
                rw [hw'] at this
                exact this hb.1
              · subst g
                have hlt : bl' < sameLen arr pos := by
                  by_contra hge
                  exact hns ⟨by omega, hb.2⟩
                have hmatch : ∀ q, InWindow ws pos q → pos ≤ q + dist → SameAt arr pos q (sameLen arr pos + 1) → False := by
                  intro q hq hqd hS
                  have := hA' q (min (sameLen arr pos + 1) lim) hq hqd (by omega) (by omega) fun k hk => hS k (by omega)
                  unfold Good at this
                  omega
                by_cases h255 : sameLen arr pos ≤ 255
                · exact hmatch _ ⟨by omega, by omega, by omega⟩ (by omega) (both_keys (by omega) hpos hb.1 hb.2 (by omega) h255)
                · have hpre : ws < pos ∧ arr[pos - 1]? = arr[pos]? := by
                    by_contra hn
                    exact hls ⟨by omega, hn⟩
                  exact hmatch (pos - 1) ⟨by omega, by omega, by omega⟩ (by omega) (sameAt_before (by omega) hpos hpre.2)
              · exact hI q'' i1 (by omega) i3 hb
            · exact .inl hc
          · have hlt : ((sharers arr ws pos).filter fun q => q + (pos - q') ≤ pos).card < ((sharers arr ws pos).filter fun q => q + dist ≤ pos).card := by
              apply Finset.card_lt_card
              rw [Finset.ssubset_iff_of_subset]
              · refine ⟨pos - dist, ?_, ?_⟩
                · exact hmem w dist bl c1 c2 hd c4 hbl hA hI
                · rw [Finset.mem_filter]
                  omega
              · intro q hq
                rw [Finset.mem_filter] at hq ⊢
                exact ⟨hq.1, by omega⟩
            omega
    · rw [if_neg hd] at e
      cases e
      exact ⟨fun q l hq h3 hl hS => hA q l hq (by have := hq.2.2; omega) h3 hl hS, hC⟩

/-- The search finds the longest match, and the nearest of those. -/
theorem findLongestMatchLoop_complete {h : ZopfliHash} {arr : Array UInt8} {ws pos lim : Nat} (hws : ws ≤ pos) (hpos : pos + 3 ≤ arr.size)
    (eh : hashAt arr ws (pos + 1) = some h) (hlim : pos + lim ≤ arr.size) (hlim2 : lim ≤ 258) (hlim3 : 3 ≤ lim)
    (hcount : (sharers arr ws pos).card ≤ 8192) (sub sub' : Option (Array Nat)) (bd bl : Nat)
    (e : findLongestMatchLoop h arr pos arr.size lim sub = some (bd, bl, sub')) :
    (∀ q l, InWindow ws pos q → 3 ≤ l → l ≤ lim → SameAt arr pos q l → Good (corner arr ws pos) (sameLen arr pos) l bl) ∧
      (∀ q l, InWindow ws pos q → pos < q + bd → 3 ≤ l → l ≤ lim → SameAt arr pos q l → Good (corner arr ws pos) (sameLen arr pos) l (bl - 1)) := by
  obtain ⟨h1, e1, hi⟩ := hashAt_inv (arr := arr) (ws := ws) (by omega) (pos + 1 - ws) (by omega)
  obtain ⟨h2, e2, hk⟩ := hashAt_K (arr := arr) (ws := ws) (by omega) (pos + 1 - ws) (by omega)
  rw [show ws + (pos + 1 - ws) = pos + 1 by omega] at e1 e2 hi hk
  rw [eh] at e1 e2
  cases e1
  cases e2
  unfold findLongestMatchLoop at e
  dsimp only [WINDOW_SIZE] at e
  obtain ⟨p, ep, -, hp⟩ := prevAt_K hk .hash1 (q := pos) hws (by omega) (by omega)
  rw [ep, some_bind] at e
  simp only [Option.bind_eq_bind, Option.bind_eq_some_iff, Option.pure_def, Option.some.injEq, Prod.mk.injEq] at e
  obtain ⟨st, e, _, -, rfl, rfl, -⟩ := e
  have hB : OnSecond (corner arr ws pos) (sameLen arr pos) 1 .hash1 := by intro h; cases h
  have hcount' : ∀ d, ((sharers arr ws pos).filter fun q => q + d ≤ pos).card ≤ MAX_CHAIN_HITS := fun d =>
    Nat.le_trans (Finset.card_filter_le _ _) hcount
  refine matchLoop_complete hi hk hlim hlim2 hlim3 (by omega) MAX_CHAIN_HITS .hash1 p (slotDist p (pos % 32768)) 1 0 sub st ?_ hB ?_ ?_ ?_
    (hcount' _) (Nat.le_refl _) (by omega) e
  · rcases hp with ⟨rfl, -⟩ | ⟨q', g1, g2, g3, g4, g5, rfl⟩
    · unfold slotDist
      dsimp only [WINDOW_SIZE]
      rw [if_neg (by omega)]
      omega
    · rw [slotDist_spec g2 g3, show pos - (pos - q') = q' by omega]
      exact fun _ => ⟨by omega, by omega, rfl, g4⟩
  · intro q l hq hqd h3 hl hS
    refine skipped hB hq.2.1 ?_ h3 (by omega) hS
    rcases hp with ⟨rfl, hn⟩ | ⟨q', g1, g2, g3, g4, g5, rfl⟩
    · exact hn q hq.1 hq.2.1 hq.2.2
    · rw [slotDist_spec g2 g3] at hqd
      exact g5 q (by omega) hq.2.1
  · intro q l hq hqd
    have := hq.2.1
    omega
  · refine fun _ => .inr (.inr fun q' i1 i2 i3 hb => ?_)
    rcases hp with ⟨rfl, hn⟩ | ⟨q'', g1, g2, g3, g4, g5, rfl⟩
    · refine hn q' i1 i3 ?_ hb.1
      unfold slotDist at i2
      dsimp only [WINDOW_SIZE] at i2
      rw [if_neg (by omega)] at i2
      omega
    · rw [slotDist_spec g2 g3] at i2
      exact g5 q' (by omega) i3 hb.1

/-- What the oracle finds is the longest match and, for every length, the nearest. -/
theorem oracle_complete {arr : Array UInt8} {ws pos : Nat} {O : Oracle} (hO : IsOracle arr ws O) (hws : ws ≤ pos) (hpos : pos + 3 ≤ arr.size)
    (hcount : (sharers arr ws pos).card ≤ 8192) :
    (∀ q l, InWindow ws pos q → 3 ≤ l → l ≤ 258 → pos + l ≤ arr.size → SameAt arr pos q l → Good (corner arr ws pos) (sameLen arr pos) l (O.L pos)) ∧
    (∀ k, 3 ≤ k → k ≤ O.L pos → ∀ q, InWindow ws pos q → pos < q + O.D pos k → SameAt arr pos q k →
      corner arr ws pos = 1 ∧ k = sameLen arr pos + 1) := by
  obtain ⟨h, eh, -⟩ := hashAt_inv (arr := arr) (ws := ws) (by omega) (pos + 1 - ws) (by omega)
  rw [show ws + (pos + 1 - ws) = pos + 1 by omega] at eh
  have hle := hO.le pos
  have hle' := hO.le' pos (by omega)
  constructor
  · intro q l hq h3 hl hsz hS
    have e := hO.run pos h hws hpos eh (min 258 (arr.size - pos)) none (by omega) (by omega) (by omega)
    have := (findLongestMatchLoop_complete hws hpos eh (by omega) (by omega) (by omega) hcount _ _ _ _ e).1 q l hq h3 (by omega) hS
    rw [show max 1 (min (min 258 (arr.size - pos)) (O.L pos)) = max 1 (O.L pos) by omega] at this
    unfold Good at *
    omega
  · intro k h3 hk q hq hqd hS
    have e := hO.run pos h hws hpos eh k none (by omega) (by omega) (by omega)
    rw [show min k (O.L pos) = k by omega, if_pos (by omega), show max 1 k = k by omega] at e
    have := (findLongestMatchLoop_complete hws hpos eh (by omega) (by omega) (by omega) hcount _ _ _ _ e).2 q k hq hqd h3 (by omega) hS
    unfold Good at this
    omega

end Zopfli
