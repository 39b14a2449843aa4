import Verif.Model.Lz77
import Verif.Proofs.Basic
import Mathlib.Tactic.Ring
import Mathlib.Tactic.NormNum
/-! # The rolling hash tables: invariants -/

namespace Zopfli

/-- The `s` bytes after position `q` all equal the byte at `q`. -/
def Run (arr : Array UInt8) (q s : Nat) : Prop := q + s < arr.size ∧ ∀ j, j ≤ s → arr[q + j]? = arr[q]?

/-- The invariant of one hash table after the positions `ws ≤ q < n` have been entered. -/
structure TableInv (T : HashThing) (ws n : Nat) : Prop where
  headSize : T.head.size = 65536
  pahSize : T.prevAndHashval.size = 32768
  valLt : T.val < 65536
  head : ∀ (v hi : Nat), T.head[v]? = some (some hi) → ∃ q, ws ≤ q ∧ q < n ∧ n ≤ q + 32768 ∧ q % 32768 = hi
  prev : ∀ q, ws ≤ q → q < n → n ≤ q + 32768 → ∃ e, T.prevAndHashval[q % 32768]? = some e ∧
    (e.prev = q % 32768 ∨ ∃ q', ws ≤ q' ∧ q' < q ∧ q < q' + 32768 ∧ e.prev = q' % 32768 ∧
      (n ≤ q' + 32768 → ∃ e', T.prevAndHashval[q' % 32768]? = some e' ∧ e'.hashval = e.hashval))
  last : ws < n → T.head[T.val]? = some (some ((n - 1) % 32768)) ∧
    ∃ e, T.prevAndHashval[(n - 1) % 32768]? = some e ∧ e.hashval = some T.val

/-- The invariant of the hash after the positions `ws ≤ q < n` have been entered. -/
structure HashInv (arr : Array UInt8) (ws n : Nat) (h : ZopfliHash) : Prop where
  t1 : TableInv h.hash1 ws n
  t2 : TableInv h.hash2 ws n
  sameSize : h.same.size = 32768
  same0 : n = ws → ∀ (i s : Nat), h.same[i]? = some s → s = 0
  same : ∀ q s, ws ≤ q → q < n → n ≤ q + 32768 → h.same[q % 32768]? = some s → Run arr q s
  val : n + 1 < arr.size → ∃ v a b, arr[n]? = some a ∧ arr[n + 1]? = some b ∧ h.hash1.val = updateVal (updateVal v a) b ∧
    (ws < n → ∃ w z, arr[n - 1]? = some z ∧ v = updateVal w z)
  sameLe : ∀ (i s : Nat), h.same[i]? = some s → s ≤ 65535

theorem updateVal_lt (v : Nat) (c : UInt8) : updateVal v c < 32768 := by
  unfold updateVal
  exact Nat.lt_of_le_of_lt Nat.and_le_right (by omega)

theorem and255_lt (x : Nat) : x &&& 255 < 256 := Nat.lt_succ_of_le Nat.and_le_right

theorem xor_lt16 {a b : Nat} (ha : a < 65536) (hb : b < 65536) : a ^^^ b < 65536 := by
  have h := @Nat.xor_lt_two_pow a b 16
  norm_num at h
  exact h ha hb

theorem tableInv_init (ws : Nat) (v : Nat) (hv : v < 65536) : TableInv { HashThing.init with val := v } ws ws where
  headSize := by simp [HashThing.init]
  pahSize := by simp [HashThing.init]
  valLt := hv
  head := by
    intro w hi h
    simp only [HashThing.init] at h
    rw [Array.getElem?_replicate] at h
    split at h <;> simp at h
  prev := by intro q h1 h2; omega
  last := by intro h; omega

theorem tableInv_init' (ws : Nat) : TableInv HashThing.init ws ws where
  headSize := by simp [HashThing.init]
  pahSize := by simp [HashThing.init]
  valLt := by simp [HashThing.init]
  head := by
    intro w hi h
    simp only [HashThing.init] at h
    rw [Array.getElem?_replicate] at h
    split at h <;> simp at h
  prev := by intro q h1 h2; omega
  last := by intro h; omega

theorem slot_recent {ws n q : Nat} (h1 : ws ≤ q) (h2 : q < n) : ∃ q', ws ≤ q' ∧ q' < n ∧ n ≤ q' + 32768 ∧ q' % 32768 = q % 32768 := by
  refine ⟨q + 32768 * ((n - 1 - q) / 32768), by omega, by omega, by omega, by omega⟩

/-- Entering position `n` in a table. -/
theorem tableUpdate_spec {T : HashThing} {ws n v : Nat} (h : TableInv T ws n) (hws : ws ≤ n) (hv : v < 65536) :
    ∃ T', HashThing.update { T with val := v } (n % 32768) = some T' ∧ TableInv T' ws (n + 1) ∧ T'.val = v ∧
      (ws < n → T.val = v → ∃ e, T'.prevAndHashval[n % 32768]? = some e ∧ e.prev = (n - 1) % 32768) := by
  obtain ⟨head, pah, val0⟩ := T
  have hs1 : head.size = 65536 := h.headSize
  have hs2 : pah.size = 32768 := h.pahSize
  have hlt : n % 32768 < 32768 := Nat.mod_lt _ (by omega)
  unfold HashThing.update
  dsimp only
  have key : ∀ prev, (prev = n % 32768 ∨ ∃ q', ws ≤ q' ∧ q' < n ∧ n < q' + 32768 ∧ prev = q' % 32768 ∧
        ∃ e', pah[q' % 32768]? = some e' ∧ e'.hashval = some v) →
      (ws < n → val0 = v → prev = (n - 1) % 32768) →
      ∃ T', (do
        let pah ← aset pah (n % 32768) ⟨prev, some v⟩
        let head ← aset head v (some (n % 32768))
        pure (⟨head, pah, v⟩ : HashThing)) = some T' ∧ TableInv T' ws (n + 1) ∧ T'.val = v ∧
      (ws < n → val0 = v → ∃ e, T'.prevAndHashval[n % 32768]? = some e ∧ e.prev = (n - 1) % 32768) := by
    intro prev e2 e3
    rw [aset_eq (by omega), some_bind, aset_eq (by omega), some_bind]
    refine ⟨_, rfl, ?_, rfl, ?_⟩
    · refine ⟨by simpa using hs1, by simpa using hs2, hv, ?_, ?_, ?_⟩
      · intro w hi hw
        dsimp only at hw
        rw [Array.getElem?_set] at hw
        split at hw
        · simp only [Option.some.injEq] at hw
          exact ⟨n, hws, by omega, by omega, hw⟩
        · obtain ⟨q, g1, g2, g3, g4⟩ := h.head w hi hw
          obtain ⟨q', r1, r2, r3, r4⟩ := slot_recent (n := n + 1) g1 (by omega)
          exact ⟨q', r1, r2, r3, by omega⟩
      · intro q g1 g2 g3
        dsimp only
        rw [Array.getElem?_set]
        by_cases hqn : q = n
        · subst hqn
          rw [if_pos rfl]
          refine ⟨_, rfl, ?_⟩
          rcases e2 with e2 | ⟨q', a1, a2, a3, a4, e', a5, a6⟩
          · exact .inl e2
          · refine .inr ⟨q', a1, a2, a3, a4, fun _ => ⟨e', ?_, a6⟩⟩
            rw [Array.getElem?_set, if_neg (by omega), a5]
        · rw [if_neg (by omega)]
          obtain ⟨e, b1, b2⟩ := h.prev q g1 (by omega) (by omega)
          refine ⟨e, b1, ?_⟩
          rcases b2 with b2 | ⟨q', a1, a2, a3, a4, a5⟩
          · exact .inl b2
          · refine .inr ⟨q', a1, a2, a3, a4, fun hle => ?_⟩
            obtain ⟨e', c1, c2⟩ := a5 (by omega)
            exact ⟨e', by rw [Array.getElem?_set, if_neg (by omega), c1], c2⟩
      · intro _
        dsimp only
        rw [show n + 1 - 1 = n by omega]
        refine ⟨by rw [Array.getElem?_set, if_pos rfl], ⟨prev, some v⟩, by rw [Array.getElem?_set, if_pos rfl], rfl⟩
    · intro hw hval
      dsimp only
      rw [Array.getElem?_set, if_pos rfl]
      exact ⟨_, rfl, e3 hw hval⟩
  rw [Array.getElem?_eq_getElem (by omega), some_bind]
  rcases hh : head[v]'(by omega) with _ | hi
  · refine key _ (.inl rfl) ?_
    rintro hw rfl
    have := (h.last hw).1
    dsimp only at this
    rw [Array.getElem?_eq_getElem (by omega), hh] at this
    simp at this
  · obtain ⟨q, g1, g2, g3, g4⟩ := h.head v hi (by dsimp only; rw [Array.getElem?_eq_getElem (by omega), hh])
    have hhi : hi < pah.size := by omega
    dsimp only
    rw [Array.getElem?_eq_getElem hhi, some_bind]
    refine key _ ?_ ?_
    · split
      · rename_i hval
        by_cases e : n = q + 32768
        · left; omega
        · exact .inr ⟨q, g1, g2, by omega, g4.symm, pah[hi], by rw [g4, Array.getElem?_eq_getElem hhi], hval⟩
      · exact .inl rfl
    · rintro hw rfl
      obtain ⟨l1, e, l2, l3⟩ := h.last hw
      dsimp only at l1 l2 l3
      rw [Array.getElem?_eq_getElem (by omega), hh] at l1
      have hhi' : hi = (n - 1) % 32768 := by simpa using l1
      subst hhi'
      rw [Array.getElem?_eq_getElem hhi] at l2
      have := Option.some.inj l2
      rw [this, l3, if_pos rfl]

theorem extendSame_spec {arr : Array UInt8} {q : Nat} {c : UInt8} (hc : arr[q]? = some c) :
    ∀ (m amount : Nat), arr.size - amount = m → Run arr q amount → Run arr q (extendSame arr c amount (q + amount + 1)) := by
  intro m
  induction m using Nat.strongRecOn with
  | ind m ih =>
    intro amount hm hr
    rw [extendSame]
    split
    · rename_i hlt
      split
      · rename_i hcond
        have hr' : Run arr q (amount + 1) := by
          refine ⟨by omega, fun j hj => ?_⟩
          by_cases h : j = amount + 1
          · subst h
            rw [← Nat.add_assoc, Array.getElem?_eq_getElem hlt, ← hcond.1, hc]
          · exact hr.2 j (by omega)
        have := hr.1
        have := ih (arr.size - (amount + 1)) (by omega) (amount + 1) rfl hr'
        rwa [show q + (amount + 1) + 1 = q + amount + 1 + 1 by omega] at this
      · exact hr
    · exact hr

theorem extendSame_le {arr : Array UInt8} {c : UInt8} :
    ∀ (m amount k : Nat), arr.size - k = m → amount ≤ 65535 → extendSame arr c amount k ≤ 65535 := by
  intro m
  induction m using Nat.strongRecOn with
  | ind m ih =>
    intro amount k hm hr
    rw [extendSame]
    split
    · split
      · rename_i hcond
        exact ih (arr.size - (k + 1)) (by omega) (amount + 1) (k + 1) rfl (by omega)
      · exact hr
    · exact hr

theorem uv3 (v w : Nat) (a b c : UInt8) :
    updateVal (updateVal (updateVal v a) b) c = updateVal (updateVal (updateVal w a) b) c := by
  apply Nat.eq_of_testBit_eq
  intro i
  unfold updateVal
  have hm : ∀ i, Nat.testBit 32767 i = decide (i < 15) := by
    intro i
    rw [show 32767 = 2 ^ 15 - 1 by rfl, Nat.testBit_two_pow_sub_one]
  simp only [Nat.testBit_and, Nat.testBit_xor, Nat.testBit_shiftLeft, hm]
  by_cases h : i < 15
  · simp [h]
    by_cases h5 : 5 ≤ i <;> simp [h5]
    by_cases h10 : 5 ≤ i - 5 <;> simp [h10]
    have h15 : ¬ 5 ≤ i - 5 - 5 := by omega
    simp [h15]
  · simp [h]

/-- Entering position `n` in the hash. -/
theorem hashUpdate_spec {arr : Array UInt8} {ws n : Nat} {h : ZopfliHash} (hi : HashInv arr ws n h) (hws : ws ≤ n) (hn : n < arr.size) :
    ∃ h', h.update arr n = some h' ∧ HashInv arr ws (n + 1) h' ∧
      (ws < n → n + 2 < arr.size → Run arr (n - 1) 3 → ∃ e, h'.hash1.prevAndHashval[n % 32768]? = some e ∧ e.prev = (n - 1) % 32768) := by
  obtain ⟨⟨head1, pah1, val1⟩, ⟨head2, pah2, val2⟩, same⟩ := h
  have hss : same.size = 32768 := hi.sameSize
  unfold ZopfliHash.update
  dsimp only [WINDOW_SIZE, MIN_MATCH]
  have hlt : n % 32768 < 32768 := Nat.mod_lt _ (by omega)
  generalize hv : updateVal val1 ((arr[n + 3 - 1]?).getD 0) = v
  have hvlt : v < 32768 := by rw [← hv]; exact updateVal_lt _ _
  obtain ⟨T1, e1, i1, v1, p1⟩ := tableUpdate_spec (v := v) hi.t1 hws (by omega)
  dsimp only at e1 p1
  rw [e1, some_bind]
  have hlt2 : (n + 32768 - 1) % 32768 < same.size := by rw [hss]; exact Nat.mod_lt _ (by omega)
  rw [Array.getElem?_eq_getElem hlt2, some_bind]
  generalize hs : same[(n + 32768 - 1) % 32768] = s
  rw [Array.getElem?_eq_getElem hn, some_bind]
  generalize ham : (if s > 1 then s - 1 else 0) = am
  have hrun : Run arr n am := by
    subst ham
    split
    · rename_i hs1
      have hwn : ws < n := by
        rcases Nat.lt_or_ge ws n with h | h
        · exact h
        · have := hi.same0 (by omega) ((n + 32768 - 1) % 32768) s (by dsimp only; rw [Array.getElem?_eq_getElem hlt2, hs])
          omega
      have hr := hi.same (n - 1) s (by omega) (by omega) (by omega) (by
        dsimp only
        rw [show (n - 1) % 32768 = (n + 32768 - 1) % 32768 by omega, Array.getElem?_eq_getElem hlt2, hs])
      obtain ⟨r1, r2⟩ := hr
      refine ⟨by omega, fun j hj => ?_⟩
      have a1 := r2 (j + 1) (by omega)
      have a2 := r2 1 (by omega)
      rw [show n - 1 + (j + 1) = n + j by omega] at a1
      rw [show n - 1 + 1 = n by omega] at a2
      rw [a1, a2]
    · exact ⟨by omega, fun j hj => by rw [show j = 0 by omega]; rfl⟩
  have hext := extendSame_spec (c := arr[n]'hn) (Array.getElem?_eq_getElem hn) _ am rfl hrun
  have hamle : am ≤ 65535 := by
    have := hi.sameLe ((n + 32768 - 1) % 32768) s (by dsimp only; rw [Array.getElem?_eq_getElem hlt2, hs])
    subst ham
    split <;> omega
  have hxle := extendSame_le (arr := arr) (c := arr[n]'hn) _ am (n + am + 1) rfl hamle
  generalize hxx : extendSame arr (arr[n]'hn) am (n + am + 1) = x at hext hxle
  rw [guardR_eq (by simp only [decide_eq_true_eq]; omega), some_bind, aset_eq (by omega), some_bind]
  have hv2 : ((x + 65533) % 65536 &&& 255) ^^^ v < 65536 := by
    exact xor_lt16 (Nat.lt_trans (and255_lt _) (by omega)) (by omega)
  obtain ⟨T2, e2, i2, v2, -⟩ := tableUpdate_spec (v := ((x + 65533) % 65536 &&& 255) ^^^ v) hi.t2 hws hv2
  dsimp only at e2
  rw [e2, some_bind]
  refine ⟨_, rfl, ⟨i1, i2, by simpa using hss, by intro; omega, ?_, ?_, ?_⟩, ?_⟩
  · intro q s' g1 g2 g3 g4
    dsimp only [WINDOW_SIZE] at g4
    rw [Array.getElem?_set] at g4
    by_cases hqn : q = n
    · subst hqn
      rw [if_pos rfl] at g4
      cases g4
      exact hext
    · rw [if_neg (by omega)] at g4
      exact hi.same q s' g1 (by omega) (by omega) g4
  · intro hn2
    obtain ⟨v0, a, b, ha, hb, hval, -⟩ := hi.val (by omega)
    dsimp only at hval ⊢
    rw [v1, ← hv, hval]
    refine ⟨updateVal v0 a, b, arr[n + 2], hb, by rw [Array.getElem?_eq_getElem], ?_, fun _ => ⟨v0, a, ha, rfl⟩⟩
    rw [show n + 3 - 1 = n + 2 by omega, Array.getElem?_eq_getElem (by omega)]
    rfl
  · intro k s' hk
    dsimp only at hk
    rw [Array.getElem?_set] at hk
    split at hk
    · cases hk
      exact hxle
    · exact hi.sameLe k s' hk
  · intro hwn hn2 hr
    refine p1 hwn ?_
    obtain ⟨v0, a, b, ha, hb, hval, hz⟩ := hi.val (by omega)
    dsimp only at hval
    obtain ⟨w, z, hz', rfl⟩ := hz hwn
    have hr3 := hr.2
    have q1 := hr3 1 (by omega)
    have q2 := hr3 2 (by omega)
    have q3 := hr3 3 (by omega)
    rw [show n - 1 + 1 = n by omega, ha, hz', Option.some.injEq] at q1
    rw [show n - 1 + 2 = n + 1 by omega, hb, hz', Option.some.injEq] at q2
    rw [show n - 1 + 3 = n + 2 by omega, hz'] at q3
    subst q1 q2
    rw [← hv, show n + 3 - 1 = n + 2 by omega, q3, hval, Option.getD_some]
    exact uv3 _ _ _ _ _

/-- The hash after the positions `ws ≤ q < n` of `arr` have been entered. -/
def hashAt (arr : Array UInt8) (ws n : Nat) : Option ZopfliHash := do
  let h ← ZopfliHash.new.warmup arr ws arr.size
  forRange ws n h fun i h => h.update arr i

theorem hashAt_succ {arr : Array UInt8} {ws n : Nat} (h : ws ≤ n) :
    hashAt arr ws (n + 1) = hashAt arr ws n >>= fun h => h.update arr n := by
  unfold hashAt
  rw [bind_assoc]
  congr 1
  funext h0
  rw [forRange_snoc h]

theorem warmHash_eq {arr : Array UInt8} {instart : Nat} : warmHash arr instart arr.size = hashAt arr (instart - 32768) instart := rfl

theorem hashAt_inv {arr : Array UInt8} {ws : Nat} (hws : ws < arr.size) :
    ∀ d, ws + d ≤ arr.size → ∃ h, hashAt arr ws (ws + d) = some h ∧ HashInv arr ws (ws + d) h
  | 0, _ => by
    unfold hashAt
    rw [Nat.add_zero, show (fun h : ZopfliHash => forRange ws ws h fun i h => h.update arr i) = fun h => some h from
      funext fun h => forRange_empty (Nat.le_refl _)]
    have hb : ∀ v, v < 65536 → (arr.size > ws + 1 → ∃ a b, arr[ws]? = some a ∧ arr[ws + 1]? = some b ∧ v = updateVal (updateVal 0 a) b) →
        HashInv arr ws ws ⟨{ HashThing.init with val := v }, HashThing.init, Array.replicate 32768 0⟩ := by
      intro v hv hvv
      refine ⟨tableInv_init ws v hv, tableInv_init' ws, by simp, ?_, by intros; omega, ?_, ?_⟩
      · intro _ i s h
        rw [Array.getElem?_replicate] at h
        split at h
        · exact (Option.some.inj h).symm
        · simp at h
      · intro h
        obtain ⟨a, b, ha, hb, e⟩ := hvv h
        exact ⟨0, a, b, ha, hb, e, by intro; omega⟩
      · intro i s h
        rw [Array.getElem?_replicate] at h
        split at h
        · have := Option.some.inj h; omega
        · simp at h
    unfold ZopfliHash.warmup
    dsimp only [ZopfliHash.new]
    rw [Array.getElem?_eq_getElem hws, some_bind]
    by_cases h1 : ws + 1 < arr.size
    · rw [if_pos h1, Array.getElem?_eq_getElem h1, some_bind, some_bind]
      refine ⟨_, rfl, hb _ (by have := updateVal_lt; exact Nat.lt_trans (this _ _) (by omega)) fun _ => ⟨arr[ws], arr[ws + 1], ?_, ?_, rfl⟩⟩
      · rw [Array.getElem?_eq_getElem hws]
      · rw [Array.getElem?_eq_getElem h1]
    · rw [if_neg h1, some_bind]
      exact ⟨_, rfl, hb _ (by have := updateVal_lt; exact Nat.lt_trans (this _ _) (by omega)) fun h => absurd h h1⟩
  | d + 1, hd => by
    obtain ⟨h, e, hi⟩ := hashAt_inv hws d (by omega)
    obtain ⟨h', e', hi', -⟩ := hashUpdate_spec hi (by omega) (by omega)
    exact ⟨h', by rw [← Nat.add_assoc, hashAt_succ (by omega), e, some_bind, e'], hi'⟩

end Zopfli
