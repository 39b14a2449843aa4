import Verif.Proofs.Chains
import Verif.Props.Parsing
/-!
# C37: the match finder finds the longest match, and the nearest of those

Matches are looked for in two hash tables, by a loop that gives up after 8192 candidates.
-/

namespace Zopfli

theorem key1_hash3 (data : Array UInt8) (q : Nat) : key1 data q = hash3 data q := by
  unfold key1 hash3 updateVal
  generalize ((data[q]?).getD 0) = a
  generalize ((data[q + 1]?).getD 0) = b
  generalize ((data[q + 2]?).getD 0) = c
  rw [show a.toNat * 1024 = a.toNat <<< 10 by rw [Nat.shiftLeft_eq], show b.toNat * 32 = b.toNat <<< 5 by rw [Nat.shiftLeft_eq],
    show 32768 = 2 ^ 15 by rfl, show 32767 = 2 ^ 15 - 1 by rfl, ← Nat.and_two_pow_sub_one_eq_mod]
  apply Nat.eq_of_testBit_eq
  intro i
  simp only [Nat.testBit_and, Nat.testBit_xor, Nat.testBit_shiftLeft, Nat.testBit_two_pow_sub_one]
  by_cases h : i < 15
  · simp [h]
    by_cases h5 : 5 ≤ i
    · have h5' : i - 5 < 15 := by omega
      by_cases h10 : 10 ≤ i
      · have : 5 ≤ i - 5 := by omega
        have h3 : i - 5 - 5 = i - 10 := by omega
        have h4 : i - 5 - 5 < 15 := by omega
        simp [h5, h10, h5', this, h3]
        intro; omega
      · have : ¬ 5 ≤ i - 5 := by omega
        simp [h5, h10, h5', this]
    · have h10 : ¬ 10 ≤ i := by omega
      simp [h5, h10]
  · simp [h]

theorem le_takeWhile {α : Type} (p : α → Bool) : ∀ (l : List α) (n : Nat),
    n ≤ (l.takeWhile p).length ↔ ∀ i, i < n → ∃ x, l[i]? = some x ∧ p x = true
  | l, 0 => by simp
  | [], n + 1 => by simpa using ⟨0, by omega⟩
  | x :: l, n + 1 => by
    rw [List.takeWhile_cons]
    split
    · rename_i hp
      rw [List.length_cons, Nat.add_le_add_iff_right, le_takeWhile p l n]
      constructor
      · intro h i hi
        cases i with
        | zero => exact ⟨x, rfl, hp⟩
        | succ i => simpa using h i (by omega)
      · intro h i hi
        simpa using h (i + 1) (by omega)
    · rename_i hp
      simp only [List.length_nil, Nat.le_zero, Nat.add_eq_zero_iff, Nat.one_ne_zero, and_false, false_iff]
      intro h
      obtain ⟨y, h1, h2⟩ := h 0 (by omega)
      cases h1
      exact hp h2

theorem run_iff {data : Array UInt8} {q : Nat} (j : Nat) (hq : q < data.size) : Run data q j ↔ j < runLength data q := by
  unfold runLength
  rw [Nat.lt_iff_add_one_le, le_takeWhile]
  constructor
  · intro h i hi
    have h1 := h.1
    refine ⟨data[q + i]'(by omega), by simp, ?_⟩
    rw [← h.2 i (by omega), decide_eq_true_eq, Array.getElem?_eq_getElem]
  · intro h
    have hg : ∀ i, i < j + 1 → q + i < data.size ∧ data[q + i]? = data[q]? := by
      intro i hi
      obtain ⟨x, h1, h2⟩ := h i hi
      rw [List.getElem?_drop, Array.getElem?_toList] at h1
      exact ⟨(Array.getElem?_eq_some_iff.mp h1).1, by rw [h1]; exact of_decide_eq_true h2⟩
    exact ⟨(hg j (by omega)).1, fun i hi => (hg i (by omega)).2⟩

theorem sameLen_runLength {data : Array UInt8} {q : Nat} (hq : q < data.size) : sameLen data q + 1 = min (runLength data q) 65536 := by
  have h := sameLen_spec hq
  have h1 := (run_iff _ hq).mp h.run
  have h2 := h.le
  have h3 : sameLen data q < 65535 → ¬ sameLen data q + 1 < runLength data q := fun hlt hr => h.max hlt ((run_iff _ hq).mpr hr)
  omega

theorem key2_hash3run {data : Array UInt8} {q : Nat} (hq : q < data.size) : key2 data q = hash3run data q := by
  unfold key2 hash3run
  rw [key1_hash3, ← sameLen_runLength hq, show 255 = 2 ^ 8 - 1 by rfl, Nat.and_two_pow_sub_one_eq_mod]
  have := (sameLen_spec hq).le
  have e : (sameLen data q + 65533) % 65536 % 2 ^ 8 = (sameLen data q + 1 + 252) % 256 := by omega
  rw [e]

theorem looksAt_competes {data : Array UInt8} {ws pos q : Nat} (hpos : pos < data.size) (hws : ws ≤ q) (hq : q < pos) (h : LooksAt data ws pos q) :
    Competes data pos q := by
  have hrl := sameLen_runLength hpos
  have hb : ¬ (ws < pos ∧ data[pos - 1]? = data[pos]?) → ¬ (0 < pos ∧ data[pos - 1]? = data[pos]?) := fun h h' => h ⟨by omega, h'.2⟩
  obtain ⟨h1, h2⟩ := h
  refine ⟨by rwa [← key1_hash3, ← key1_hash3, ← key2_hash3run (by omega), ← key2_hash3run hpos], ?_⟩
  rcases h2 with hc | ⟨hf, h3⟩
  · unfold corner at hc
    split at hc
    · rename_i h
      rcases h.1 with e | e
      · exact .inl ⟨by omega, hb h.2⟩
      · exact .inr (.inl ⟨by omega, hb h.2⟩)
    · omega
  · refine .inr (.inr ⟨hf, ?_⟩)
    rcases h3 with h | h | h
    · exact .inl (by rwa [← key2_hash3run (by omega), ← key2_hash3run hpos])
    · exact .inr (.inl ⟨runLength data pos, by have := h.1; omega, rfl, hb h.2⟩)
    · refine .inr (.inr fun q' i1 i2 i3 => h q' i1 i2 ?_)
      unfold Both
      rwa [key1_hash3, key1_hash3, key2_hash3run (by omega), key2_hash3run hpos]

theorem sharers_card {data : Array UInt8} {ws pos : Nat} (hpos : pos < data.size) : (sharers data ws pos).card ≤ sharing data pos := by
  apply Finset.card_le_card
  intro q hq
  rw [sharers, Finset.mem_filter, Finset.mem_Ico] at hq
  rw [Finset.mem_filter, Finset.mem_range]
  exact ⟨by omega, by omega, looksAt_competes hpos hq.1.1 hq.1.2 hq.2.2⟩

theorem answer_complete {data : Array UInt8} {start : Nat} {O : Oracle} (hO : IsOracle data (start - 32768) O) {q : Query} (hq : q.Allowed data.size start)
    (hfew : sharing data q.pos ≤ 8192) {m : LongestMatch} {s : Option (Array Nat)} (h : FoundOk O q.pos q.limit q.sub m s) :
    (∀ len dist, 3 ≤ len → len ≤ q.limit → dist ≤ 32767 → Repeats data q.pos len dist → len ≤ m.length + 1) ∧
    (¬ StartsRun data q.pos 257 → ¬ StartsRun data q.pos 258 → BestAnswer data q (m, s)) := by
  obtain ⟨hp1, hp2⟩ := hq.pos
  obtain ⟨hl1, hl2⟩ := hq.limit
  have hrl := sameLen_runLength hp2
  have hle := hO.le' q.pos (by omega)
  have hle2 := hO.le q.pos
  by_cases hsz : q.pos + 3 ≤ data.size
  · obtain ⟨c1, c2⟩ := oracle_complete hO (pos := q.pos) (by omega) hsz (Nat.le_trans (sharers_card hp2) hfew)
    have hrep : ∀ len dist, dist ≤ 32767 → Repeats data q.pos len dist →
        InWindow (start - 32768) q.pos (q.pos - dist) ∧ SameAt data q.pos (q.pos - dist) len := by
      rintro len dist h1 ⟨r1, r2, r3, r4⟩
      exact ⟨⟨by omega, by omega, by omega⟩, r4⟩
    have hcor : ¬ StartsRun data q.pos 257 → ¬ StartsRun data q.pos 258 → corner data (start - 32768) q.pos = 0 := by
      intro n1 n2
      unfold corner
      rw [if_neg]
      rintro ⟨hs, hp⟩
      have hb : ¬ (0 < q.pos ∧ data[q.pos - 1]? = data[q.pos]?) := fun h => hp ⟨by omega, h.2⟩
      rcases hs with hs | hs
      · exact n1 ⟨by omega, hb⟩
      · exact n2 ⟨by omega, hb⟩
    have hcor1 : corner data (start - 32768) q.pos = 1 → sameLen data q.pos = 256 ∨ sameLen data q.pos = 257 := by
      unfold corner
      split
      · rename_i h; exact fun _ => h.1
      · omega
    have long : ∀ len dist, 3 ≤ len → len ≤ q.limit → dist ≤ 32767 → Repeats data q.pos len dist → Good (corner data (start - 32768) q.pos) (sameLen data q.pos) len m.length := by
      intro len dist h1 h2 h3 h4
      obtain ⟨w, e⟩ := hrep len dist h3 h4
      have := c1 _ len w h1 (by omega) h4.2.2.1 e
      by_cases h3 : 3 ≤ min q.limit (O.L q.pos)
      · rw [(h.long h3).1]
        unfold Good at *
        omega
      · unfold Good at this
        omega
    refine ⟨fun len dist h1 h2 h3 h4 => ?_, fun n1 n2 => ⟨fun len dist h1 h2 h3 h4 => ?_, fun dist h1 h2 h3 => ?_, ?_⟩⟩
    · have := long len dist h1 h2 h3 h4
      unfold Good at this
      omega
    · have := long len dist h1 h2 h3 h4
      have := hcor n1 n2
      unfold Good at *
      dsimp only
      omega
    · dsimp only at h1 h3 ⊢
      have h3' : 3 ≤ min q.limit (O.L q.pos) := by
        by_contra hlt
        have := (h.short (by omega)).1
        omega
      obtain ⟨a1, a2⟩ := h.long h3'
      rw [a1] at h3
      obtain ⟨w, e⟩ := hrep _ dist h2 h3
      by_contra hlt
      rw [a2] at hlt
      have := w.2.1
      have := c2 _ h3' (by omega) _ w (by omega) e
      have := hcor n1 n2
      omega
    · intro t ht len h1 h2
      dsimp only at ht h2
      cases hsub : q.sub with
      | none => rw [h.sub0 hsub] at ht; cases ht
      | some u =>
        obtain ⟨-, hl⟩ := hq.sub u hsub
        obtain ⟨t', e, -, ht'⟩ := h.sub1 u hsub
        rw [ht] at e
        cases e
        have h3' : 3 ≤ min q.limit (O.L q.pos) := by
          by_contra hlt
          have := (h.short (by omega)).1
          omega
        have hlen : len ≤ O.L q.pos := by have := (h.long h3').1; omega
        have htm := hO.tm q.pos len (by omega) (by omega) hlen
        have := htm.d1
        have := htm.d2
        have := htm.d3
        refine ⟨O.D q.pos len, ht' hl len h1 hlen, by omega, ⟨by omega, by omega, by omega, htm.eq⟩, fun dist d1 d2 => ?_⟩
        obtain ⟨w, e⟩ := hrep _ dist d1 d2
        by_contra hlt
        have := w.2.1
        have := c2 _ h1 hlen _ w (by omega) e
        have := hcor n1 n2
        omega
  · have hL := hO.small q.pos (by omega)
    have hs := (h.short (by omega)).1
    refine ⟨fun len dist h1 h2 h3 h4 => ?_, fun n1 n2 => ⟨fun len dist h1 h2 h3 h4 => ?_, fun dist h1 h2 h3 => ?_, fun t ht len h1 h2 => ?_⟩⟩
    · have := h4.2.2.1; omega
    · have := h4.2.2.1; omega
    · dsimp only at h1; omega
    · dsimp only at h2; omega

theorem answers_complete {data : Array UInt8} {start : Nat} {O : Oracle} (hO : IsOracle data (start - 32768) O) : ∀ (qs : List Query) (c : Cache),
    CacheInv data O start c → (∀ q ∈ qs, q.Allowed data.size start) →
    ∃ as, answers data start c qs = some as ∧ List.Forall₂ (fun q a => sharing data q.pos ≤ 8192 →
      (∀ len dist, 3 ≤ len → len ≤ q.limit → dist ≤ 32767 → Repeats data q.pos len dist → len ≤ a.1.length + 1) ∧
      (¬ StartsRun data q.pos 257 → ¬ StartsRun data q.pos 258 → BestAnswer data q a)) qs as
  | [], c, _, _ => ⟨[], rfl, .nil⟩
  | q :: qs, c, hc, hq => by
    have hqa := hq q (by simp)
    obtain ⟨hp1, hp2⟩ := hqa.pos
    obtain ⟨h, eh, -⟩ := hashAt_inv (arr := data) (ws := start - 32768) (by omega) (q.pos + 1 - (start - 32768)) (by omega)
    rw [show start - 32768 + (q.pos + 1 - (start - 32768)) = q.pos + 1 by omega] at eh
    obtain ⟨m, c', s, e, hc', hf⟩ := findLongestMatch_spec hO (by omega) hc hp1 hp2 eh hqa.sub hqa.limit
    obtain ⟨as, ea, ha⟩ := answers_complete hO qs c' hc' fun x hx => hq x (by simp [hx])
    refine ⟨(m, s) :: as, ?_, .cons (fun hfew => answer_complete hO hqa hfew hf) ha⟩
    unfold answers
    rw [show hashesUpTo data start q.pos = some h from eh, some_bind, e, some_bind]
    dsimp only
    rw [ea]
    rfl

/-- **C37** Any sequence of questions about the matches at positions from `start` on, asked with a fresh cache (which the
answers fill) or without one, is answered.  An answer is the longest repetition within 32767 bytes and the limit, the
nearest of those, and the table has the nearest for every length, provided that the search has to go past at most
8192 positions (`Competes`), and that no run of exactly 257 or 258 equal bytes starts there; in these two cases the length is at
most one less than the longest. -/
theorem C37_longest_match (data : Array UInt8) (start : Nat) (cached : Bool) (qs : List Query) (hq : ∀ q ∈ qs, q.Allowed data.size start) :
    ∃ as, answers data start (if cached then .lmc (.new (data.size - start)) else .noCache) qs = some as ∧
      List.Forall₂ (fun q a => sharing data q.pos ≤ 8192 →
        (∀ len dist, 3 ≤ len → len ≤ q.limit → dist ≤ 32767 → Repeats data q.pos len dist → len ≤ a.1.length + 1) ∧
        (¬ StartsRun data q.pos 257 → ¬ StartsRun data q.pos 258 → BestAnswer data q a)) qs as := by
  obtain ⟨O, hO⟩ := oracle_exists data (start - 32768)
  refine answers_complete hO qs _ ?_ hq
  cases cached
  · exact trivial
  · exact cacheInv_new data O start

/-- **C37** In particular at the first 8192 positions. -/
theorem C37_sharing_le (data : Array UInt8) (pos : Nat) : sharing data pos ≤ pos := by
  unfold sharing
  exact Nat.le_trans (Finset.card_filter_le _ _) (by simp)

/-- "abracadabra, abracadabra" at position 13: eleven bytes, 13 bytes earlier (and "abra" is nearer, 6 bytes earlier). -/
example : (∀ q ∈ [(⟨13, 258, some (Array.replicate 259 0)⟩ : Query)], q.Allowed "abracadabra, abracadabra".toUTF8.data.size 4) ∧
    sharing "abracadabra, abracadabra".toUTF8.data 13 ≤ 8192 ∧ ¬ StartsRun "abracadabra, abracadabra".toUTF8.data 13 257 ∧ ¬ StartsRun "abracadabra, abracadabra".toUTF8.data 13 258 ∧
    Repeats "abracadabra, abracadabra".toUTF8.data 13 11 13 ∧ Repeats "abracadabra, abracadabra".toUTF8.data 13 4 6 := by
  have hs : "abracadabra, abracadabra".toUTF8.data.size = 24 := by decide +kernel
  refine ⟨?_, Nat.le_trans (C37_sharing_le _ _) (by omega), by unfold StartsRun; decide +kernel, by unfold StartsRun; decide +kernel, ⟨by omega, by omega, by rw [hs], by decide +kernel⟩,
    ⟨by omega, by omega, by rw [hs]; omega, by decide +kernel⟩⟩
  rw [hs]
  intro q hq
  rw [List.mem_singleton] at hq
  subst hq
  exact ⟨by decide, by decide, by intro s h; cases h; exact ⟨by simp, rfl⟩⟩

end Zopfli
