import Verif.Spec.Search
import Verif.Props.Division
import Verif.Proofs.Passes
/-!
# C20, C30, C32, C36: match searching and the optimisation passes
-/

namespace Zopfli

variable {log2 : Fp → Fp}

/-! ## C32 -/

/-- **C32** Comparing sixteen bytes at a time gives the length of the longest common prefix. -/
theorem C32_longest_common_prefix (a b : List UInt8) : ∃ n, getMatch a.toArray b.toArray = some n ∧ IsCommonPrefix a b n := by
  obtain ⟨n, e, h⟩ := getMatch_spec a.toArray b.toArray
  refine ⟨n, e, ?_⟩
  have hle := h.le
  simp only [List.size_toArray] at hle
  have hget : ∀ k, k < n → a[k]? = b[k]? := fun k hk => by simpa using h.eq k hk
  refine ⟨by omega, by omega, ?_, fun m ha hb hm => ?_⟩
  · refine List.ext_getElem? fun k => ?_
    rw [List.getElem?_take, List.getElem?_take]
    split
    · exact hget k ‹_›
    · rfl
  · by_contra hcon
    refine h.ne (by simp only [List.size_toArray]; omega) ?_
    have := congrArg (·[n]?) hm
    simp only [List.getElem?_take] at this
    rw [if_pos (by omega), if_pos (by omega)] at this
    simpa using this

example : getMatch "0123456789abcdefghij".toUTF8.data "0123456789abcdefgXij".toUTF8.data = some 17 := by decide +kernel

/-! ## C36 -/

theorem random_exact {s : RanState} (h1 : s.mw < 2 ^ 32) (h2 : s.mz < 2 ^ 32) :
    s.random.2 = ⟨multiplyWithCarry 18000 s.mw, multiplyWithCarry 36969 s.mz⟩ ∧ multiplyWithCarry 18000 s.mw < 2 ^ 32 ∧
      multiplyWithCarry 36969 s.mz < 2 ^ 32 := by
  have hand : ∀ x : Nat, x &&& 65535 = x % 65536 := fun x => Nat.and_two_pow_sub_one_eq_mod x 16
  have hsh : ∀ x : Nat, x >>> 16 = x / 65536 := fun x => Nat.shiftRight_eq_div_pow x 16
  have b1 : multiplyWithCarry 18000 s.mw < 2 ^ 32 := by unfold multiplyWithCarry; omega
  have b2 : multiplyWithCarry 36969 s.mz < 2 ^ 32 := by unfold multiplyWithCarry; omega
  refine ⟨?_, b1, b2⟩
  unfold RanState.random
  simp only [hand, hsh]
  unfold multiplyWithCarry at *
  rw [Nat.mod_eq_of_lt b1, Nat.mod_eq_of_lt b2]

/-- **C36** After any number of draws the state of the generator is what multiply-with-carry in unbounded arithmetic gives: no
product or sum ever reaches 2^32.  Neither half ever becomes zero (from where it could not move). -/
theorem C36_generator (n : Nat) :
    afterDraws n = ⟨(multiplyWithCarry 18000)^[n] 1, (multiplyWithCarry 36969)^[n] 2⟩ ∧
    (∀ a x, (a = 18000 ∧ x = (afterDraws n).mw ∨ a = 36969 ∧ x = (afterDraws n).mz) →
      x < 2 ^ 32 ∧ 0 < x ∧ a * (x % 65536) < 2 ^ 32 ∧ a * (x % 65536) + x / 65536 < 2 ^ 32) ∧
    (afterDraws n).random.1 = ((afterDraws (n + 1)).mz * 65536 + (afterDraws (n + 1)).mw) % 2 ^ 32 := by
  have key : afterDraws n = ⟨(multiplyWithCarry 18000)^[n] 1, (multiplyWithCarry 36969)^[n] 2⟩ ∧
      (afterDraws n).mw < 2 ^ 32 ∧ (afterDraws n).mz < 2 ^ 32 ∧ 0 < (afterDraws n).mw ∧ 0 < (afterDraws n).mz := by
    induction n with
    | zero => exact ⟨rfl, by decide, by decide, by decide, by decide⟩
    | succ n ih =>
      obtain ⟨e, h1, h2, h3, h4⟩ := ih
      obtain ⟨r, r1, r2⟩ := random_exact h1 h2
      have e' : afterDraws (n + 1) = ⟨multiplyWithCarry 18000 (afterDraws n).mw, multiplyWithCarry 36969 (afterDraws n).mz⟩ := r
      rw [Function.iterate_succ_apply', Function.iterate_succ_apply']
      refine ⟨?_, ?_, ?_, ?_, ?_⟩
      · rw [e', e]
      · rw [e']; exact r1
      · rw [e']; exact r2
      · rw [e']; show 0 < multiplyWithCarry _ _; unfold multiplyWithCarry; omega
      · rw [e']; show 0 < multiplyWithCarry _ _; unfold multiplyWithCarry; omega
  obtain ⟨e, h1, h2, h3, h4⟩ := key
  refine ⟨e, ?_, ?_⟩
  · rintro a x (⟨rfl, rfl⟩ | ⟨rfl, rfl⟩) <;> refine ⟨by omega, by omega, by omega, by omega⟩
  · show (((_ <<< 16) % 2 ^ 32 + _) % 2 ^ 32) = _
    rw [Nat.shiftLeft_eq]
    show (_ * 65536 % 2 ^ 32 + _) % 2 ^ 32 = _
    rw [Nat.mod_add_mod]
    rfl

/-- The first draw. -/
example : RanState.new.random = (550651472, ⟨18000, 73938⟩) := by decide

/-! ## C20 -/

theorem FoundOk.same {O : Oracle} {pos lim : Nat} {sub : Option (Array Nat)} {m m' : LongestMatch} {s s' : Option (Array Nat)}
    (hL : O.L pos ≤ 258) (hs : ∀ s, sub = some s → s.size = 259 ∧ lim = 258)
    (h : FoundOk O pos lim sub m s) (h' : FoundOk O pos lim sub m' s') : SameAnswer (m, s) (m', s') := by
  by_cases h3 : 3 ≤ min lim (O.L pos)
  · obtain ⟨a1, a2⟩ := h.long h3
    obtain ⟨b1, b2⟩ := h'.long h3
    refine .inr ⟨by rw [a1, b1], by rw [a2, b2], by dsimp only; omega, ?_⟩
    cases sub with
    | none => exact .inl ⟨h.sub0 rfl, h'.sub0 rfl⟩
    | some u =>
      obtain ⟨-, rfl⟩ := hs u rfl
      obtain ⟨t, e, -, ht⟩ := h.sub1 u rfl
      obtain ⟨t', e', -, ht'⟩ := h'.sub1 u rfl
      refine .inr ⟨t, t', e, e', fun k k1 k2 => ?_⟩
      dsimp only at k2
      exact ⟨O.D pos k, ht rfl k k1 (by omega), ht' rfl k k1 (by omega)⟩
  · exact .inl ⟨(h.short (by omega)).1, (h'.short (by omega)).1⟩

theorem FoundOk.right {data : Array UInt8} {start : Nat} {O : Oracle} (hO : IsOracle data (start - 32768) O) {q : Query} (hq : q.Allowed data.size start)
    {m : LongestMatch} {s : Option (Array Nat)} (h : FoundOk O q.pos q.limit q.sub m s) : RightAnswer data q (m, s) := by
  intro h3
  dsimp only at h3
  obtain ⟨hp1, hp2⟩ := hq.pos
  have hle := hO.le' q.pos (by omega)
  by_cases hl : 3 ≤ min q.limit (O.L q.pos)
  · obtain ⟨a1, a2⟩ := h.long hl
    have ht := hO.tm q.pos (min q.limit (O.L q.pos)) (by omega) (by omega) (by omega)
    rw [← a2] at ht
    have := ht.d1
    have := ht.d2
    have := ht.d3
    dsimp only
    refine ⟨by omega, by omega, by omega, by omega, by omega, fun k hk => ht.eq k (by omega)⟩
  · have := (h.short (by omega)).1
    omega

theorem answers_spec {data : Array UInt8} {start : Nat} {O : Oracle} (hO : IsOracle data (start - 32768) O) : ∀ (qs : List Query) (c c' : Cache),
    CacheInv data O start c → CacheInv data O start c' → (∀ q ∈ qs, q.Allowed data.size start) →
    ∃ as bs, answers data start c qs = some as ∧ answers data start c' qs = some bs ∧ List.Forall₂ SameAnswer as bs ∧
      List.Forall₂ (RightAnswer data) qs as
  | [], _, _, _, _, _ => ⟨[], [], rfl, rfl, .nil, .nil⟩
  | q :: qs, c, c', hc, hc', hq => by
    have hq0 := hq q (by simp)
    obtain ⟨hp1, hp2⟩ := hq0.pos
    obtain ⟨h, eh, -⟩ := hashAt_inv (arr := data) (ws := start - 32768) (by omega) (q.pos + 1 - (start - 32768)) (by omega)
    rw [show start - 32768 + (q.pos + 1 - (start - 32768)) = q.pos + 1 by omega] at eh
    obtain ⟨m, d, s, e, hd, hf⟩ := findLongestMatch_spec hO (by omega) hc hp1 hp2 eh hq0.sub hq0.limit
    obtain ⟨m', d', s', e', hd', hf'⟩ := findLongestMatch_spec hO (by omega) hc' hp1 hp2 eh hq0.sub hq0.limit
    obtain ⟨as, bs, ea, eb, h1, h2⟩ := answers_spec hO qs d d' hd hd' fun x hx => hq x (by simp [hx])
    have eh' : hashesUpTo data start q.pos = some h := eh
    refine ⟨(m, s) :: as, (m', s') :: bs, ?_, ?_, .cons (hf.same (hO.le _) hq0.sub hf') h1, .cons (hf.right hO hq0) h2⟩
    · rw [answers, eh', some_bind, e, some_bind]
      dsimp only
      rw [ea, some_bind]
      rfl
    · rw [answers, eh', some_bind, e', some_bind]
      dsimp only
      rw [eb, some_bind]
      rfl

/-- **C20** (queries) Any sequence of questions about the matches at positions from `start` on is answered with a fresh
cache (which the answers fill) as without one; and the answers are right. -/
theorem C20_cache_answers (data : Array UInt8) (start : Nat) (qs : List Query) (hq : ∀ q ∈ qs, q.Allowed data.size start) :
    ∃ as bs, answers data start (.lmc (.new (data.size - start))) qs = some as ∧ answers data start .noCache qs = some bs ∧
      List.Forall₂ SameAnswer as bs ∧ List.Forall₂ (RightAnswer data) qs as := by
  obtain ⟨O, hO⟩ := oracle_exists data (start - 32768)
  exact answers_spec hO qs _ _ (cacheInv_new data O start) trivial hq

/-- **C20** (parsing) The greedy parse, the fixed-tree parse and the iterated parse of any range of any data are the same with
a fresh cache and without one. -/
theorem C20_cache_parses (hlog : Log2Ok log2) (data : Array UInt8) (start stop : Nat) (h1 : start ≤ stop) (h2 : stop ≤ data.size)
    (hsz : data.size < 2 ^ 48) :
    (∃ s c c', greedy .new (.lmc (.new (stop - start))) data start stop = some (s, c) ∧ greedy .new .noCache data start stop = some (s, c')) ∧
    (∃ s c c', lz77OptimalFixed (ieee log2) (.lmc (.new (stop - start))) data start stop .new = some (s, c) ∧
      lz77OptimalFixed (ieee log2) .noCache data start stop .new = some (s, c')) ∧
    (∀ iterations withoutImprovement, ∃ s,
      lz77Optimal (ieee log2) (.lmc (.new (stop - start))) data start stop iterations withoutImprovement = some s ∧
      lz77Optimal (ieee log2) .noCache data start stop iterations withoutImprovement = some s) := by
  obtain ⟨O, hO⟩ := oracle_exists (data.extract 0 stop) (start - 32768)
  have hc := cacheInv_new (data.extract 0 stop) O start
  rw [show (data.extract 0 stop).size = stop by simp; omega] at hc
  have hn : CacheInv (data.extract 0 stop) O start .noCache := trivial
  refine ⟨?_, ?_, fun it w => ?_⟩
  · obtain ⟨s, -, g⟩ := greedy_spec hO h1 h2
    obtain ⟨c, -, e⟩ := g _ hc
    obtain ⟨c', -, e'⟩ := g _ hn
    exact ⟨s, c, c', e, e'⟩
  · obtain ⟨s, -, g⟩ := lz77OptimalRun_spec hO (costFixed_ok (ieeeLaws hlog)) h1 h2
    obtain ⟨c, -, e⟩ := g _ hc
    obtain ⟨c', -, e'⟩ := g _ hn
    exact ⟨s, c, c', e, e'⟩
  · obtain ⟨s, -, g⟩ := lz77Optimal_spec (ieeeLaws hlog) hO h1 h2 (ieee_size hlog hsz) it w
    exact ⟨s, g _ hc, g _ hn⟩

example := C20_cache_answers "abracadabra".toUTF8.data 4 [⟨7, 258, none⟩, ⟨7, 258, some (Array.replicate 259 0)⟩, ⟨7, 3, none⟩] (by
  have hs : "abracadabra".toUTF8.data.size = 11 := by decide +kernel
  rw [hs]
  intro q hq
  simp only [List.mem_cons, List.not_mem_nil, or_false] at hq
  rcases hq with rfl | rfl | rfl
  · exact ⟨by decide, by decide, by intro s h; cases h⟩
  · exact ⟨by decide, by decide, by intro s h; cases h; exact ⟨by simp, rfl⟩⟩
  · exact ⟨by decide, by decide, by intro s h; cases h⟩)

example := C20_cache_parses floorLog2_ok exampleParseData 2 7 (by decide) (by decide) (by decide)

/-! ## C30 -/

/-- **C30** For any range of any data there is a sequence of parses, the passes, which depends only on the data and the range,
such that, whatever the limits: between one and `iterations` passes are run; the result is the pass with the smallest size
of those run (the earliest of them); and passes are run until `iterations` is reached or, for the first time, the last
`withoutImprovement` of them have brought no improvement.  The size is that of a dynamic block, estimated; for ranges below
2^28 bytes it is the exact number of bits such a block takes. -/
theorem C30_best_pass (hlog : Log2Ok log2) (data : Array UInt8) (start stop : Nat) (h1 : start ≤ stop) (h2 : stop ≤ data.size)
    (hsz : data.size < 2 ^ 48) :
    ∃ (pass : Nat → Lz77Store) (size : Nat → Nat),
      (∀ k, Parses data start (pass k).litlens.toList stop) ∧
      (∀ k, calculateBlockSize (ieee log2) (pass k) 0 (pass k).size .dynamic = some (Fp.fin (size k))) ∧
      (start < stop → stop - start < 2 ^ 28 → ∀ k final, ∃ ops bits, addLz77Block .dynamic final data (pass k) 0 (pass k).size = some ops ∧
        WritesBits ops bits ∧ bits.length = size k) ∧
      ∀ iterations withoutImprovement, 1 ≤ iterations → 1 ≤ withoutImprovement → ∃ n best, best < n ∧ n ≤ iterations ∧
        lz77Optimal (ieee log2) (.lmc (.new (stop - start))) data start stop iterations withoutImprovement = some (pass best) ∧
        (∀ i, i < n → size best ≤ size i) ∧ (∀ i, i < best → size best < size i) ∧
        (n = iterations ∨ n = best + 1 + withoutImprovement) ∧
        (∀ m, 1 ≤ m → m < n → ∃ i, i < m ∧ m < i + 1 + withoutImprovement ∧ ∀ j, j < i → size i < size j) := by
  obtain ⟨O, hO⟩ := oracle_exists (data.extract 0 stop) (start - 32768)
  have hc := cacheInv_new (data.extract 0 stop) O start
  rw [show (data.extract 0 stop).size = stop by simp; omega] at hc
  obtain ⟨pass, size, hp, hr⟩ := lz77Optimal_passes (ieeeLaws hlog) (ieee_exact log2) hO h1 h2 (ieee_size hlog hsz)
  refine ⟨pass, size, fun k => (hp k).1.parses, fun k => ?_, fun hlt hb k final => ?_, fun it w hit hw => ?_⟩
  · have := (hp k).2.2
    rw [(hp k).2.1, ieee_ofUsize_small _ (by omega)]
    rfl
  · have hs := (hp k).1
    have hne : 0 < (pass k).size := by
      by_contra h0
      have hsz0 : (pass k).size = 0 := by omega
      rw [Lz77Store.size_eq, List.length_eq_zero_iff] at hsz0
      have := hs.parses
      rw [hsz0] at this
      have : start = stop := this
      omega
    have hr := hs.rangeOk (Nat.zero_le (pass k).size) (Nat.le_refl _)
    have e0 : bytePos start (pass k) 0 = start := by simp [bytePos]
    have e1 : bytePos start (pass k) (pass k).size = stop := by
      unfold bytePos
      rw [Lz77Store.size_eq, List.take_length]
      have := hs.parses.stop
      omega
    rw [e0, e1] at hr
    obtain ⟨bits, hdr, e, e', hlt', -⟩ := estimate_dynamic (ieee_exact log2) hr hne hb final
    refine ⟨_, bits, e, rfl, ?_⟩
    rw [(hp k).2.1] at e'
    have := (hp k).2.2
    rw [ieee_ofUsize_small _ (by omega), ieee_ofUsize_small _ (by omega)] at e'
    have e' := Fp.fin.inj (Option.some.inj e')
    exact_mod_cast e'.symm
  · obtain ⟨n, b, r1, r2, r3, r4, r5, r6, r7⟩ := hr it w
    rw [show max 1 it = it by omega, show max 1 w = w by omega] at *
    exact ⟨n, b, r1, r2, r7 _ hc, r3, r4, r5, r6⟩

/-- **C30** (monotone) Raising the limits never makes the result larger. -/
theorem C30_more_is_never_worse (hlog : Log2Ok log2) (data : Array UInt8) (start stop : Nat) (h1 : start ≤ stop) (h2 : stop ≤ data.size)
    (hsz : data.size < 2 ^ 48) (iterations iterations' withoutImprovement withoutImprovement' : Nat) (hi : 1 ≤ iterations)
    (hi' : iterations ≤ iterations') (hw : 1 ≤ withoutImprovement) (hw' : withoutImprovement ≤ withoutImprovement') :
    ∃ s s' n n', lz77Optimal (ieee log2) (.lmc (.new (stop - start))) data start stop iterations withoutImprovement = some s ∧
      lz77Optimal (ieee log2) (.lmc (.new (stop - start))) data start stop iterations' withoutImprovement' = some s' ∧
      calculateBlockSize (ieee log2) s 0 s.size .dynamic = some (Fp.fin (n : Nat)) ∧
      calculateBlockSize (ieee log2) s' 0 s'.size .dynamic = some (Fp.fin (n' : Nat)) ∧ n' ≤ n := by
  obtain ⟨pass, size, -, p2, -, p4⟩ := C30_best_pass hlog data start stop h1 h2 hsz
  obtain ⟨n, b, r1, r2, r3, r4, r5, r6, r7⟩ := p4 iterations withoutImprovement hi hw
  obtain ⟨n', b', q1, q2, q3, q4, q5, q6, q7⟩ := p4 iterations' withoutImprovement' (by omega) (by omega)
  refine ⟨_, _, _, _, r3, q3, p2 b, p2 b', q4 b ?_⟩
  by_contra hcon
  -- the second run would have stopped before the best pass of the first
  rcases q6 with q6 | q6
  · omega
  · obtain ⟨i, i1, i2, i3⟩ := r7 n' (by omega) (by omega)
    by_cases hib : i ≤ b'
    · omega
    · have := i3 b' (by omega)
      have := q4 i (by omega)
      omega

example := C30_best_pass floorLog2_ok exampleParseData 2 9 (by decide) (by decide) (by decide)
example := C30_more_is_never_worse floorLog2_ok exampleParseData 2 9 (by decide) (by decide) (by decide) 3 15 2 4 (by decide) (by decide) (by decide) (by decide)

end Zopfli
