import Verif.Spec.Damage
import Mathlib.Data.Nat.Prime.Basic
import Mathlib.Tactic.NormNum.Prime
import Mathlib.Tactic.Ring
import Mathlib.Dynamics.PeriodicPts.Defs
/-! # CRC-32 as a linear map -/

namespace Rfc

/-- The feedback polynomial, if the bit is set. -/
def fb (b : Bool) : UInt32 := if b then 0xEDB88320 else 0

theorem and_one_iff (c : UInt32) : (c &&& 1 = 1) ↔ c.toBitVec.getLsbD 0 = true := by
  rw [← UInt32.toBitVec_inj]
  show c.toBitVec &&& 1#32 = 1#32 ↔ _
  constructor
  · intro h
    have := congrArg (fun x => BitVec.getLsbD x 0) h
    simpa using this
  · intro h
    ext i hi
    cases i with
    | zero => simpa using h
    | succ i => simp [BitVec.getElem_one]

theorem crcBit_eq (c : UInt32) : crcBit c = (c >>> 1) ^^^ fb (c.toBitVec.getLsbD 0) := by
  unfold crcBit fb
  by_cases h : c &&& 1 = 1
  · rw [if_pos h, if_pos ((and_one_iff c).mp h)]
  · rw [if_neg h, if_neg (fun h' => h ((and_one_iff c).mpr h')), UInt32.xor_zero]

theorem shiftRight_xor (a b : UInt32) : (a ^^^ b) >>> 1 = (a >>> 1) ^^^ (b >>> 1) := by
  rw [← UInt32.toBitVec_inj]
  show (a.toBitVec ^^^ b.toBitVec) >>> _ = _
  exact BitVec.ushiftRight_xor_distrib _ _ _

theorem fb_xor (a b : Bool) : fb (a ^^ b) = fb a ^^^ fb b := by cases a <;> cases b <;> decide

theorem crcBit_xor (a b : UInt32) : crcBit (a ^^^ b) = crcBit a ^^^ crcBit b := by
  rw [crcBit_eq, crcBit_eq, crcBit_eq, shiftRight_xor, UInt32.toBitVec_xor, BitVec.getLsbD_xor, fb_xor]
  ac_rfl

theorem crcBit_zero : crcBit 0 = 0 := by decide

theorem crcBit_eq_zero {c : UInt32} (h : crcBit c = 0) : c = 0 := by
  rw [crcBit_eq] at h
  have hs : (c >>> 1).toNat = c.toNat / 2 := by
    rw [UInt32.toNat_shiftRight]
    simp [Nat.shiftRight_eq_div_pow]
  have hl : c.toBitVec.getLsbD 0 = c.toNat.testBit 0 := rfl
  have h2 : c >>> 1 = fb (c.toBitVec.getLsbD 0) := UInt32.xor_eq_zero_iff.mp h
  have h3 := congrArg UInt32.toNat h2
  rw [hs, hl] at h3
  have hlt := c.toNat_lt
  cases hb : c.toNat.testBit 0 with
  | true =>
    rw [hb] at h3
    have : (fb true).toNat = 3988292384 := rfl
    omega
  | false =>
    rw [hb] at h3
    have : (fb false).toNat = 0 := rfl
    rw [Nat.testBit_zero, decide_eq_false_iff_not] at hb
    have : c.toNat = 0 := by omega
    exact UInt32.toNat.inj this

/-- Feed bits. -/
def feed (c : UInt32) (l : List Bool) : UInt32 := l.foldl (fun c b => crcBit (c ^^^ if b then 1 else 0)) c

/-- Shift `n` times. -/
def shifts (n : Nat) (c : UInt32) : UInt32 := crcBit^[n] c

theorem shifts_xor (n : Nat) (a b : UInt32) : shifts n (a ^^^ b) = shifts n a ^^^ shifts n b := by
  induction n generalizing a b with
  | zero => rfl
  | succ n ih => show shifts n (crcBit (a ^^^ b)) = _; rw [crcBit_xor, ih]; rfl

theorem shifts_zero (n : Nat) : shifts n 0 = 0 := by
  induction n with
  | zero => rfl
  | succ n ih => show shifts n (crcBit 0) = _; rw [crcBit_zero, ih]

theorem shifts_eq_zero {n : Nat} {c : UInt32} (h : shifts n c = 0) : c = 0 := by
  induction n generalizing c with
  | zero => exact h
  | succ n ih => exact crcBit_eq_zero (ih h)

theorem shifts_add (m n : Nat) (c : UInt32) : shifts (m + n) c = shifts m (shifts n c) := Function.iterate_add_apply _ _ _ _

theorem feed_append (c : UInt32) (x y : List Bool) : feed c (x ++ y) = feed (feed c x) y := List.foldl_append

theorem feed_xor (l : List Bool) (c d : UInt32) : feed (c ^^^ d) l = shifts l.length c ^^^ feed d l := by
  induction l generalizing c d with
  | nil => rfl
  | cons b l ih =>
    show feed (crcBit (c ^^^ d ^^^ if b then 1 else 0)) l = shifts l.length (crcBit c) ^^^ feed (crcBit (d ^^^ if b then 1 else 0)) l
    rw [UInt32.xor_assoc, crcBit_xor, ih]

theorem feed_shifts (l : List Bool) (c : UInt32) : feed c l = shifts l.length c ^^^ feed 0 l := by
  have := feed_xor l c 0
  rwa [UInt32.xor_zero] at this

/-- The number with the given bits, least significant first. -/
def bitsVal : List Bool → Nat
  | [] => 0
  | b :: l => b.toNat + 2 * bitsVal l

theorem bitsVal_lt : ∀ l, bitsVal l < 2 ^ l.length
  | [] => by decide
  | b :: l => by
    have := bitsVal_lt l
    have hb : b.toNat < 2 := b.toNat_lt
    show b.toNat + 2 * bitsVal l < 2 ^ (l.length + 1)
    omega

theorem bitsVal_inj : ∀ {x y : List Bool}, x.length = y.length → bitsVal x = bitsVal y → x = y
  | [], [], _, _ => rfl
  | [], _ :: _, h, _ => by cases h
  | _ :: _, [], h, _ => by cases h
  | a :: x, b :: y, h, e => by
    have e : a.toNat + 2 * bitsVal x = b.toNat + 2 * bitsVal y := e
    have ha := a.toNat_lt
    have hb := b.toNat_lt
    have := bitsVal_inj (x := x) (y := y) (by simpa using h) (by omega)
    have hab : a.toNat = b.toNat := by omega
    rw [this]
    cases a <;> cases b <;> first | rfl | cases hab

theorem crcBit_double {v : Nat} (h : v < 2 ^ 31) : crcBit (UInt32.ofNat (2 * v)) = UInt32.ofNat v := by
  have h1 : (UInt32.ofNat (2 * v)).toNat = 2 * v := by rw [UInt32.toNat_ofNat']; omega
  rw [crcBit_eq]
  have hl : (UInt32.ofNat (2 * v)).toBitVec.getLsbD 0 = (UInt32.ofNat (2 * v)).toNat.testBit 0 := rfl
  rw [hl, h1, Nat.testBit_zero, show 2 * v % 2 = 0 by omega]
  apply UInt32.toNat.inj
  show ((UInt32.ofNat (2 * v) >>> 1) ^^^ 0).toNat = _
  rw [UInt32.xor_zero, UInt32.toNat_shiftRight, h1, UInt32.toNat_ofNat']
  simp [Nat.shiftRight_eq_div_pow]
  omega

theorem ofNat_bit (b : Bool) {v : Nat} (h : v < 2 ^ 31) : UInt32.ofNat (b.toNat + 2 * v) = (if b then 1 else 0) ^^^ UInt32.ofNat (2 * v) := by
  apply UInt32.toNat.inj
  rw [UInt32.toNat_xor, UInt32.toNat_ofNat', UInt32.toNat_ofNat', Nat.mod_eq_of_lt (by have := b.toNat_lt; omega), Nat.mod_eq_of_lt (by omega)]
  apply Nat.eq_of_testBit_eq
  intro i
  rw [Nat.testBit_xor]
  cases i with
  | zero => cases b <;> simp [Nat.testBit_zero, Nat.add_mul_mod_self_left]
  | succ i =>
    rw [Nat.testBit_succ, Nat.testBit_succ, Nat.testBit_succ]
    have h1 : (b.toNat + 2 * v) / 2 = v := by have := b.toNat_lt; omega
    have h2 : 2 * v / 2 = v := by omega
    have h3 : (if b = true then (1 : UInt32) else 0).toNat / 2 = 0 := by cases b <;> rfl
    rw [h1, h2, h3]
    simp

/-- Up to 32 bits: they are shifted in. -/
theorem feed_short : ∀ {l : List Bool}, l.length ≤ 32 → feed 0 l = shifts l.length (UInt32.ofNat (bitsVal l))
  | [], _ => rfl
  | b :: l, h => by
    have h : l.length + 1 ≤ 32 := h
    have hv := bitsVal_lt l
    have hv : bitsVal l < 2 ^ 31 := Nat.lt_of_lt_of_le hv (Nat.pow_le_pow_right (by decide) (by omega))
    show feed (crcBit (0 ^^^ if b then 1 else 0)) l = shifts l.length (crcBit (UInt32.ofNat (b.toNat + 2 * bitsVal l)))
    rw [UInt32.zero_xor, feed_shifts, feed_short (by omega), ofNat_bit b hv, crcBit_xor, crcBit_double hv, shifts_xor]

theorem feed_short_inj {x y : List Bool} (h : x.length = y.length) (h32 : x.length ≤ 32) (e : feed 0 x = feed 0 y) : x = y := by
  rw [feed_short h32, feed_short (by omega), h] at e
  have : shifts y.length (UInt32.ofNat (bitsVal x) ^^^ UInt32.ofNat (bitsVal y)) = 0 := by rw [shifts_xor, e, UInt32.xor_self]
  have := UInt32.xor_eq_zero_iff.mp (shifts_eq_zero this)
  have := congrArg UInt32.toNat this
  have hx := bitsVal_lt x
  have hy := bitsVal_lt y
  have h1 : 2 ^ x.length ≤ 2 ^ 32 := Nat.pow_le_pow_right (by decide) h32
  have h2 : 2 ^ y.length ≤ 2 ^ 32 := Nat.pow_le_pow_right (by decide) (by omega)
  rw [UInt32.toNat_ofNat', UInt32.toNat_ofNat', Nat.mod_eq_of_lt (by omega), Nat.mod_eq_of_lt (by omega)] at this
  exact bitsVal_inj h this

theorem feed_inj {l : List Bool} {c d : UInt32} (h : feed c l = feed d l) : c = d := by
  rw [feed_shifts, feed_shifts l d] at h
  have h : shifts l.length c = shifts l.length d := by
    have := congrArg (· ^^^ feed 0 l) h
    simpa [UInt32.xor_assoc] using this
  have : shifts l.length (c ^^^ d) = 0 := by rw [shifts_xor, h, UInt32.xor_self]
  exact UInt32.xor_eq_zero_iff.mp (shifts_eq_zero this)

theorem feed_burst {c : UInt32} {x y : List Bool} (h : Zopfli.Burst x y) : feed c x ≠ feed c y := by
  obtain ⟨pre, w, w', post, rfl, rfl, hl, h32, hne⟩ := h
  intro e
  rw [feed_append, feed_append, feed_append, feed_append] at e
  have e := feed_inj e
  rw [feed_shifts, feed_shifts w', hl] at e
  have e : feed 0 w = feed 0 w' := by
    have := congrArg (shifts w'.length (feed c pre) ^^^ ·) e
    simpa [← UInt32.xor_assoc] using this
  exact hne (feed_short_inj hl h32 e)

/-- A byte is eight bits. -/
theorem crcByte_feed (c : UInt32) (b : UInt8) : crcByte c b = feed c (byteBits b) := by
  have h : crcByte c b = shifts 8 c ^^^ shifts 8 b.toUInt32 := by rw [← shifts_xor]; rfl
  have hlen : (byteBits b).length = 8 := by simp [byteBits]
  have hv : bitsVal (byteBits b) = b.toNat := by
    have : ∀ n : Nat, n < 256 → bitsVal ((List.range 8).map fun i => n.testBit i) = n := by decide +kernel
    exact this b.toNat b.toNat_lt
  have hb : b.toUInt32 = UInt32.ofNat b.toNat := by
    apply UInt32.toNat.inj
    rw [UInt32.toNat_ofNat', UInt8.toNat_toUInt32, Nat.mod_eq_of_lt (by have := b.toNat_lt; omega)]
  rw [h, feed_shifts, feed_short (by omega), hv, hlen, hb]

theorem crc_feed (data : List UInt8) (c : UInt32) : data.foldl crcByte c = feed c (bytesBits data) := by
  induction data generalizing c with
  | nil => rfl
  | cons b l ih =>
    show l.foldl crcByte (crcByte c b) = feed c (byteBits b ++ bytesBits l)
    rw [ih, crcByte_feed, feed_append]

theorem crc32_inj {x y : List UInt8} : crc32 x = crc32 y ↔ feed 0xFFFFFFFF (bytesBits x) = feed 0xFFFFFFFF (bytesBits y) := by
  unfold crc32
  rw [crc_feed, crc_feed]
  constructor
  · intro h
    have := congrArg (· ^^^ (0xFFFFFFFF : UInt32)) h
    simpa [UInt32.xor_assoc] using this
  · intro h; rw [h]

/-! ## The order of the feedback polynomial -/

/-- Apply a linear map, given by the images of the powers of two. -/
def applyN : List Nat → Nat → Nat
  | [], _ => 0
  | m :: M, c => (if c % 2 = 1 then m else 0) ^^^ applyN M (c / 2)

/-- `M` are the images under `f` of the 32 powers of two. -/
structure Rep (f : UInt32 → UInt32) (M : List Nat) : Prop where
  lin : ∀ a b, f (a ^^^ b) = f a ^^^ f b
  len : M.length = 32
  get : ∀ i, i < 32 → M[i]? = some (f (UInt32.ofNat (2 ^ i))).toNat

theorem Rep.zero {f : UInt32 → UInt32} {M : List Nat} (h : Rep f M) : f 0 = 0 := by
  have := h.lin 0 0
  rwa [UInt32.xor_self, UInt32.xor_self] at this

theorem split_bit {k v : Nat} (h : 2 ^ k * v < 2 ^ 32) :
    UInt32.ofNat (2 ^ k * v) = UInt32.ofNat (2 ^ k * (v % 2)) ^^^ UInt32.ofNat (2 ^ (k + 1) * (v / 2)) := by
  have e : 2 ^ k * v = 2 ^ k * (v % 2) + 2 ^ (k + 1) * (v / 2) := by
    rw [Nat.pow_succ, Nat.mul_assoc, ← Nat.mul_add]
    congr 1
    omega
  apply UInt32.toNat.inj
  have l1 : 2 ^ k * (v % 2) < 2 ^ 32 := Nat.lt_of_le_of_lt (Nat.le.intro e.symm) h
  have l2 : 2 ^ (k + 1) * (v / 2) < 2 ^ 32 := Nat.lt_of_le_of_lt (Nat.le.intro ((Nat.add_comm _ _).trans e.symm)) h
  rw [UInt32.toNat_xor, UInt32.toNat_ofNat', UInt32.toNat_ofNat', UInt32.toNat_ofNat', Nat.mod_eq_of_lt h, Nat.mod_eq_of_lt l1, Nat.mod_eq_of_lt l2]
  apply Nat.eq_of_testBit_eq
  intro i
  rw [Nat.testBit_xor, Nat.testBit_two_pow_mul (i := k) (a := v), Nat.testBit_two_pow_mul (i := k) (a := v % 2), Nat.testBit_two_pow_mul]
  by_cases h1 : i < k
  · simp [Nat.not_le.mpr h1, show ¬ k + 1 ≤ i by omega]
  · obtain ⟨j, rfl⟩ := Nat.exists_eq_add_of_le (Nat.not_lt.mp h1)
    cases j with
    | zero => simp
    | succ j =>
      have h2 : k + (j + 1) - k = j + 1 := by omega
      have h3 : k + (j + 1) - (k + 1) = j := by omega
      rw [h2, h3, Nat.testBit_succ, Nat.testBit_succ, show v % 2 / 2 = 0 by omega]
      simp

theorem Rep.apply_aux {f : UInt32 → UInt32} {M : List Nat} (h : Rep f M) : ∀ (n k : Nat) (v : Nat), k + n = 32 → 2 ^ k * v < 2 ^ 32 →
    applyN (M.drop k) v = (f (UInt32.ofNat (2 ^ k * v))).toNat
  | 0, k, v, hk, hv => by
    have : k = 32 := by omega
    subst this
    have : v = 0 := by omega
    subst this
    rw [List.drop_eq_nil_iff.mpr (by rw [h.len]), Nat.mul_zero]
    show 0 = (f 0).toNat
    rw [h.zero]
    rfl
  | n + 1, k, v, hk, hv => by
    have hg := h.get k (by omega)
    rw [List.getElem?_eq_some_iff] at hg
    obtain ⟨hlt, hg⟩ := hg
    have e : 2 ^ k * v = 2 ^ k * (v % 2) + 2 ^ (k + 1) * (v / 2) := by
      rw [Nat.pow_succ, Nat.mul_assoc, ← Nat.mul_add]
      congr 1
      omega
    rw [List.drop_eq_getElem_cons hlt, applyN, Rep.apply_aux h n (k + 1) (v / 2) (by omega) (by omega), split_bit hv, h.lin, UInt32.toNat_xor, hg]
    congr 1
    rcases Nat.mod_two_eq_zero_or_one v with hm | hm
    · rw [hm, if_neg (by omega), Nat.mul_zero]
      show 0 = (f 0).toNat
      rw [h.zero]
      rfl
    · rw [hm, if_pos rfl, Nat.mul_one]

theorem Rep.apply {f : UInt32 → UInt32} {M : List Nat} (h : Rep f M) (c : UInt32) : applyN M c.toNat = (f c).toNat := by
  have := h.apply_aux 32 0 c.toNat (by omega) (by rw [Nat.pow_zero, Nat.one_mul]; exact c.toNat_lt)
  rwa [List.drop_zero, Nat.pow_zero, Nat.one_mul, UInt32.ofNat_toNat] at this

theorem Rep.sq {f : UInt32 → UInt32} {M : List Nat} (h : Rep f M) : Rep (fun c => f (f c)) (M.map (applyN M)) where
  lin a b := by rw [h.lin, h.lin]
  len := by rw [List.length_map, h.len]
  get i hi := by rw [List.getElem?_map, h.get i hi, Option.map_some, h.apply]

/-- Apply `k * n` times, with `n` in binary and `M` for `k` times. -/
def powN : List Bool → List Nat → Nat → Nat
  | [], _, c => c
  | b :: l, M, c => powN l (M.map (applyN M)) (if b then applyN M c else c)

theorem powN_shifts : ∀ (l : List Bool) {k : Nat} {M : List Nat} (_ : Rep (shifts k) M) (c : UInt32), powN l M c.toNat = (shifts (k * bitsVal l) c).toNat
  | [], _, _, _, _ => rfl
  | b :: l, k, M, h, c => by
    have h2 : Rep (shifts (2 * k)) (M.map (applyN M)) := by
      have := h.sq
      have e : (fun c => shifts k (shifts k c)) = shifts (2 * k) := by
        funext c
        rw [← shifts_add]
        congr 1
        omega
      rwa [e] at this
    have e1 : (if b then applyN M c.toNat else c.toNat) = (shifts (k * b.toNat) c).toNat := by
      cases b
      · rfl
      · rw [if_pos rfl, h.apply]; simp
    rw [powN, e1, powN_shifts l h2, ← shifts_add, bitsVal]
    congr 2
    ring

/-- One shift. -/
def shiftMatrix : List Nat := (List.range 32).map fun i => (crcBit (UInt32.ofNat (2 ^ i))).toNat

theorem shiftMatrix_rep : Rep (shifts 1) shiftMatrix where
  lin := shifts_xor 1
  len := by simp [shiftMatrix]
  get i hi := by
    unfold shiftMatrix
    rw [List.getElem?_map, List.getElem?_range hi]
    rfl

/-- The bits of a number. -/
def ofBits (n : Nat) : List Bool := (List.range 32).map n.testBit

theorem shifts_one_eq (l : List Bool) : (shifts (bitsVal l) 1).toNat = powN l shiftMatrix 1 := by
  rw [show (1 : Nat) = (1 : UInt32).toNat from rfl, powN_shifts l shiftMatrix_rep, Nat.one_mul]

theorem period_full : shifts (2 ^ 32 - 1) 1 = 1 := by
  have h : powN (ofBits (2 ^ 32 - 1)) shiftMatrix 1 = 1 := by decide +kernel
  have hv : bitsVal (ofBits (2 ^ 32 - 1)) = 2 ^ 32 - 1 := by decide +kernel
  rw [← shifts_one_eq, hv] at h
  exact UInt32.toNat.inj h

theorem period_not (n : Nat) (hv : bitsVal (ofBits n) = n) (h : powN (ofBits n) shiftMatrix 1 ≠ 1) : shifts n 1 ≠ 1 := by
  intro e
  rw [← shifts_one_eq, hv, e] at h
  exact h rfl

theorem no_period_3 : shifts ((2 ^ 32 - 1) / 3) 1 ≠ 1 := period_not _ (by decide +kernel) (by decide +kernel)
theorem no_period_5 : shifts ((2 ^ 32 - 1) / 5) 1 ≠ 1 := period_not _ (by decide +kernel) (by decide +kernel)
theorem no_period_17 : shifts ((2 ^ 32 - 1) / 17) 1 ≠ 1 := period_not _ (by decide +kernel) (by decide +kernel)
theorem no_period_257 : shifts ((2 ^ 32 - 1) / 257) 1 ≠ 1 := period_not _ (by decide +kernel) (by decide +kernel)
theorem no_period_65537 : shifts ((2 ^ 32 - 1) / 65537) 1 ≠ 1 := period_not _ (by decide +kernel) (by decide +kernel)

theorem factor {q : Nat} (hq : q.Prime) (h : q ∣ 2 ^ 32 - 1) : q = 3 ∨ q = 5 ∨ q = 17 ∨ q = 257 ∨ q = 65537 := by
  rw [show 2 ^ 32 - 1 = 3 * 5 * 17 * 257 * 65537 by norm_num, hq.dvd_mul, hq.dvd_mul, hq.dvd_mul, hq.dvd_mul,
    Nat.prime_dvd_prime_iff_eq hq (by norm_num), Nat.prime_dvd_prime_iff_eq hq (by norm_num), Nat.prime_dvd_prime_iff_eq hq (by norm_num),
    Nat.prime_dvd_prime_iff_eq hq (by norm_num), Nat.prime_dvd_prime_iff_eq hq (by norm_num)] at h
  tauto

/-- The feedback polynomial is primitive: a single bit comes back only after `2^32 - 1` shifts. -/
theorem no_short_period {k : Nat} (h0 : 0 < k) (h1 : k < 2 ^ 32 - 1) : shifts k 1 ≠ 1 := by
  intro h
  have hN : Function.IsPeriodicPt crcBit (2 ^ 32 - 1) 1 := period_full
  have hg : Function.IsPeriodicPt crcBit (k.gcd (2 ^ 32 - 1)) 1 := Function.IsPeriodicPt.gcd h hN
  have hd : k.gcd (2 ^ 32 - 1) ∣ 2 ^ 32 - 1 := Nat.gcd_dvd_right _ _
  have hle : k.gcd (2 ^ 32 - 1) ≤ k := Nat.gcd_le_left _ h0
  have hpos : 0 < k.gcd (2 ^ 32 - 1) := Nat.gcd_pos_of_pos_left _ h0
  generalize k.gcd (2 ^ 32 - 1) = g at *
  obtain ⟨m, hm⟩ := hd
  have hm1 : m ≠ 1 := by rintro rfl; omega
  obtain ⟨q, hq, hqm⟩ := Nat.exists_prime_and_dvd hm1
  have hqN : q ∣ 2 ^ 32 - 1 := hm ▸ Dvd.dvd.mul_left hqm g
  have hgd : g ∣ (2 ^ 32 - 1) / q := by
    obtain ⟨r, rfl⟩ := hqm
    rw [hm]
    refine ⟨r, ?_⟩
    rw [Nat.mul_left_comm, Nat.mul_div_cancel_left _ hq.pos]
  have hp : shifts ((2 ^ 32 - 1) / q) 1 = 1 := hg.trans_dvd hgd
  rcases factor hq hqN with rfl | rfl | rfl | rfl | rfl
  · exact no_period_3 hp
  · exact no_period_5 hp
  · exact no_period_17 hp
  · exact no_period_257 hp
  · exact no_period_65537 hp

theorem feed_not (c : UInt32) (b : Bool) : (c ^^^ if (!b) = true then 1 else 0) = (c ^^^ if b = true then 1 else 0) ^^^ 1 := by
  cases b
  · simp
  · simp [UInt32.xor_assoc]

theorem feed_two {c : UInt32} {x y : List Bool} (h : Zopfli.TwoBits x y) : feed c x ≠ feed c y := by
  obtain ⟨pre, b, mid, d, post, rfl, rfl, hl⟩ := h
  intro e
  have h2 : ∀ (c : UInt32) (b d : Bool), feed c (b :: mid ++ d :: post) = feed (crcBit (feed (crcBit (c ^^^ if b then 1 else 0)) mid ^^^ if d then 1 else 0)) post := by
    intro c b d
    rw [List.cons_append]
    show feed (crcBit (c ^^^ if b then 1 else 0)) (mid ++ d :: post) = _
    rw [feed_append]
    rfl
  rw [List.append_assoc, List.append_assoc, feed_append c pre, feed_append c pre] at e
  generalize feed c pre = c at e
  rw [h2, h2, feed_not c b] at e
  have e := feed_inj e
  rw [crcBit_xor _ 1, UInt32.xor_comm (crcBit _) (crcBit 1), feed_xor] at e
  generalize feed (crcBit (c ^^^ if b then 1 else 0)) mid = r at e
  have e : crcBit (r ^^^ if d then 1 else 0) ^^^ crcBit (shifts mid.length (crcBit 1) ^^^ r ^^^ if !d then 1 else 0) = 0 := by
    rw [e, UInt32.xor_self]
  rw [← crcBit_xor, feed_not] at e
  have e := crcBit_eq_zero e
  generalize (if d = true then (1 : UInt32) else 0) = t at e
  have e : shifts mid.length (crcBit 1) ^^^ 1 = 0 := by
    rw [← e]
    have : ∀ s : UInt32, r ^^^ t ^^^ (s ^^^ r ^^^ t ^^^ 1) = s ^^^ 1 := by
      intro s
      calc r ^^^ t ^^^ (s ^^^ r ^^^ t ^^^ 1) = (r ^^^ r) ^^^ (t ^^^ t) ^^^ (s ^^^ 1) := by ac_rfl
        _ = s ^^^ 1 := by rw [UInt32.xor_self, UInt32.xor_self]; simp
    exact (this _).symm
  exact no_short_period (k := mid.length + 1) (by omega) hl (UInt32.xor_eq_zero_iff.mp e)

end Rfc
