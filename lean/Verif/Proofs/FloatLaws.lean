import Verif.Model.Float
/-! # What is assumed of floating point arithmetic -/

namespace Zopfli

/-- The laws of floating point arithmetic on which termination and the correctness of the parser depend.  They all
say that costs stay finite numbers: a finite cost is below infinity, and sums of costs are again finite costs. -/
structure FloatLaws (F : FloatOps) where
  /-- every write is shorter than this -/
  lim : Nat
  lim_ge : 2 ^ 21 ≤ lim
  lim_le : lim ≤ 2 ^ 47
  /-- a plausible cost of one LZ77 item -/
  Sym : F.F64 → Prop
  /-- a plausible accumulated cost -/
  Acc : F.F32 → Prop
  /-- a plausible entropy of one symbol -/
  Ent : F.F64 → Prop
  /-- a block size is below infinity -/
  size_lt_inf : ∀ a b, F.lt (F.add (F.ofUsize a) (F.ofUsize b)) F.inf = true
  sym_lt_inf : ∀ c, Sym c → F.lt c F.inf = true
  acc_zero : Acc F.zero32
  acc_step : ∀ c x, Sym c → Acc x → Acc (F.toF32 (F.add c (F.toF64 x)))
  acc_step32 : ∀ c x, Sym c → Acc x → Acc (F.add32 x (F.toF32 c))
  lt_inf32 : ∀ c x, Sym c → Acc x → F.lt (F.add c (F.toF64 x)) (F.toF64 F.inf32) = true
  not_le_inf32 : ∀ c x, Sym c → Acc x → F.le (F.toF64 F.inf32) (F.add c (F.toF64 x)) = false
  cost_ok : ∀ c x, Sym c → Acc x → F.costOk (F.add c (F.toF64 x)) = true
  acc_ok : ∀ x, Acc x → F.costOk (F.toF64 x) = true
  acc_lt_inf : ∀ x, Acc x → F.lt (F.toF64 x) F.inf = true
  sym_nat : ∀ n, n ≤ 31 → Sym (F.ofUsize n)
  sym_ent : ∀ c, Ent c → Sym c
  sym_match : ∀ a b l d, a ≤ 5 → b ≤ 14 → Ent l → Ent d → Sym (F.add (F.add (F.add (F.ofUsize a) (F.ofUsize b)) l) d)
  ent_log : ∀ s, 1 ≤ s → s < 2 ^ 11 * lim → Ent (F.log2 (F.ofUsize s))
  ent_sub : ∀ s c, 1 ≤ c → c ≤ s → s < 2 ^ 11 * lim → Ent (F.sub (F.log2 (F.ofUsize s)) (F.log2 (F.ofUsize c)))
  weight_le : ∀ a b, a < 2 ^ 50 → b < 2 ^ 50 →
    F.toUsize (F.add (F.mul (F.ofUsize a) (F.ofUsize 1)) (F.mul (F.ofUsize b) F.half)) ≤ a + b / 2

theorem FloatLaws.lim_pos {F : FloatOps} (L : FloatLaws F) : 0 < L.lim := Nat.lt_of_lt_of_le (by decide) L.lim_ge

end Zopfli
