import Verif.Model.Direct
import Verif.Proofs.OverflowPart
import Verif.Proofs.Part
import Verif.Proofs.Blocks
/-!
# Writing while computing gives what the list of operations gives
-/

namespace Zopfli
namespace Direct

variable {σ α β : Type} {S : Sink σ}

/-- The computation `d` performs the operations `ops` on the writer and returns `a`, unless one of the operations fails. -/
def Follows [Checks] (S : Sink σ) (d : Dm σ α) (ops : List WOp) (a : α) : Prop :=
  ∀ w, d w = (w.execAll S ops).map fun p => (p.1.map fun _ => a, p.2)

theorem execAll_append [Checks] : ∀ (a b : List WOp) (w : BitwiseWriter σ),
    w.execAll S (a ++ b) = (w.execAll S a).bind fun p =>
      match p with
      | (.ok (), w) => w.execAll S b
      | (.error k, w) => some (.error k, w)
  | [], b, w => rfl
  | o :: a, b, w => by
    rw [List.cons_append, BitwiseWriter.execAll, BitwiseWriter.execAll]
    cases w.exec S o with
    | none => rfl
    | some p =>
      obtain ⟨r, w⟩ := p
      rw [some_bind, some_bind]
      cases r with
      | error k => rfl
      | ok u => exact execAll_append a b w

theorem Follows.pure [Checks] (a : α) : Follows S (Pure.pure a : Dm σ α) [] a := fun _ => rfl

theorem Follows.bind [Checks] {d : Dm σ α} {f : α → Dm σ β} {ops ops' : List WOp} {a : α} {b : β} (h1 : Follows S d ops a) (h2 : Follows S (f a) ops' b) :
    Follows S (d >>= f) (ops ++ ops') b := by
  intro w
  show Dm.andThen d f w = _
  unfold Dm.andThen
  rw [h1 w, execAll_append]
  cases w.execAll S ops with
  | none => rfl
  | some p =>
    obtain ⟨r, w⟩ := p
    cases r with
    | error k => rfl
    | ok u => exact h2 w

theorem Follows.lift [Checks] {o : Option α} {a : α} (h : o = some a) {f : α → Dm σ β} {ops : List WOp} {b : β} (h2 : Follows S (f a) ops b) :
    Follows S (Direct.lift o >>= f) ops b := by
  intro w
  show Dm.andThen _ f w = _
  unfold Dm.andThen Direct.lift
  rw [h]
  exact h2 w

theorem Follows.congr [Checks] {d : Dm σ α} {ops ops' : List WOp} {a : α} (h : Follows S d ops a) (e : ops = ops') : Follows S d ops' a := e ▸ h

theorem Follows.each [Checks] {body : α → Dm σ Unit} {f : α → List WOp} : ∀ (l : List α), (∀ x ∈ l, Follows S (body x) (f x) ()) →
    Follows S (Direct.each l body) (l.map f).flatten ()
  | [], _ => Follows.pure ()
  | x :: l, h => (h x (by simp)).bind (Follows.each l fun y hy => h y (by simp [hy]))

theorem Follows.eachM [Checks] {body : α → Dm σ Unit} {f : α → Option (List WOp)} : ∀ (l : List α) {ops : List (List WOp)}, l.mapM f = some ops →
    (∀ x ∈ l, ∀ o, f x = some o → Follows S (body x) o ()) → Follows S (Direct.each l body) ops.flatten ()
  | [], ops, e, _ => by
    rw [List.mapM_nil] at e
    cases e
    exact Follows.pure ()
  | x :: l, ops, e, h => by
    rw [List.mapM_cons] at e
    simp only [Option.bind_eq_bind, Option.bind_eq_some_iff, Option.pure_def, Option.some.injEq] at e
    obtain ⟨o, e1, os, e2, rfl⟩ := e
    exact (h x (by simp) o e1).bind (Follows.eachM l e2 fun y hy => h y (by simp [hy]))

/-! ## Bits -/

theorem follows_addBytes [Checks] (l : List UInt8) : Follows S (addBytes S l) [.bytes l] () := by
  intro w
  show w.addBytes S l = _
  rw [BitwiseWriter.execAll, BitwiseWriter.exec]
  cases w.addBytes S l with
  | none => rfl
  | some p => rcases p with ⟨k | u, w⟩ <;> rfl

theorem follows_addByte [Checks] (n : Nat) : Follows S (addByte S (UInt8.ofNat n)) (Zopfli.addByte n) () := follows_addBytes _

theorem follows_align [Checks] : Follows S (finishPartialBits S) [.align] () := by
  intro w
  show w.finishPartialBits S = _
  rw [BitwiseWriter.execAll, BitwiseWriter.exec]
  cases w.finishPartialBits S with
  | none => rfl
  | some p => rcases p with ⟨k | u, w⟩ <;> rfl

theorem follows_addBit [Checks] (b : Bool) : Follows S (addBit S (if b then 1 else 0)) [.bit b] () := by
  intro w
  have h : addBit S (if b then 1 else 0) w = w.addBit S b := rfl
  rw [h, BitwiseWriter.execAll, BitwiseWriter.exec]
  cases w.addBit S b with
  | none => rfl
  | some p => rcases p with ⟨k | u, w⟩ <;> rfl

theorem low_bit (x i : Nat) : UInt8.ofNat (x >>> i &&& 1) = if x.testBit i then 1 else 0 := by
  rw [Nat.and_one_is_mod, Nat.shiftRight_eq_div_pow, Nat.testBit_eq_decide_div_mod_eq]
  rcases Nat.mod_two_eq_zero_or_one (x / 2 ^ i) with h | h <;> rw [h] <;> rfl

theorem shr_eq [Checks] {x i : Nat} (h : i < 32) : shr x i = some (x >>> i) := by
  unfold shr
  rw [if_neg (by omega), Nat.mod_eq_of_lt h]

theorem follows_addBits [Checks] (v : Nat) {n : Nat} (h : n ≤ 32) : Follows S (addBits S v n) (Zopfli.addBits v n) () := by
  refine (Follows.each (f := fun i => [.bit (v.testBit i)]) _ fun i hi => ?_).congr ?_
  · have hi := List.mem_range.1 hi
    refine Follows.lift (shr_eq (by omega)) ?_
    rw [low_bit]
    exact follows_addBit _
  · unfold Zopfli.addBits
    generalize List.range n = l
    induction l with
    | nil => rfl
    | cons x l ih => simp only [List.map_cons, List.flatten_cons, ih]; rfl

theorem follows_addHuffmanBits [Checks] (v : Nat) {n : Nat} (h : n ≤ 32) : Follows S (addHuffmanBits S v n) (Zopfli.addHuffmanBits v n) () := by
  refine (Follows.each (f := fun i => [.bit (v.testBit (n - i - 1))]) _ fun i hi => ?_).congr ?_
  · have hi := List.mem_range.1 hi
    refine Follows.lift (usub_eq (by omega)) (Follows.lift (usub_eq (by omega)) (Follows.lift (shr_eq (by omega)) ?_))
    rw [low_bit]
    exact follows_addBit _
  · unfold Zopfli.addHuffmanBits
    generalize List.range n = l
    induction l with
    | nil => rfl
    | cons x l ih => simp only [List.map_cons, List.flatten_cons, ih]; rfl

/-- Code lengths are at most the limit, where codes have been assigned. -/
theorem lengths_le {lens syms : Array Nat} {m : Nat} (h : lengthsToSymbols lens m = some syms) {i v : Nat} (hi : lens[i]? = some v) : v ≤ m := by
  unfold lengthsToSymbols at h
  simp only [Option.bind_eq_bind, Option.bind_eq_some_iff] at h
  obtain ⟨bl, h, -⟩ := h
  have hlt : i < lens.size := by
    by_contra hn
    rw [Array.getElem?_eq_none (by omega)] at hi
    cases hi
  rw [forRange_split (Nat.zero_le i) (Nat.le_of_lt hlt)] at h
  simp only [Option.bind_eq_bind, Option.bind_eq_some_iff] at h
  obtain ⟨b1, -, h⟩ := h
  rw [forRange_step hlt, hi] at h
  simp only [Option.bind_eq_bind, Option.bind_eq_some_iff, Option.some.injEq, exists_eq_left'] at h
  obtain ⟨_, ⟨u, h, -⟩, -⟩ := h
  unfold guardR at h
  by_contra hn
  rw [if_neg (by simpa using hn)] at h
  cases h

/-! ## Iterators -/

variable {ι : Type}

/-- The iterator in the state `it` hands out these items, and then says that there are no more. -/
inductive Drains (next : Next ι α) : ι → List α → Prop
  | nil {it it' : ι} : next it = (none, it') → Drains next it []
  | cons {it it' : ι} {x : α} {l : List α} : next it = (some x, it') → Drains next it' l → Drains next it (x :: l)

theorem Follows.forIter [Checks] {next : Next ι α} {body : α → Dm σ Unit} {f : α → List WOp} (hb : ∀ x, Follows S (body x) (f x) ()) {it : ι} {l : List α}
    (h : Drains next it l) : Follows S (Direct.forIter next body it) (l.map f).flatten () := by
  induction h with
  | nil h =>
    intro w
    rw [Direct.forIter, h]
    rfl
  | @cons it it' x l h _ ih =>
    intro w
    rw [Direct.forIter, h, List.map_cons, List.flatten_cons, execAll_append]
    dsimp only
    rw [hb x w]
    cases w.execAll S (f x) with
    | none => rfl
    | some p =>
      obtain ⟨r, w⟩ := p
      cases r with
      | error k => rfl
      | ok u => exact ih w

theorem drains_chunks {n : Nat} (hn : 0 < n) (l : List α) : Drains (chunksNext n) l (chunksOf n l) := by
  rw [chunksOf]
  split
  · rename_i h
    have h : l = [] := h.resolve_right (by omega)
    exact .nil (it' := l) (by unfold chunksNext; rw [if_pos h])
  · rename_i h
    have h0 : l ≠ [] := fun e => h (.inl e)
    have h3 : 0 < l.length := List.length_pos_iff.2 h0
    refine .cons (it' := l.drop n) ?_ (drains_chunks hn (l.drop n))
    unfold chunksNext
    rw [if_neg h0]
    dsimp only
    by_cases hl : n ≤ l.length
    · rw [Nat.min_eq_right hl]
    · rw [Nat.min_eq_left (by omega), List.take_of_length_le (Nat.le_refl _), List.take_of_length_le (by omega : l.length ≤ n),
        List.drop_of_length_le (Nat.le_refl _), List.drop_of_length_le (by omega : l.length ≤ n)]
termination_by l.length
decreasing_by
  simp only [List.length_drop]
  omega

theorem Drains.congr {next : Next ι α} {a b : ι} {l : List α} (e : next a = next b) (h : Drains next b l) : Drains next a l := by
  cases h with
  | nil h => exact .nil (e.trans h)
  | cons h h' => exact .cons (e.trans h) h'

/-- An iterator that has been looked into. -/
theorem drains_peeked {next : Next ι α} {it : ι} {l : List α} (h : Drains next it l) :
    ∀ x, Drains (flagLastNext next) (⟨it, some (some x)⟩ : Peekable ι α) (Zopfli.flagLast (x :: l)) := by
  induction h with
  | @nil it it' h =>
    intro x
    refine .cons (it' := ⟨it', some none⟩) ?_ (.nil (it' := ⟨it', none⟩) ?_)
    · simp only [flagLastNext, peekableNext, peek, h, Option.isNone_none]
    · simp only [flagLastNext, peekableNext]
  | @cons it it' y l h _ ih =>
    intro x
    refine .cons (it' := ⟨it', some (some y)⟩) ?_ (ih y)
    simp only [flagLastNext, peekableNext, peek, h, Option.isNone_some]

theorem drains_flagLast {next : Next ι α} {it : ι} {l : List α} (h : Drains next it l) :
    Drains (flagLastNext next) (flagLast it : Peekable ι α) (Zopfli.flagLast l) := by
  unfold flagLast
  cases h with
  | @nil _ it' h => exact .nil (it' := ⟨it', none⟩) (by simp only [flagLastNext, peekableNext, h])
  | @cons _ it' y l h h' =>
    refine (drains_peeked h' y).congr ?_
    simp only [flagLastNext, peekableNext, h]

theorem drains_chain {next : Next ι α} {it : ι} {l : List α} (h : Drains next it l) (b : α) :
    Drains (chainNext next) (⟨some it, some b⟩ : ChainOnce ι α) (l ++ [b]) := by
  induction h with
  | @nil it it' h =>
    refine .cons (it' := ⟨none, none⟩) ?_ (.nil (it' := ⟨none, none⟩) rfl)
    simp only [chainNext, h]
  | @cons it it' y l h _ ih =>
    refine .cons ?_ ih
    simp only [chainNext, h]

theorem drains_take {next : Next ι α} {it : ι} {l : List α} (h : Drains next it l) : ∀ n, Drains (takeNext next) (⟨it, n⟩ : Take ι) (l.take n) := by
  induction h with
  | @nil it it' h =>
    intro n
    rw [List.take_nil]
    by_cases hn : n = 0
    · exact .nil (it' := ⟨it, n⟩) (by simp only [takeNext, hn, ne_eq, not_true_eq_false, if_false])
    · exact .nil (it' := ⟨it', n - 1⟩) (by simp only [takeNext, h, if_pos hn])
  | @cons it it' y l h _ ih =>
    intro n
    cases n with
    | zero => exact .nil (it' := ⟨it, 0⟩) rfl
    | succ n => exact .cons (it' := ⟨it', n⟩) (by simp [takeNext, h]) (ih n)

theorem sizeHint_eq {n : Nat} (hn : 0 < n) (l : List α) : chunksSizeHint n l = (chunksOf n l).length := by
  unfold chunksSizeHint
  rw [chunksOf]
  split
  · rename_i h
    rw [dif_pos (.inl h)]
    rfl
  · rename_i h
    rw [dif_neg (by intro h'; rcases h' with h' | h'; exacts [h h', by omega]), List.length_cons, ← sizeHint_eq hn (l.drop n)]
    have h3 : 0 < l.length := List.length_pos_iff.2 h
    unfold chunksSizeHint
    rw [List.length_drop]
    by_cases hl : n < l.length
    · have hd : List.drop n l ≠ [] := by intro e; rw [List.drop_eq_nil_iff] at e; omega
      rw [if_neg hd, Nat.mod_eq_sub_mod (Nat.le_of_lt hl), Nat.div_eq_sub_div hn (Nat.le_of_lt hl)]
      omega
    · have hd : List.drop n l = [] := by rw [List.drop_eq_nil_iff]; omega
      rw [if_pos hd]
      rcases Nat.lt_or_eq_of_le (Nat.not_lt.1 hl) with hl | hl
      · rw [Nat.div_eq_of_lt hl, Nat.mod_eq_of_lt hl, if_pos h3]
      · rw [hl, Nat.div_self hn, Nat.mod_self]
        rfl
termination_by l.length
decreasing_by
  have h3 : 0 < l.length := List.length_pos_iff.2 (by assumption)
  simp only [List.length_drop]
  omega

/-! ## Blocks -/

theorem follows_stored [Checks] (final : Bool) (x : List UInt8 × Bool) :
    Follows S (storedBlock S final x) (Zopfli.storedBlock (final && x.2) x.1) () := by
  obtain ⟨chunk, b⟩ := x
  unfold storedBlock Zopfli.storedBlock
  exact (follows_addBit (final && b)).bind ((follows_addBit false).bind ((follows_addBit false).bind (follows_align.bind ((follows_addByte _).bind
    ((follows_addByte _).bind ((follows_addByte _).bind ((follows_addByte _).bind (follows_addBytes _))))))))

theorem follows_nonCompressed [Checks] {final : Bool} {data : Array UInt8} {a b : Nat} {ops : List WOp}
    (h : Zopfli.addNonCompressedBlock final data a b = some ops) : Follows S (addNonCompressedBlock S final data a b) ops () := by
  unfold Zopfli.addNonCompressedBlock at h
  simp only [Option.bind_eq_bind, Option.bind_eq_some_iff, Option.pure_def, Option.some.injEq] at h
  obtain ⟨d, e1, rfl⟩ := h
  unfold addNonCompressedBlock
  refine Follows.lift e1 ?_
  dsimp only
  rw [sizeHint_eq (by omega)]
  exact Follows.forIter (fun x => follows_stored final x) (drains_take (drains_chain (drains_flagLast (drains_chunks (by omega) _)) _) _)

theorem distExtra_le {d : Nat} (h : d ≤ 65536) : getDistExtraBits d ≤ 32 := by
  unfold getDistExtraBits
  split
  · omega
  · have : Nat.log2 (d - 1) < 17 := (Nat.log2_lt (by omega)).2 (by omega)
    omega

theorem lengthExtra_le {l v : Nat} (h : getLengthExtraBits l = some v) : v ≤ 32 := by
  have key : (lengthExtraBitsTable.all fun x => decide (x ≤ 32)) = true := by decide +kernel
  unfold getLengthExtraBits at h
  rw [Array.all_eq_true_iff_forall_mem] at key
  simpa using key v (Array.mem_of_getElem? h)

attribute [local irreducible] getLengthExtraBits getLengthExtraBitsValue getLengthSymbol getDistSymbol

theorem follows_item [Checks] {lls lll ds dl : Array Nat} (h1 : ∀ (i : Nat) v, lll[i]? = some v → v ≤ 32) (h2 : ∀ (i : Nat) v, dl[i]? = some v → v ≤ 32)
    {x : LitLen} (hx : x.InRange) {ops : List WOp} (h : itemOps lls lll ds dl x = some ops) : Follows S (item S lls lll ds dl x) ops () := by
  cases x with
  | literal lit =>
    unfold itemOps at h
    simp only [Option.bind_eq_bind, Option.bind_eq_some_iff, Option.pure_def, Option.some.injEq] at h
    obtain ⟨_, e1, n, e2, _, e3, s, e4, m, e5, rfl⟩ := h
    unfold item
    exact Follows.lift e1 (Follows.lift e2 (Follows.lift e3 (Follows.lift e4 (Follows.lift e5 (follows_addHuffmanBits _ (h1 _ _ e5))))))
  | lengthDist len dist =>
    unfold itemOps at h
    simp only [Option.bind_eq_bind, Option.bind_eq_some_iff, Option.pure_def, Option.some.injEq] at h
    obtain ⟨_, e1, l, e2, n, e3, _, e4, m, e5, _, e6, s, e7, n', e8, v, e9, n'', e10, s', e11, n3, e12, rfl⟩ := h
    unfold item
    refine Follows.lift e1 (Follows.lift e2 (Follows.lift e3 (Follows.lift e4 (Follows.lift e5 (Follows.lift e6 (Follows.lift e7 (Follows.lift e8 ?_)))))))
    refine ((follows_addHuffmanBits _ (h1 _ _ e8)).bind (Follows.lift e9 (Follows.lift e10 ((follows_addBits _ (lengthExtra_le e10)).bind
      (Follows.lift e11 (Follows.lift e12 ((follows_addHuffmanBits _ (h2 _ _ e12)).bind (follows_addBits _ (distExtra_le ?_))))))))).congr ?_
    · have := hx.2.2.2
      omega
    · simp only [List.append_assoc]

theorem follows_data [Checks] {s : Lz77Store} (hs : ∀ x ∈ s.litlens.toList, x.InRange) {a b : Nat} {lls lll ds dl : Array Nat}
    (h1 : ∀ (i : Nat) v, lll[i]? = some v → v ≤ 32) (h2 : ∀ (i : Nat) v, dl[i]? = some v → v ≤ 32) {ops : List WOp}
    (h : Zopfli.addLz77Data s a b lls lll ds dl = some ops) : Follows S (addLz77Data S s a b lls lll ds dl) ops () := by
  unfold Zopfli.addLz77Data at h
  simp only [Option.bind_eq_bind, Option.bind_eq_some_iff, Option.pure_def, Option.some.injEq] at h
  obtain ⟨items, e1, os, e2, rfl⟩ := h
  unfold addLz77Data
  refine Follows.lift e1 (Follows.eachM _ e2 fun x hx o ho => follows_item h1 h2 (hs x ?_) ho)
  unfold slice at e1
  split at e1
  · cases e1
    rw [Array.toList_extract] at hx
    exact List.mem_of_mem_drop (List.mem_of_mem_take hx) 
  · cases e1

theorem follows_blockData [Checks] {s : Lz77Store} (hs : ∀ x ∈ s.litlens.toList, x.InRange) {a b : Nat} {lll dl : Array Nat} {ops : List WOp}
    (h : Zopfli.addBlockData s a b lll dl = some ops) : Follows S (addBlockData S s a b lll dl) ops () := by
  unfold Zopfli.addBlockData at h
  simp only [Option.bind_eq_bind, Option.bind_eq_some_iff, Option.pure_def, Option.some.injEq] at h
  obtain ⟨lls, e1, ds, e2, os, e3, sy, e4, n, e5, rfl⟩ := h
  unfold addBlockData
  have h1 : ∀ (i : Nat) v, lll[i]? = some v → v ≤ 32 := fun i v h => Nat.le_trans (lengths_le e1 h) (by omega)
  have h2 : ∀ (i : Nat) v, dl[i]? = some v → v ≤ 32 := fun i v h => Nat.le_trans (lengths_le e2 h) (by omega)
  exact Follows.lift e1 (Follows.lift e2 ((follows_data hs h1 h2 e3).bind (Follows.lift e4 (Follows.lift e5 (follows_addHuffmanBits _ (h1 _ _ e5))))))

/-! ## Trees -/

theorem push_sizes {o o' : RleOut} {s b : Nat} (h : o.push s b = some o') (ho : o.rle.size = o.rleBits.size) : o'.rle.size = o'.rleBits.size := by
  unfold RleOut.push at h
  simp only [Option.bind_eq_bind, Option.bind_eq_some_iff, Option.pure_def, Option.some.injEq] at h
  obtain ⟨_, -, rfl⟩ := h
  simp [ho]

theorem loop18_sizes {o : RleOut} {n : Nat} {r : RleOut × Nat} (h : rleLoop18 o n = some r) (ho : o.rle.size = o.rleBits.size) :
    r.1.rle.size = r.1.rleBits.size := by
  induction n using Nat.strongRecOn generalizing o with
  | ind n ih =>
    rw [rleLoop18] at h
    split at h
    · simp only [Option.bind_eq_bind, Option.bind_eq_some_iff] at h
      obtain ⟨o1, e1, h⟩ := h
      exact ih _ (by split <;> omega) h (push_sizes e1 ho)
    · cases h
      exact ho

theorem loop17_sizes {o : RleOut} {n : Nat} {r : RleOut × Nat} (h : rleLoop17 o n = some r) (ho : o.rle.size = o.rleBits.size) :
    r.1.rle.size = r.1.rleBits.size := by
  induction n using Nat.strongRecOn generalizing o with
  | ind n ih =>
    rw [rleLoop17] at h
    split at h
    · simp only [Option.bind_eq_bind, Option.bind_eq_some_iff] at h
      obtain ⟨o1, e1, h⟩ := h
      exact ih _ (by split <;> omega) h (push_sizes e1 ho)
    · cases h
      exact ho

theorem loop16_sizes {o : RleOut} {n : Nat} {r : RleOut × Nat} (h : rleLoop16 o n = some r) (ho : o.rle.size = o.rleBits.size) :
    r.1.rle.size = r.1.rleBits.size := by
  induction n using Nat.strongRecOn generalizing o with
  | ind n ih =>
    rw [rleLoop16] at h
    split at h
    · simp only [Option.bind_eq_bind, Option.bind_eq_some_iff] at h
      obtain ⟨o1, e1, h⟩ := h
      exact ih _ (by split <;> omega) h (push_sizes e1 ho)
    · cases h
      exact ho

theorem rest_sizes {s : Nat} : ∀ (n : Nat) {o o' : RleOut}, rleRest o s n = some o' → o.rle.size = o.rleBits.size → o'.rle.size = o'.rleBits.size
  | 0, o, o', h, ho => by cases h; exact ho
  | n + 1, o, o', h, ho => by
    rw [rleRest] at h
    simp only [Option.bind_eq_bind, Option.bind_eq_some_iff] at h
    obtain ⟨o1, e1, h⟩ := h
    exact rest_sizes n h (push_sizes e1 ho)

theorem step_sizes {lll dl : Array Nat} {a b : Nat} {u v w : Bool} {i : Nat} {o : RleOut} {r : (Nat × RleOut) ⊕ RleOut}
    (h : rleEncodeStep lll dl a b u v w (i, o) = some r) (ho : o.rle.size = o.rleBits.size) :
    match r with
    | .inl p => p.2.rle.size = p.2.rleBits.size
    | .inr o => o.rle.size = o.rleBits.size := by
  unfold rleEncodeStep at h
  dsimp only at h
  split at h
  · simp only [Option.bind_eq_bind, Option.bind_eq_some_iff, Prod.exists] at h
    obtain ⟨sy, -, n, -, o1, n1, h1, o2, n2, h2, o3, h3, h⟩ := h
    cases h
    have g1 : o1.rle.size = o1.rleBits.size := by
      split at h1
      · simp only [Option.bind_eq_some_iff, Prod.exists] at h1
        obtain ⟨o4, n4, e4, e5⟩ := h1
        have g4 : o4.rle.size = o4.rleBits.size := by
          split at e4
          · exact loop18_sizes e4 ho
          · cases e4; exact ho
        split at e5
        · exact loop17_sizes e5 g4
        · cases e5; exact g4
      · cases h1; exact ho
    have g2 : o2.rle.size = o2.rleBits.size := by
      split at h2
      · simp only [Option.bind_eq_some_iff] at h2
        obtain ⟨o5, e5, e6⟩ := h2
        exact loop16_sizes e6 (push_sizes e5 g1)
      · cases h2; exact g1
    exact rest_sizes _ h3 g2
  · cases h
    exact ho

theorem rle_sizes {lll dl : Array Nat} {a b : Nat} {u v w : Bool} {p : Nat × RleOut} {o : RleOut}
    (h : loopM (rleEncodeStep lll dl a b u v w) p = some o) (hp : p.2.rle.size = p.2.rleBits.size) : o.rle.size = o.rleBits.size := by
  have := loopM.partial_correctness (body := rleEncodeStep lll dl a b u v w) (motive := fun p o => p.2.rle.size = p.2.rleBits.size → o.rle.size = o.rleBits.size) (by
    intro f ih p o hr hp
    obtain ⟨i, o0⟩ := p
    simp only [Option.bind_eq_bind, Option.bind_eq_some_iff] at hr
    obtain ⟨r, e, hr⟩ := hr
    have g := step_sizes e hp
    cases r with
    | inl p => exact ih _ _ hr g
    | inr o' => cases hr; exact g)
  exact this p o h hp

theorem follows_rleItem [Checks] {clcl syms rle bits : Array Nat} (h1 : ∀ (i : Nat) v, clcl[i]? = some v → v ≤ 32) {i r b : Nat} (hr : rle[i]? = some r)
    (hb : bits[i]? = some b) {ops : List WOp} (h : rleOps clcl syms r b = some ops) : Follows S (rleItem S clcl syms rle bits i) ops () := by
  unfold rleOps at h
  simp only [Option.bind_eq_bind, Option.bind_eq_some_iff, Option.pure_def, Option.some.injEq] at h
  obtain ⟨sy, e1, n, e2, rfl⟩ := h
  unfold rleItem
  refine Follows.lift hr (Follows.lift hb (Follows.lift e1 (Follows.lift e2 ((follows_addHuffmanBits _ (h1 _ _ e2)).bind ?_))))
  split
  · exact follows_addBits _ (by omega)
  · split
    · exact follows_addBits _ (by omega)
    · split
      · exact follows_addBits _ (by omega)
      · exact Follows.pure ()

theorem mapM_same {f g : α → Option β} : ∀ (l : List α), (∀ x ∈ l, f x = g x) → l.mapM f = l.mapM g
  | [], _ => by rw [List.mapM_nil, List.mapM_nil]
  | x :: l, h => by rw [List.mapM_cons, List.mapM_cons, h x (by simp), mapM_same l fun y hy => h y (by simp [hy])]

/-- Going through two arrays of the same length by index. -/
theorem follows_indexed [Checks] {a b : Array Nat} (hab : a.size = b.size) {body : Nat → Dm σ Unit} {f : Nat × Nat → Option (List WOp)}
    (hbody : ∀ i x y o, a[i]? = some x → b[i]? = some y → f (x, y) = some o → Follows S (body i) o ()) {ops : List (List WOp)}
    (h : (a.toList.zip b.toList).mapM f = some ops) : Follows S (Direct.each (List.range a.size) body) ops.flatten () := by
  have e : (List.range a.size).mapM (fun i => (do f (← a[i]?, ← b[i]?) : Option (List WOp))) = (a.toList.zip b.toList).mapM f := by
    have e2 : (a.toList.zip b.toList) = (List.range a.size).map fun i => (a[i]?.getD 0, b[i]?.getD 0) := by
      apply List.ext_getElem
      · simp [hab]
      · intro i h1 h2
        have h3 : i < a.size := by simpa using h2
        have h4 : i < b.size := hab ▸ h3
        simp [h3, h4]
    rw [e2, List.mapM_map]
    refine mapM_same _ fun i hi => ?_
    have h3 : i < a.size := List.mem_range.1 hi
    have h4 : i < b.size := hab ▸ h3
    simp [h3, h4]
  rw [← e] at h
  refine Follows.eachM _ h fun i hi o ho => ?_
  simp only [Option.bind_eq_bind, Option.bind_eq_some_iff] at ho
  obtain ⟨x, h1, y, h2, h3⟩ := ho
  exact hbody i x y o h1 h2 h3

theorem follows_encodeTree [Checks] {lll dl : Array Nat} {u v w : Bool} {ops : List WOp} (h : Zopfli.encodeTree lll dl u v w = some ops) :
    Follows S (encodeTree S lll dl u v w) ops () := by
  unfold Zopfli.encodeTree at h
  simp only [Option.bind_eq_bind, Option.bind_eq_some_iff, Option.pure_def, Option.some.injEq] at h
  obtain ⟨hlit, e1, hdist, e2, o, e3, clcl, e4, syms, e5, hclen, e6, lens, e7, items, e8, rfl⟩ := h
  unfold encodeTree
  have h1 : ∀ (i : Nat) v, clcl[i]? = some v → v ≤ 32 := fun i v h => Nat.le_trans (lengths_le e5 h) (by omega)
  refine Follows.lift e1 (Follows.lift e2 (Follows.lift e3 (Follows.lift e4 (Follows.lift e5 (Follows.lift e6 ?_)))))
  refine ((follows_addBits _ (by omega)).bind ((follows_addBits _ (by omega)).bind ((follows_addBits _ (by omega)).bind ((Follows.eachM _ e7 ?_).bind
    (follows_indexed (rle_sizes e3 rfl) (fun i x y o hx hy ho => follows_rleItem h1 hx hy ho) e8))))).congr ?_
  · intro x _ o ho
    simp only [Option.bind_eq_some_iff, Option.some.injEq] at ho
    obtain ⟨n, e, rfl⟩ := ho
    exact Follows.lift e (follows_addBits _ (by omega))
  · simp only [List.append_assoc]

theorem follows_dynamicTree [Checks] {lll dl : Array Nat} {ops : List WOp} (h : Zopfli.addDynamicTree lll dl = some ops) :
    Follows S (addDynamicTree S lll dl) ops () := by
  unfold Zopfli.addDynamicTree at h
  simp only [Option.bind_eq_bind, Option.bind_eq_some_iff, Prod.exists] at h
  obtain ⟨best, n, e1, e2⟩ := h
  unfold addDynamicTree
  exact Follows.lift (a := (best, n)) e1 (follows_encodeTree e2)

theorem follows_block [Checks] {bt : BlockType} {final : Bool} {data : Array UInt8} {s : Lz77Store} (hs : ∀ x ∈ s.litlens.toList, x.InRange) {a b : Nat}
    {ops : List WOp} (h : Zopfli.addLz77Block bt final data s a b = some ops) : Follows S (addLz77Block S bt final data s a b) ops () := by
  cases bt with
  | uncompressed =>
    unfold Zopfli.addLz77Block at h
    simp only [Option.bind_eq_bind, Option.bind_eq_some_iff] at h
    obtain ⟨n, e1, p, e2, e3⟩ := h
    unfold addLz77Block
    exact Follows.lift e1 (Follows.lift e2 (follows_nonCompressed e3))
  | fixed =>
    unfold Zopfli.addLz77Block at h
    simp only [Option.bind_eq_bind, Option.bind_eq_some_iff, Option.pure_def, Option.some.injEq] at h
    obtain ⟨os, e1, rfl⟩ := h
    unfold addLz77Block
    exact (follows_addBit final).bind ((follows_addBit true).bind ((follows_addBit false).bind (follows_blockData hs e1)))
  | dynamic =>
    unfold Zopfli.addLz77Block at h
    simp only [Option.bind_eq_bind, Option.bind_eq_some_iff, Option.pure_def, Option.some.injEq, Prod.exists] at h
    obtain ⟨c, lll, dl, e1, t, e2, os, e3, rfl⟩ := h
    unfold addLz77Block
    refine ((follows_addBit final).bind ((follows_addBit false).bind ((follows_addBit true).bind (Follows.lift e1
      ((follows_dynamicTree e2).bind (follows_blockData hs e3)))))).congr ?_
    simp only [List.cons_append, List.nil_append]

variable {F : FloatOps}

theorem inRange_of_parses {data : Array UInt8} : ∀ {xs : List LitLen} {start stop : Nat}, Parses data start xs stop → ∀ x ∈ xs, x.InRange
  | x :: xs, start, stop, h, y, hy => by
    rcases List.mem_cons.1 hy with rfl | hy
    · exact h.1.inRange
    · exact inRange_of_parses h.2 y hy

theorem follows_auto [Checks] (L : FloatLaws F) {data : Array UInt8} {start stop : Nat} {s : Lz77Store} (h : StoreOk data start stop s)
    (hstop : stop ≤ data.size) {k l : Nat} (hkl : k ≤ l) (hl : l ≤ s.size) {final : Bool} {ops : List WOp}
    (ho : Zopfli.addLz77BlockAutoType F final data s k l = some ops) : Follows S (addLz77BlockAutoType S F final data s k l) ops () := by
  have hs := inRange_of_parses h.parses
  have hr := h.rangeOk hkl hl
  unfold Zopfli.addLz77BlockAutoType at ho
  simp only [Option.bind_eq_bind, Option.bind_eq_some_iff] at ho
  obtain ⟨c1, e1, c2, e2, c3, e3, ho⟩ := ho
  unfold addLz77BlockAutoType
  refine Follows.lift e1 (Follows.lift e2 (Follows.lift e3 ?_))
  dsimp only
  by_cases hkl' : k = l
  · rw [if_pos hkl'] at ho ⊢
    cases ho
    exact ((follows_addBits _ (by omega)).bind ((follows_addBits _ (by omega)).bind (follows_addBits _ (by omega)))).congr
      (by simp only [List.append_assoc])
  · rw [if_neg hkl'] at ho ⊢
    simp only [Option.bind_eq_some_iff, Prod.exists] at ho
    obtain ⟨fs, c4, e4, ho⟩ := ho
    refine Follows.lift (a := (fs, c4)) (by simpa only [Option.bind_eq_bind] using e4) ?_
    dsimp only
    by_cases hst : F.le c1 c4 = true ∧ F.le c1 c3 = true
    · rw [if_pos hst] at ho ⊢
      exact follows_block hs ho
    · rw [if_neg hst] at ho ⊢
      by_cases hfx : F.le c4 c3 = true
      · rw [if_pos hfx] at ho ⊢
        by_cases hx : s.size < 1000 ∨ F.le c2 (F.mul c3 F.c11) = true
        · rw [if_pos hx] at ho ⊢
          rw [if_pos hx, hr.pos (by omega)] at e4
          have hb : bytePos start s l ≤ data.size := by
            have := h.bytePos_size
            have hp := h.rangeOk hl (Nat.le_refl _)
            have := hp.parses.le
            omega
          have hab := hr.parses.le
          obtain ⟨⟨fs', lmc⟩, ef, hf⟩ := lz77OptimalFixed_new L hab hb
          simp only [Option.bind_eq_some_iff, Option.some.injEq, exists_eq_left', hr.range, Prod.exists,
            show bytePos start s k + (bytePos start s l - bytePos start s k) = bytePos start s l by omega, ef, Prod.mk.injEq] at e4
          obtain ⟨a, b, ⟨rfl, rfl⟩, c, -, rfl, rfl⟩ := e4
          exact follows_block (inRange_of_parses hf.parses) ho
        · rw [if_neg hx] at ho ⊢
          exact follows_block hs ho
      · rw [if_neg hfx] at ho ⊢
        exact follows_block hs ho

theorem follows_split [Checks] (L : FloatLaws F) {data : Array UInt8} {start stop : Nat} {s : Lz77Store} (h : StoreOk data start stop s)
    (hstop : stop ≤ data.size) : ∀ (sp : List Nat) (last : Nat), sp.Pairwise (· < ·) → (∀ x ∈ sp, last < x ∧ x < s.size) → last ≤ s.size →
    ∀ r, Zopfli.addSplitBlocks F s data sp last = some r → Follows S (addSplitBlocks S F s data sp last) r.1 r.2 ∧ r.2 ≤ s.size
  | [], last, _, _, hl, r, hr => by
    cases hr
    exact ⟨Follows.pure _, hl⟩
  | item :: rest, last, h1, h2, hl, r, hr => by
    have hi := h2 item (by simp)
    rw [List.pairwise_cons] at h1
    rw [Zopfli.addSplitBlocks] at hr
    simp only [Option.bind_eq_bind, Option.bind_eq_some_iff, Prod.exists, Option.pure_def, Option.some.injEq] at hr
    obtain ⟨ops, e1, ops', last', e2, rfl⟩ := hr
    obtain ⟨g1, g2⟩ := follows_split L h hstop rest item h1.2 (fun x hx => ⟨h1.1 x hx, (h2 x (by simp [hx])).2⟩) (Nat.le_of_lt hi.2) _ e2
    rw [addSplitBlocks]
    exact ⟨(follows_auto L h hstop (Nat.le_of_lt hi.1) (Nat.le_of_lt hi.2) e1).bind g1, g2⟩

theorem follows_all [Checks] (L : FloatLaws F) {data : Array UInt8} {start stop : Nat} {s : Lz77Store} (h : StoreOk data start stop s)
    (hstop : stop ≤ data.size) {sp : List Nat} (hsp : SplitOk s.size sp) {final : Bool} {ops : List WOp}
    (ho : Zopfli.addAllBlocks F sp s final data = some ops) : Follows S (addAllBlocks S F sp s final data) ops () := by
  unfold Zopfli.addAllBlocks at ho
  simp only [Option.bind_eq_bind, Option.bind_eq_some_iff, Prod.exists, Option.pure_def, Option.some.injEq] at ho
  obtain ⟨ops1, last, e1, ops2, e2, rfl⟩ := ho
  obtain ⟨g1, g2⟩ := follows_split (S := S) L h hstop sp 0 hsp.1 hsp.2 (Nat.zero_le _) _ e1
  unfold addAllBlocks
  exact g1.bind (follows_auto L h hstop g2 (Nat.le_refl _) e2)

/-- `deflate_part` writes what it has been said to write, whatever the sink does. -/
theorem deflatePart_direct (c : Checks) (L : FloatLaws F) (options : Options) (btype : BlockType) (final : Bool) {data : Array UInt8} {instart inend : Nat}
    (h1 : instart ≤ inend) (h2 : inend ≤ data.size) (hsz : data.size < 2 * L.lim) (hc : c.on = true → inend - instart < 2 ^ 28 - 1) :
    ∃ ops, Zopfli.deflatePart F options btype final data instart inend = some ops ∧
      Follows S (deflatePart S F options btype final data instart inend) ops () := by
  have hrel : @Zopfli.deflatePart c F options btype final data instart inend = @Zopfli.deflatePart releaseBuild F options btype final data instart inend ∧
      @blocksplitPlan c F options data instart inend = @blocksplitPlan releaseBuild F options data instart inend := by
    obtain ⟨b⟩ := c
    cases b with
    | false => exact ⟨rfl, rfl⟩
    | true => exact ⟨deflatePart_eq _ L options btype final h1 h2 hsz (hc rfl), blocksplitPlan_eq _ L options h1 h2 hsz (hc rfl)⟩
  obtain ⟨ops, e, -⟩ := deflatePart_spec L options btype final h1 h2 hsz
  have e := hrel.1.trans e
  refine ⟨ops, e, ?_⟩
  cases btype with
  | uncompressed => exact follows_nonCompressed e
  | fixed =>
    unfold Zopfli.deflatePart at e
    simp only [Option.bind_eq_bind, Option.bind_eq_some_iff, Prod.exists] at e
    obtain ⟨n, e1, s, lmc, e2, e3⟩ := e
    obtain ⟨⟨s', lmc'⟩, ef, hf⟩ := lz77OptimalFixed_new L h1 h2
    rw [usub_eq h1] at e1
    cases e1
    rw [ef] at e2
    cases e2
    unfold deflatePart
    exact Follows.lift (usub_eq h1) (Follows.lift ef (follows_block (inRange_of_parses hf.parses) e3))
  | dynamic =>
    unfold Zopfli.deflatePart Zopfli.blocksplitAttempt at e
    simp only [Option.bind_eq_bind, Option.bind_eq_some_iff, Prod.exists] at e
    obtain ⟨s, sp, e1, e2⟩ := e
    obtain ⟨⟨s', sp'⟩, ep, g1, g2, -⟩ := blocksplitPlan_spec L options h1 h2 hsz
    have e3 := hrel.2.symm.trans e1
    rw [ep] at e3
    cases e3
    unfold deflatePart blocksplitAttempt
    exact Follows.lift e1 (follows_all L g1 h2 g2 e2)

end Direct
end Zopfli
