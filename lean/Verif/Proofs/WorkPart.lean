import Verif.Proofs.WorkSplit
import Verif.Proofs.Sizes
/-!
# The steps of a whole part
-/

namespace Zopfli
namespace Work

variable {F : FloatOps}

theorem usub_some {a b d : Nat} (h : usub a b = some d) : b ≤ a ∧ d = a - b := by
  unfold usub at h
  split at h
  · cases h
    exact ⟨‹_›, rfl⟩
  · cases h

theorem appendFold_size : ∀ (xs : List (LitLen × Nat)) (s s' : Lz77Store),
    xs.foldlM (fun s (x, p) => s.appendStoreItem x p) s = some s' → s'.size = s.size + xs.length
  | [], s, s', h => by cases h; rfl
  | (x, p) :: xs, s, s', h => by
    rw [List.foldlM_cons, Option.bind_eq_bind, Option.bind_eq_some_iff] at h
    obtain ⟨s1, h1, h⟩ := h
    have h2 := appendFold_size xs s1 s' h
    have h3 := append_size h1
    rw [List.length_cons]
    omega

theorem appendStore_size {s t s' : Lz77Store} (h : Zopfli.appendStore s t = some s') : s'.size ≤ s.size + t.size := by
  unfold Zopfli.appendStore at h
  have h1 := appendFold_size _ _ _ h
  have h2 : (t.litlens.toList.zip t.pos.toList).length ≤ t.litlens.toList.length := by
    rw [List.length_zip]
    omega
  have := t.size_eq
  omega

theorem appendStore_cost (s t : Lz77Store) :
    Cost (appendStore s t) (Zopfli.appendStore s t) fun r n => r.size ≤ s.size + t.size ∧ n = 322 * t.size :=
  Cost.tick (Cost.lift fun _ h => ⟨appendStore_size h, rfl⟩)

/-- Steps for a byte, in the optimiser. -/
def perByte (I : Nat) : Nat := max I 1 * 548014 + 274351

/-- Steps for a part, besides. -/
def perPart (I E : Nat) : Nat := max I 1 * (787044 + 6 * E) + 688130 + 4 * E

/-- Optimise a part and append it to the items. -/
theorem part_cost [Checks] (E : Nat) (options : Options) (inData : Array UInt8) (last item : Nat) (hle : last ≤ item) (lz77 : Lz77Store)
    (g : Nat → Bool) {β : Type} (kW : F.F64 → Lz77Store → Work β) (k : F.F64 → Lz77Store → Option β) (P : β → Nat → Prop)
    (hk : ∀ cost s t, s.size ≤ lz77.size + (item - last) → t + 1 ≤ perByte options.iterationCount * (item - last) + perPart options.iterationCount E →
      Cost (kW cost s) (k cost s) fun b t' => P b (t + t')) :
    Cost (do
        let cache ← newCache (item - last)
        let store ← lz77Optimal E F cache inData last item options.iterationCount options.iterationsWithoutImprovement
        let cost ← calculateBlockSizeAutoType E F store 0 store.size
        lift (guardR (g store.size))
        let s ← appendStore lz77 store
        kW cost s)
      (do
        let store ← Zopfli.lz77Optimal F (.lmc (.new (item - last))) inData last item options.iterationCount options.iterationsWithoutImprovement
        let cost ← Zopfli.calculateBlockSizeAutoType F store 0 store.size
        guardR (g store.size)
        let s ← Zopfli.appendStore lz77 store
        k cost s) P := by
  refine Cost.bindPure (newCache_cost _) fun t1 p1 => ?_
  refine Cost.bind (lz77Optimal_cost E F _ inData last item _ _ hle) fun store t2 _ p2 => ?_
  refine Cost.bind (autoType_cost ..) fun cost t3 _ p3 => Cost.liftBind fun _ _ => ?_
  refine Cost.bind (appendStore_cost ..) fun s t4 _ p4 => ?_
  refine (hk cost s (t1 + (t2 + (t3 + t4))) (by omega) ?_).mono fun b t' _ q => ?_
  · unfold perByte perPart
    generalize max options.iterationCount 1 = I at p2 ⊢
    have e1 : I * (548014 * (item - last) + 787044 + 6 * E) = I * 548014 * (item - last) + I * (787044 + 6 * E) := by
      rw [Nat.add_assoc, Nat.mul_add, Nat.mul_assoc]
    rw [e1] at p2
    rw [Nat.add_mul]
    generalize I * 548014 * (item - last) = x at p2 ⊢
    generalize I * (787044 + 6 * E) = y at p2 ⊢
    omega
  · rw [show t1 + (t2 + (t3 + (t4 + t'))) = t1 + (t2 + (t3 + t4)) + t' by omega]
    exact q

theorem mul_sub_add (A : Nat) {a b c : Nat} (h1 : a ≤ b) (h2 : b ≤ c) : A * (b - a) + A * (c - b) = A * (c - a) := by
  rw [← Nat.mul_add]
  congr 1
  omega

theorem optimizeParts_cost [Checks] (E : Nat) (options : Options) (inData : Array UInt8) :
    ∀ (items : List Nat) (lz77 : Lz77Store) (sp : List Nat) (tc : F.F64) (last : Nat),
    Cost (optimizeParts E F options inData items (lz77, sp, tc, last)) (Zopfli.optimizeParts F options inData items (lz77, sp, tc, last)) fun r t =>
      last ≤ r.2.2.2 ∧ r.1.size ≤ lz77.size + (r.2.2.2 - last) ∧
        t ≤ perByte options.iterationCount * (r.2.2.2 - last) + items.length * perPart options.iterationCount E
  | [], lz77, sp, tc, last => Cost.pure ⟨Nat.le_refl _, Nat.le_add_right _ _, Nat.zero_le _⟩
  | item :: rest, lz77, sp, tc, last => by
    unfold optimizeParts Zopfli.optimizeParts
    refine Cost.tick (Cost.liftBind fun n hn => ?_)
    obtain ⟨hle, hn⟩ := usub_some hn
    subst hn
    refine part_cost E options inData last item hle lz77 (fun n => decide (n > 0)) (fun cost s => optimizeParts E F options inData rest (s, sp ++ [s.size], F.add tc cost, item))
      (fun cost s => Zopfli.optimizeParts F options inData rest (s, sp ++ [s.size], F.add tc cost, item)) _ fun cost s t hs ht => ?_
    refine (optimizeParts_cost E options inData rest s _ _ item).mono fun r t' _ q => ?_
    obtain ⟨q1, q2, q3⟩ := q
    refine ⟨by omega, by omega, ?_⟩
    rw [← mul_sub_add _ hle q1, List.length_cons, Nat.add_mul, Nat.one_mul]
    omega

theorem totalCostOf_cost [Checks] (E : Nat) (lz77 : Lz77Store) : ∀ (sp : List Nat) (last : Nat) (acc : F.F64),
    Cost (totalCostOf E F lz77 sp last acc) (Zopfli.totalCostOf F lz77 sp last acc) fun _ t => t ≤ (sp.length + 1) * (3 * E + 1)
  | [], last, acc => by
    unfold totalCostOf Zopfli.totalCostOf
    refine Cost.bind (autoType_cost ..) fun c t _ p => Cost.pure ?_
    rw [List.length_nil]
    omega
  | item :: rest, last, acc => by
    unfold totalCostOf Zopfli.totalCostOf
    refine Cost.tick (Cost.bind (autoType_cost ..) fun c t _ p => ?_)
    refine (totalCostOf_cost E lz77 rest item _).mono fun _ t' _ q => ?_
    rw [List.length_cons, Nat.add_mul, Nat.one_mul]
    omega

/-- Steps for the search for split points, besides those for the items. -/
def perSplit (M E : Nat) : Nat := (2 * M + 1) * (6147 * E + 1025 + 18 * M)

theorem ret_get {α : Type} {o : Option α} {P : α → Prop} (h : Ret o P) {a : α} (ha : o = some a) : P a := by
  obtain ⟨b, e, p⟩ := h
  rw [ha] at e
  cases e
  exact p

theorem blocksplitPlan_cost (E : Nat) (options : Options) (inData : Array UInt8) (instart inend : Nat) (h1 : instart ≤ inend)
    (h2 : inend ≤ inData.size) (hn : inend - instart < 2 ^ 64) :
    Cost (blocksplitPlan E F options inData instart inend) (Zopfli.blocksplitPlan F options inData instart inend) fun _ t =>
      t ≤ (perByte options.iterationCount + 274007) * (inend - instart) + 393217 + 2 * perSplit options.maximumBlockSplits E +
        max 1 options.maximumBlockSplits * (perPart options.iterationCount E + 3 * E + 1) := by
  unfold blocksplitPlan Zopfli.blocksplitPlan
  refine Cost.bind (blocksplit_cost E inData instart inend options.maximumBlockSplits h1 hn) fun spu t1 hspu p1 => ?_
  have hlen := (ret_get (blocksplit_spec h1 h2 options.maximumBlockSplits) hspu).2.2
  refine Cost.bind (optimizeParts_cost E options inData spu Lz77Store.new [] (F.ofUsize 0) instart) fun r t2 _ p2 => ?_
  obtain ⟨lz77, sp, tc, last⟩ := r
  dsimp only at p2 ⊢
  obtain ⟨q1, q2, q3⟩ := p2
  have h0 : Lz77Store.new.size = 0 := rfl
  refine Cost.liftBind fun n hn' => ?_
  obtain ⟨hle, hn'⟩ := usub_some hn'
  subst hn'
  rw [show (2 * options.maximumBlockSplits + 1) * (6147 * E + 1025 + 18 * options.maximumBlockSplits) = perSplit options.maximumBlockSplits E from rfl] at p1
  generalize hS : perSplit options.maximumBlockSplits E = S at p1 ⊢
  generalize hM : max 1 options.maximumBlockSplits = M' at hlen ⊢
  generalize hA : perByte options.iterationCount = A at q3 ⊢
  generalize hB : perPart options.iterationCount E = B at q3 ⊢
  have hmul : (spu.length + 1) * B ≤ M' * B := Nat.mul_le_mul_right _ hlen
  rw [Nat.add_mul, Nat.one_mul] at hmul
  have hsplit := mul_sub_add A q1 hle
  have e1 : (A + 274007) * (inend - instart) = A * (inend - instart) + 274007 * (inend - instart) := Nat.add_mul ..
  have e2 : M' * (B + 3 * E + 1) = M' * B + M' * (3 * E + 1) := by rw [Nat.add_assoc, Nat.mul_add]
  rw [e1, e2]
  refine part_cost E options inData last inend hle lz77 (fun n => decide (instart = inend ∨ n > 0))
    (fun cost s => if spu.length > 1 then do
        let splitpoints2 ← blocksplitLz77 E F s options.maximumBlockSplits
        let totalcost2 ← totalCostOf E F s splitpoints2 0 (F.ofUsize 0)
        if F.lt totalcost2 (F.add tc cost) then return (s, splitpoints2) else return (s, sp)
      else return (s, sp))
    (fun cost s => if spu.length > 1 then do
        let splitpoints2 ← Zopfli.blocksplitLz77 F s options.maximumBlockSplits
        let totalcost2 ← Zopfli.totalCostOf F s splitpoints2 0 (F.ofUsize 0)
        if F.lt totalcost2 (F.add tc cost) then return (s, splitpoints2) else return (s, sp)
      else return (s, sp)) _ fun cost s t hs ht => ?_
  rw [hA, hB] at ht
  refine Cost.ite (fun _ => ?_) fun _ => Cost.pure (by omega)
  refine Cost.bind ((blocksplitLz77_cost E s options.maximumBlockSplits (by omega))) fun sp2 t3 _ p3 => ?_
  refine Cost.bind (totalCostOf_cost E s sp2 0 _) fun tc2 t4 _ p4 => ?_
  have p3' := p3.2
  rw [show (2 * options.maximumBlockSplits + 1) * (6147 * E + 1025 + 18 * options.maximumBlockSplits) = perSplit options.maximumBlockSplits E from rfl, hS] at p3'
  have p3l := p3.1
  rw [hM] at p3l
  have hmul2 : (sp2.length + 1) * (3 * E + 1) ≤ M' * (3 * E + 1) := Nat.mul_le_mul_right _ p3l
  refine Cost.ite (fun _ => Cost.pure ?_) fun _ => Cost.pure ?_ <;> omega

/-! ## Emission -/

theorem slice_size' {α : Type} {x d : Array α} {a b : Nat} (h : slice x a b = some d) : d.size = b - a := by
  unfold slice at h
  split at h
  · cases h
    rw [Array.size_extract]
    omega
  · cases h

theorem addNonCompressedBlock_cost (final : Bool) (inData : Array UInt8) (a b : Nat) :
    Cost (addNonCompressedBlock final inData a b) (Zopfli.addNonCompressedBlock final inData a b) fun _ t => t ≤ 2 * (b - a) + 8 := by
  refine ⟨fun ops h => ?_⟩
  have h' := h
  unfold Zopfli.addNonCompressedBlock at h'
  rw [Option.bind_eq_bind, Option.bind_eq_some_iff] at h'
  obtain ⟨d, hd, -⟩ := h'
  have hc : Cost (addNonCompressedBlock final inData a b) (slice inData a b >>= fun _ => Zopfli.addNonCompressedBlock final inData a b)
      fun _ t => t ≤ 2 * (b - a) + 8 := by
    unfold addNonCompressedBlock
    refine Cost.liftBind fun d hd => ?_
    have := slice_size' hd
    exact Cost.tick (Cost.lift fun _ _ => by omega)
  exact hc.get ops (by rw [hd]; exact h)

theorem parses_length {data : Array UInt8} : ∀ {xs : List LitLen} {a b : Nat}, Parses data a xs b → xs.length ≤ b - a
  | [], a, b, h => Nat.zero_le _
  | x :: xs, a, b, h => by
    have h1 := LitLen.size_pos h.1
    have h2 := parses_length h.2
    have h3 := h.2.le
    rw [List.length_cons]
    omega

theorem fixed_lensOk : LensOk fixedTree.1 fixedTree.2 :=
  ⟨fixed_sizes.1, fixed_sizes.2, fun i h => (fixed_ll_ne i h).2, fun i h => (fixed_d_ne i h).2⟩

theorem addLz77Block_cost (E : Nat) (btype : BlockType) (final : Bool) {data : Array UInt8} {a b : Nat} {s : Lz77Store} {k l : Nat}
    (hr : RangeOk data a b s k l) (hkl : k < l ∨ btype = .fixed) :
    Cost (addLz77Block E btype final data s k l) (Zopfli.addLz77Block btype final data s k l) fun _ t => t ≤ 18 * (b - a) + 2 * E + 5024 := by
  have hlen := parses_length hr.parses
  rw [List.length_drop, List.length_take, ← Lz77Store.size_eq, Nat.min_eq_left hr.le'] at hlen
  have hrange : ∀ x ∈ (s.litlens.toList.take l).drop k, x.InRange := fun x hx => hr.inv.range x (List.mem_of_mem_take (List.mem_of_mem_drop hx))
  have hstop := hr.parses.stop
  cases btype with
  | uncompressed =>
    unfold addLz77Block Zopfli.addLz77Block
    refine Cost.liftBind fun length hl => Cost.liftBind fun pos hp => ?_
    rw [hr.range] at hl
    cases hl
    refine (addNonCompressedBlock_cost ..).mono fun _ t _ p => by omega
  | fixed =>
    obtain ⟨bits, e, hb, -⟩ := addLz77Block_fixed hr final
    have := dataCost_le fixed_lensOk _ hrange
    have hl : (bitOps bits).length = bits.length := by simp [bitOps]
    unfold addLz77Block
    dsimp only
    rw [e]
    refine Cost.tick (Cost.bindPure (P := fun _ t => t = 0) (Cost.lift fun _ _ => rfl) fun t p => Cost.tick (Cost.pure ?_))
    omega
  | dynamic =>
    obtain ⟨bits, hdr, ll, d, e, ⟨t, ht, hb, hg⟩, -⟩ := addLz77Block_dynamic hr (by simpa using hkl) final
    have hls : LensOk ll d := (ret_get (getDynamicLengths_spec hr.inv hr.le hr.le') hg).1
    have := dataCost_le hls _ hrange
    have := calculateTreeSize_le hls ht
    have hl : (bitOps bits).length = bits.length := by simp [bitOps]
    unfold addLz77Block
    dsimp only
    rw [e]
    refine Cost.tick (Cost.bindPure (P := fun _ t => t = 0) (Cost.lift fun _ _ => rfl) fun t p => Cost.tick (Cost.pure ?_))
    omega

/-- The steps to write one block. -/
theorem addLz77BlockAutoType_cost (L : FloatLaws F) (E : Nat) (final : Bool) {data : Array UInt8} {start stop : Nat} {s : Lz77Store}
    (h : StoreOk data start stop s) (hstop : stop ≤ data.size) {k l : Nat} (hkl : k ≤ l) (hl : l ≤ s.size) :
    Cost (addLz77BlockAutoType E F final data s k l) (Zopfli.addLz77BlockAutoType F final data s k l) fun _ t =>
      t ≤ 548051 * (bytePos start s l - bytePos start s k) + (6 * E + 1086659) := by
  have hr := h.rangeOk hkl hl
  have hsz (bt : BlockType) (s : Lz77Store) (k l : Nat) : Cost (calculateBlockSize E F s k l bt) (Zopfli.calculateBlockSize F s k l bt) fun _ t => t = E :=
    Cost.tick (Cost.lift fun _ _ => rfl)
  unfold addLz77BlockAutoType Zopfli.addLz77BlockAutoType
  refine Cost.bind (hsz ..) fun c1 t1 _ p1 => Cost.bind (hsz ..) fun c2 t2 _ p2 => Cost.bind (hsz ..) fun c3 t3 _ p3 => ?_
  dsimp only
  refine Cost.ite (fun _ => Cost.tick (Cost.pure (by omega))) fun hne => ?_
  have hb : bytePos start s l ≤ data.size := by
    have := h.bytePos_size
    have hp := h.rangeOk hl (Nat.le_refl _)
    have := hp.parses.le
    omega
  have hab := hr.parses.le
  generalize hn : bytePos start s l - bytePos start s k = n at *
  by_cases hx : s.size < 1000 ∨ F.le c2 (F.mul c3 F.c11) = true
  · rw [if_pos hx, if_pos hx]
    refine Cost.bind (P := fun x t => StoreOk data (bytePos start s k) (bytePos start s l) x.1 ∧ t ≤ 548033 * n + 1081635 + E) ?_ fun x t4 _ p4 => ?_
    · refine Cost.liftBind fun instart hi => ?_
      rw [hr.pos (by omega)] at hi
      cases hi
      refine Cost.liftBind fun length hlen => ?_
      rw [hr.range] at hlen
      cases hlen
      rw [show bytePos start s k + (bytePos start s l - bytePos start s k) = bytePos start s l by omega]
      refine Cost.bindPure (newCache_cost _) fun t5 p5 => ?_
      obtain ⟨⟨fs, lmc⟩, ef, hf⟩ := lz77OptimalFixed_new L hab hb
      refine Cost.bind (fixed_cost F _ data _ _ _) fun r t6 hr6 p6 => ?_
      rw [ef] at hr6
      cases hr6
      dsimp only at hf ⊢
      exact Cost.bind (hsz ..) fun c4 t7 _ p7 => Cost.pure ⟨hf, by omega⟩
    · obtain ⟨fs, c4⟩ := x
      dsimp only at p4 ⊢
      have hfr := p4.1.rangeOk (Nat.zero_le _) (Nat.le_refl fs.size)
      rw [bytePos_zero, p4.1.bytePos_size] at hfr
      have p4 := p4.2
      refine Cost.ite (fun _ => ?_) fun _ => Cost.ite (fun _ => ?_) fun _ => ?_
      · refine (addLz77Block_cost E .uncompressed final hr (.inl (by omega))).mono fun _ t _ p => by omega
      · rw [if_pos hx, if_pos hx]
        refine (addLz77Block_cost E .fixed final hfr (.inr rfl)).mono fun _ t _ p => by omega
      · refine (addLz77Block_cost E .dynamic final hr (.inl (by omega))).mono fun _ t _ p => by omega
  · rw [if_neg hx, if_neg hx]
    refine Cost.bindPure (P := fun _ t => t = 0) (Cost.pure rfl) fun t4 p4 => ?_
    dsimp only
    refine Cost.ite (fun _ => ?_) fun _ => Cost.ite (fun _ => ?_) fun _ => ?_
    · refine (addLz77Block_cost E .uncompressed final hr (.inl (by omega))).mono fun _ t _ p => by omega
    · rw [if_neg hx, if_neg hx]
      refine (addLz77Block_cost E .fixed final hr (.inl (by omega))).mono fun _ t _ p => by omega
    · refine (addLz77Block_cost E .dynamic final hr (.inl (by omega))).mono fun _ t _ p => by omega

theorem bytePos_mono (start : Nat) (s : Lz77Store) {data : Array UInt8} {stop : Nat} (h : StoreOk data start stop s) {k l : Nat} (hkl : k ≤ l)
    (hl : l ≤ s.size) : bytePos start s k ≤ bytePos start s l := (h.rangeOk hkl hl).parses.le

theorem addSplitBlocks_cost (L : FloatLaws F) (E : Nat) {data : Array UInt8} {start stop : Nat} {s : Lz77Store} (h : StoreOk data start stop s)
    (hstop : stop ≤ data.size) : ∀ (sp : List Nat) (last : Nat), sp.Pairwise (· < ·) → (∀ x ∈ sp, last < x ∧ x < s.size) → last ≤ s.size →
    Cost (addSplitBlocks E F s data sp last) (Zopfli.addSplitBlocks F s data sp last) fun r t => last ≤ r.2 ∧ r.2 ≤ s.size ∧
      t ≤ 548051 * (bytePos start s r.2 - bytePos start s last) + sp.length * (6 * E + 1086660)
  | [], last, _, _, hl => Cost.pure ⟨Nat.le_refl _, hl, Nat.zero_le _⟩
  | item :: rest, last, h1, h2, hl => by
    have hi := h2 item (by simp)
    rw [List.pairwise_cons] at h1
    unfold addSplitBlocks Zopfli.addSplitBlocks
    refine Cost.tick (Cost.bind (addLz77BlockAutoType_cost L E false h hstop (Nat.le_of_lt hi.1) (Nat.le_of_lt hi.2)) fun ops t1 _ p1 => ?_)
    refine Cost.bind (addSplitBlocks_cost L E h hstop rest item h1.2 (fun x hx => ⟨h1.1 x hx, (h2 x (by simp [hx])).2⟩) (Nat.le_of_lt hi.2))
      fun r t2 _ p2 => Cost.pure ?_
    obtain ⟨ops', last'⟩ := r
    dsimp only at p2 ⊢
    have m1 := bytePos_mono start s h (Nat.le_of_lt hi.1) (Nat.le_of_lt hi.2)
    have m2 := bytePos_mono start s h p2.1 p2.2.1
    rw [List.length_cons, Nat.add_mul, Nat.one_mul]
    exact ⟨by omega, p2.2.1, by omega⟩

theorem addAllBlocks_cost (L : FloatLaws F) (E : Nat) {data : Array UInt8} {start stop : Nat} {s : Lz77Store} (h : StoreOk data start stop s)
    (hstop : stop ≤ data.size) {sp : List Nat} (hsp : SplitOk s.size sp) (final : Bool) :
    Cost (addAllBlocks E F sp s final data) (Zopfli.addAllBlocks F sp s final data) fun _ t =>
      t ≤ 548051 * (stop - start) + (sp.length + 1) * (6 * E + 1086660) := by
  unfold addAllBlocks Zopfli.addAllBlocks
  refine Cost.bind (addSplitBlocks_cost L E h hstop sp 0 hsp.1 hsp.2 (Nat.zero_le _)) fun r t1 _ p1 => ?_
  obtain ⟨ops, last⟩ := r
  dsimp only at p1 ⊢
  refine Cost.bind (addLz77BlockAutoType_cost L E final h hstop p1.2.1 (Nat.le_refl _)) fun ops' t2 _ p2 => Cost.pure ?_
  have m1 := bytePos_mono start s h p1.1 p1.2.1
  have m2 := bytePos_mono start s h p1.2.1 (Nat.le_refl _)
  rw [bytePos_zero] at p1 m1
  rw [h.bytePos_size] at p2 m2
  rw [Nat.add_mul, Nat.one_mul]
  omega

/-- The steps for each byte of a part. -/
def stepsPerByte (I : Nat) : Nat := 548014 * max I 1 + 1096409

/-- The steps for each part, besides: it depends on the options only, and on the steps taken for one operation on the tables of symbols. -/
def stepsPerPart (I M E : Nat) : Nat :=
  393217 + 2 * ((2 * M + 1) * (6147 * E + 1025 + 18 * M)) + max 1 M * (max I 1 * (787044 + 6 * E) + 1774791 + 13 * E)

theorem deflatePart_cost (L : FloatLaws F) (E : Nat) (options : Options) (btype : BlockType) (final : Bool) {data : Array UInt8} {instart inend : Nat}
    (h1 : instart ≤ inend) (h2 : inend ≤ data.size) (hsz : data.size < 2 * L.lim) (hn : inend - instart < 2 ^ 64) :
    Cost (deflatePart E F options btype final data instart inend) (Zopfli.deflatePart F options btype final data instart inend) fun _ t =>
      t ≤ stepsPerByte options.iterationCount * (inend - instart) + stepsPerPart options.iterationCount options.maximumBlockSplits E := by
  unfold stepsPerByte stepsPerPart
  have hI : 1 ≤ max options.iterationCount 1 := Nat.le_max_right _ _
  have hM : 1 ≤ max 1 options.maximumBlockSplits := Nat.le_max_left _ _
  generalize hIe : max options.iterationCount 1 = I at hI
  generalize hMe : max 1 options.maximumBlockSplits = M' at hM
  have hI1 : 787044 + 6 * E ≤ I * (787044 + 6 * E) := Nat.le_mul_of_pos_left _ hI
  have hM1 : I * (787044 + 6 * E) + 1774791 + 13 * E ≤ M' * (I * (787044 + 6 * E) + 1774791 + 13 * E) := Nat.le_mul_of_pos_left _ hM
  have hn1 : (inend - instart) ≤ I * (inend - instart) := Nat.le_mul_of_pos_left _ hI
  rw [Nat.add_mul, Nat.mul_assoc]
  unfold deflatePart Zopfli.deflatePart
  cases btype with
  | uncompressed =>
    refine (addNonCompressedBlock_cost ..).mono fun _ t _ p => ?_
    omega
  | fixed =>
    refine Cost.liftBind fun n hn' => ?_
    obtain ⟨-, hn'⟩ := usub_some hn'
    subst hn'
    refine Cost.bindPure (newCache_cost _) fun t1 p1 => ?_
    refine Cost.bind (fixed_cost F _ data _ _ _) fun r t2 hr p2 => ?_
    obtain ⟨s, lmc⟩ := r
    have hs := ret_get (lz77OptimalFixed_new L h1 h2) hr
    dsimp only at p2 hs ⊢
    have hr := hs.rangeOk (Nat.zero_le _) (Nat.le_refl s.size)
    rw [bytePos_zero, hs.bytePos_size] at hr
    refine (addLz77Block_cost E .fixed final hr (.inr rfl)).mono fun _ t _ p => by omega
  | dynamic =>
    unfold blocksplitAttempt Zopfli.blocksplitAttempt
    refine Cost.bind (blocksplitPlan_cost E options data instart inend h1 h2 hn) fun r t1 hr p1 => ?_
    obtain ⟨s, sp⟩ := r
    obtain ⟨g1, g2, g3⟩ := ret_get (blocksplitPlan_spec L options h1 h2 hsz) hr
    dsimp only at g1 g2 g3 ⊢
    refine (addAllBlocks_cost L E g1 h2 g2 final).mono fun _ t2 _ p2 => ?_
    rw [hMe] at g3
    unfold perByte perPart perSplit at p1
    rw [hIe, hMe] at p1
    have k1 : (sp.length + 1) * (6 * E + 1086660) ≤ M' * (6 * E + 1086660) := Nat.mul_le_mul_right _ g3
    have e1 : (I * 548014 + 274351 + 274007) * (inend - instart) = 548014 * (I * (inend - instart)) + 548358 * (inend - instart) := by
      rw [Nat.add_assoc, Nat.add_mul, Nat.mul_comm I, Nat.mul_assoc]
    have e2 : M' * (I * (787044 + 6 * E) + 688130 + 4 * E + 3 * E + 1) + M' * (6 * E + 1086660) = M' * (I * (787044 + 6 * E) + 1774791 + 13 * E) := by
      rw [← Nat.mul_add]
      congr 1
      omega
    rw [e1] at p1
    rw [← e2]
    omega

end Work
end Zopfli
