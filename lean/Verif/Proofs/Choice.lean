import Verif.Proofs.Estimate
/-! # The choice between two divisions into blocks -/

namespace Zopfli
open Rfc

variable {F : FloatOps}

theorem StoreOk.costs (X : FloatExact F) {data : Array UInt8} {start stop : Nat} {s : Lz77Store} (h : StoreOk data start stop s) (hsz : stop - start < 2 ^ 28)
    {a b : Nat} (hab : a < b) (hb : b ≤ s.size) :
    calculateBlockSizeAutoType F s a b = some (F.ofUsize (predictedBits (decide (s.size ≤ 1000)) (itemsBetween s.litlens.toList a b))) ∧
      predictedBits (decide (s.size ≤ 1000)) (itemsBetween s.litlens.toList a b) ≤ 48 * (bytePos start s b - bytePos start s a) ∧
      bytePos start s b - bytePos start s a < 2 ^ 28 := by
  have hr := h.rangeOk (Nat.le_of_lt hab) hb
  have h1 := bytePos_le h hb
  have h2 : start ≤ bytePos start s a := by unfold bytePos; omega
  have h3 := autoType_predicted X hr hab (by omega)
  exact ⟨h3.1, h3.2, by omega⟩

theorem StoreOk.costsOk (X : FloatExact F) {data : Array UInt8} {start stop : Nat} {s : Lz77Store} (h : StoreOk data start stop s) (hsz : stop - start < 2 ^ 28) :
    CostsOk F (fun a b => predictedBits (decide (s.size ≤ 1000)) (itemsBetween s.litlens.toList a b)) s := by
  intro a b hab hb
  obtain ⟨h1, h2, h3⟩ := h.costs X hsz hab hb
  refine ⟨h1, ?_⟩
  dsimp only
  omega

theorem StoreOk.whole (X : FloatExact F) {data : Array UInt8} {start stop : Nat} {s : Lz77Store} (h : StoreOk data start stop s) (hsz : stop - start < 2 ^ 28)
    (hlt : start < stop) :
    calculateBlockSizeAutoType F s 0 s.size = some (F.ofUsize (predictedBits (decide (s.litlens.toList.length ≤ 1000)) s.litlens.toList)) ∧
      predictedBits (decide (s.litlens.toList.length ≤ 1000)) s.litlens.toList ≤ 48 * (stop - start) := by
  obtain ⟨e, k1, k2⟩ := h.costs X hsz (h.size_pos hlt) (Nat.le_refl _)
  rw [bytePos_zero, h.bytePos_size] at k1
  have hall : itemsBetween s.litlens.toList 0 s.size = s.litlens.toList := by
    unfold itemsBetween
    rw [Lz77Store.size_eq, List.take_length, List.drop_zero]
  rw [hall] at e k1
  rw [← Lz77Store.size_eq]
  exact ⟨e, k1⟩

/-! ## The second division -/

theorem totalCostOf_eq (X : FloatExact F) {data : Array UInt8} {start stop : Nat} {s : Lz77Store} (h : StoreOk data start stop s) (hsz : stop - start < 2 ^ 28) :
    ∀ (sp : List Nat) (last acc : Nat), sp.Pairwise (· < ·) → (∀ x ∈ sp, last < x ∧ x < s.size) → last < s.size →
      acc ≤ 48 * (bytePos start s last - start) →
      totalCostOf F s sp last (F.ofUsize acc) = some (F.ofUsize (acc + totalPredicted (fun _ => decide (s.size ≤ 1000)) (blocksOf s.litlens.toList last sp))) ∧
      acc + totalPredicted (fun _ => decide (s.size ≤ 1000)) (blocksOf s.litlens.toList last sp) ≤ 48 * (stop - start)
  | [], last, acc, _, _, h3, h4 => by
    obtain ⟨e, k1, k2⟩ := h.costs X hsz h3 (Nat.le_refl _)
    have h5 := h.bytePos_size
    have hb : itemsBetween s.litlens.toList last s.size = s.litlens.toList.drop last := by
      unfold itemsBetween
      rw [Lz77Store.size_eq, List.take_length]
    rw [hb] at e k1
    have hle := bytePos_le h (Nat.le_of_lt h3)
    have h2 : start ≤ bytePos start s last := by unfold bytePos; omega
    have htot : totalPredicted (fun _ => decide (s.size ≤ 1000)) (blocksOf s.litlens.toList last []) =
        predictedBits (decide (s.size ≤ 1000)) (s.litlens.toList.drop last) := by
      simp [totalPredicted, blocksOf]
    rw [totalCostOf, e, some_bind, htot]
    refine ⟨?_, by omega⟩
    show some _ = some _
    rw [X.add _ _ (by omega)]
  | item :: rest, last, acc, h1, h2, h3, h4 => by
    have hi := h2 item (by simp)
    rw [List.pairwise_cons] at h1
    obtain ⟨e, k1, k2⟩ := h.costs X hsz hi.1 (Nat.le_of_lt hi.2)
    have g1 := bytePos_lt h hi.1 (Nat.le_of_lt hi.2)
    have g2 : start ≤ bytePos start s last := by unfold bytePos; omega
    have g3 := bytePos_le h (Nat.le_of_lt hi.2)
    rw [totalCostOf, e, some_bind, X.add _ _ (by omega)]
    have := totalCostOf_eq X h hsz rest item (acc + predictedBits (decide (s.size ≤ 1000)) (itemsBetween s.litlens.toList last item)) h1.2
      (fun x hx => ⟨h1.1 x hx, (h2 x (by simp [hx])).2⟩) hi.2 (by omega)
    have htot : totalPredicted (fun _ => decide (s.size ≤ 1000)) (blocksOf s.litlens.toList last (item :: rest)) =
        predictedBits (decide (s.size ≤ 1000)) (itemsBetween s.litlens.toList last item) +
        totalPredicted (fun _ => decide (s.size ≤ 1000)) (blocksOf s.litlens.toList item rest) := by
      simp [totalPredicted, blocksOf]
    rw [htot, ← Nat.add_assoc]
    exact this

/-! ## The first division -/

/-- The number of items after each part. -/
def ends : Nat → List (List LitLen) → List Nat
  | _, [] => []
  | n, p :: ps => (n + p.length) :: ends (n + p.length) ps

theorem blocksOf_ends : ∀ (parts : List (List LitLen)) (pre lastPart : List LitLen),
    blocksOf (pre ++ (parts.flatten ++ lastPart)) pre.length (ends pre.length parts) = parts ++ [lastPart]
  | [], pre, lastPart => by simp [ends, blocksOf]
  | p :: ps, pre, lastPart => by
    have := blocksOf_ends ps (pre ++ p) lastPart
    rw [List.length_append] at this
    simp only [ends, blocksOf, List.flatten_cons, List.append_assoc] at this ⊢
    rw [this]
    congr 1
    unfold itemsBetween
    rw [← List.append_assoc, List.take_left' (by simp), List.drop_left' rfl]

/-- The parts before the last one. -/
def HeadParts (F : FloatOps) (o : Options) (data : Array UInt8) : (start : Nat) → (cuts : List Nat) → (parts : List (List LitLen)) → Prop
  | _, [], parts => parts = []
  | start, c :: cuts, parts => ∃ s rest, lz77Optimal F (.lmc (.new (c - start))) data start c o.iterationCount o.iterationsWithoutImprovement = some s ∧
      parts = s.litlens.toList :: rest ∧ HeadParts F o data c cuts rest

theorem HeadParts.optimal {o : Options} {data : Array UInt8} {stop : Nat} : ∀ {cuts : List Nat} {start : Nat} {parts : List (List LitLen)},
    HeadParts F o data start cuts parts → ∀ {s : Lz77Store}, lz77Optimal F (.lmc (.new (stop - (cuts.getLast?.getD start)))) data (cuts.getLast?.getD start) stop
      o.iterationCount o.iterationsWithoutImprovement = some s → OptimalParts F o data stop start cuts (parts ++ [s.litlens.toList])
  | [], _, _, h, s, e => ⟨s, e, by rw [show _ = _ from h]; rfl⟩
  | c :: cuts, start, parts, ⟨s', rest, e1, e2, h⟩, s, e => by
    refine ⟨s', rest ++ [s.litlens.toList], e1, by rw [e2]; rfl, h.optimal ?_⟩
    rw [List.getLast?_cons] at e
    exact e

theorem optimizeParts_parts (L : FloatLaws F) (X : FloatExact F) (o : Options) {data : Array UInt8} {instart inend : Nat} (h2 : inend ≤ data.size)
    (hsz : data.size < 2 * L.lim) (hlen : inend - instart < 2 ^ 28) : ∀ (items : List Nat) (lz77 : Lz77Store) (sp : List Nat) (tc last : Nat),
    items.Pairwise (· < ·) → (∀ x ∈ items, last < x ∧ x < inend) → instart ≤ last → StoreOk data instart last lz77 → tc ≤ 48 * (last - instart) →
    Ret (optimizeParts F o data items (lz77, sp, F.ofUsize tc, last)) fun r => ∃ parts, HeadParts F o data last items parts ∧
      r.1.litlens.toList = lz77.litlens.toList ++ parts.flatten ∧ r.2.1 = sp ++ ends lz77.size parts ∧
      r.2.2.1 = F.ofUsize (tc + totalPredicted (fun p => decide (p.length ≤ 1000)) parts) ∧ r.2.2.2 = items.getLast?.getD last ∧
      tc + totalPredicted (fun p => decide (p.length ≤ 1000)) parts ≤ 48 * (r.2.2.2 - instart) ∧ parts.length = items.length ∧ StoreOk data instart r.2.2.2 r.1
  | [], lz77, sp, tc, last, h3, h4, h4', h5, h6 => ⟨_, rfl, [], rfl, by simp, by simp [ends], by simp [totalPredicted], by simp, by simpa [totalPredicted] using h6, rfl, h5⟩
  | item :: rest, lz77, sp, tc, last, h3, h4, h4', h5, h6 => by
    have hi := h4 item (by simp)
    rw [List.pairwise_cons] at h3
    rw [optimizeParts, usub_eq (by omega), some_bind]
    obtain ⟨store, es, hst⟩ := lz77Optimal_new L (Nat.le_of_lt hi.1) (by omega : item ≤ data.size) hsz o.iterationCount o.iterationsWithoutImprovement
    rw [es, some_bind]
    have hpos := hst.size_pos hi.1
    obtain ⟨e, k1⟩ := hst.whole X (by omega) hi.1
    rw [e, some_bind, guardR_eq (by simp only [decide_eq_true_eq]; exact hpos), some_bind, X.add _ _ (by omega)]
    obtain ⟨s', es', g1, g2⟩ := appendStore_spec h5 hst
    rw [es', some_bind]
    have hsize : s'.size = lz77.size + store.litlens.toList.length := by
      rw [Lz77Store.size_eq, Lz77Store.size_eq, g2, List.length_append]
    refine Ret.mono (optimizeParts_parts L X o h2 hsz hlen rest s' (sp ++ [s'.size]) _ item h3.2 (fun x hx => ⟨h3.1 x hx, (h4 x (by simp [hx])).2⟩)
      (by omega) g1 (by omega)) ?_
    rintro ⟨a, b, c, d⟩ ⟨parts, p1, p2, p3, p4, p5, p6, p7, p8⟩
    dsimp only at p2 p3 p4 p5 p6 p7 p8
    have htot : totalPredicted (fun p => decide (p.length ≤ 1000)) (store.litlens.toList :: parts) =
        predictedBits (decide (store.litlens.toList.length ≤ 1000)) store.litlens.toList + totalPredicted (fun p => decide (p.length ≤ 1000)) parts := by
      simp [totalPredicted]
    refine ⟨store.litlens.toList :: parts, ⟨store, parts, es, rfl, p1⟩, ?_, ?_, ?_, ?_, ?_, by simp [p7], p8⟩
    · dsimp only
      rw [p2, g2, List.flatten_cons, List.append_assoc]
    · dsimp only
      rw [p3, ends, hsize, List.append_assoc]
      rfl
    · dsimp only
      rw [p4, htot, Nat.add_assoc]
    · dsimp only
      rw [p5, List.getLast?_cons]
      rfl
    · dsimp only
      rw [htot]
      omega

/-- The plan. -/
theorem blocksplitPlan_choice (L : FloatLaws F) (X : FloatExact F) (o : Options) {data : Array UInt8} {instart inend : Nat} (h1 : instart < inend)
    (h2 : inend ≤ data.size) (hsz : data.size < 2 * L.lim) (hlen : inend - instart < 2 ^ 28) :
    Ret (blocksplitPlan F o data instart inend) fun r => ∃ cuts parts, blocksplit F data instart inend o.maximumBlockSplits = some cuts ∧
      OptimalParts F o data inend instart cuts parts ∧ parts.length = cuts.length + 1 ∧ r.1.litlens.toList = parts.flatten ∧
      (cuts.length ≤ 1 → blocksOf r.1.litlens.toList 0 r.2 = parts) ∧
      (1 < cuts.length → ∃ sp2, blocksplitLz77 F r.1 o.maximumBlockSplits = some sp2 ∧ blocksOf r.1.litlens.toList 0 r.2 =
        if totalPredicted (fun _ => decide (parts.flatten.length ≤ 1000)) (blocksOf parts.flatten 0 sp2) < totalPredicted (fun p => decide (p.length ≤ 1000)) parts
        then blocksOf parts.flatten 0 sp2 else parts) := by
  unfold blocksplitPlan
  obtain ⟨cuts, ec, a1, a2, a3⟩ := blocksplit_spec (F := F) (Nat.le_of_lt h1) h2 o.maximumBlockSplits
  rw [ec, some_bind]
  refine Ret.bind' (optimizeParts_parts L X o h2 hsz hlen cuts Lz77Store.new [] 0 instart a1 a2 (Nat.le_refl _) (StoreOk.new _ _) (Nat.zero_le _)) ?_
  rintro ⟨lz77, sp, tc, last⟩ ⟨heads, p1, p2, p3, p4, p5, p6, p7, p8⟩
  dsimp only at p2 p3 p4 p5 p6 p7 p8 ⊢
  have hlast : instart ≤ last ∧ last < inend := by
    rw [p5]
    cases hc : cuts.getLast? with
    | none => exact ⟨Nat.le_refl _, h1⟩
    | some c =>
      have := a2 c (List.mem_of_getLast? hc)
      exact ⟨by simp only [Option.getD_some]; omega, by simp only [Option.getD_some]; omega⟩
  rw [usub_eq (by omega), some_bind]
  obtain ⟨store, es, hst⟩ := lz77Optimal_new L (Nat.le_of_lt hlast.2) h2 hsz o.iterationCount o.iterationsWithoutImprovement
  rw [es, some_bind]
  have hpos := hst.size_pos hlast.2
  obtain ⟨e, k1⟩ := hst.whole X (by omega) hlast.2
  rw [e, some_bind, guardR_eq (by simp only [decide_eq_true_eq]; exact .inr hpos), some_bind, p4, Nat.zero_add, X.add _ _ (by omega)]
  obtain ⟨s', es', g1, g2⟩ := appendStore_spec p8 hst
  rw [es', some_bind]
  have hflat : s'.litlens.toList = (heads ++ [store.litlens.toList]).flatten := by
    rw [g2, p2]
    simp [Lz77Store.new]
  have hfirst : blocksOf s'.litlens.toList 0 sp = heads ++ [store.litlens.toList] := by
    have := blocksOf_ends heads [] store.litlens.toList
    rw [hflat, p3]
    simpa [Lz77Store.new, Lz77Store.size] using this
  have hopt : OptimalParts F o data inend instart cuts (heads ++ [store.litlens.toList]) := p1.optimal (by rw [← p5]; exact es)
  have htot : totalPredicted (fun p => decide (p.length ≤ 1000)) (heads ++ [store.litlens.toList]) =
      totalPredicted (fun p => decide (p.length ≤ 1000)) heads + predictedBits (decide (store.litlens.toList.length ≤ 1000)) store.litlens.toList := by
    simp [totalPredicted]
  have hlen' : (heads ++ [store.litlens.toList]).length = cuts.length + 1 := by simp [p7]
  have hspos := g1.size_pos h1
  split
  · rename_i hgt
    obtain ⟨sp2, e2, q1, q2⟩ := blocksplitLz77_spec (F := F) g1.inv o.maximumBlockSplits
    rw [e2, some_bind]
    obtain ⟨t1, t2⟩ := totalCostOf_eq X g1 hlen sp2 0 0 q1.1 q1.2 hspos (Nat.zero_le _)
    rw [t1, some_bind, Nat.zero_add, X.lt _ _ (by omega) (by omega), ← htot]
    rw [Lz77Store.size_eq, hflat] 
    split
    · rename_i hc
      have hc := of_decide_eq_true hc
      refine ⟨_, rfl, cuts, _, rfl, hopt, hlen', hflat, fun hh => by omega, fun _ => ⟨sp2, e2, ?_⟩⟩
      rw [if_pos hc, ← hflat]
    · rename_i hc
      have hc := fun hh => hc (decide_eq_true hh)
      refine ⟨_, rfl, cuts, _, rfl, hopt, hlen', hflat, fun hh => by omega, fun _ => ⟨sp2, e2, ?_⟩⟩
      rw [if_neg hc, hfirst]
  · rename_i hgt
    exact ⟨_, rfl, cuts, _, rfl, hopt, hlen', hflat, fun _ => hfirst, fun hh => absurd hh hgt⟩

/-! ## The bits written -/

theorem autoType_bits (L : FloatLaws F) (X : FloatExact F) {data : Array UInt8} {start stop : Nat} {s : Lz77Store} (h : StoreOk data start stop s)
    (hstop : stop ≤ data.size) (hsz : stop - start < 2 ^ 28) {k l : Nat} (hkl : k < l) (hl : l ≤ s.size) (final : Bool) :
    Ret (addLz77BlockAutoType F final data s k l) fun ops => ∀ pos, ∃ bits, render pos ops = some bits ∧
      bits.length ≤ predictedBits false (itemsBetween s.litlens.toList k l) + 2 := by
  refine Ret.mono (autoType_ok L X h hstop (Nat.le_of_lt hkl) hl final) ?_
  rintro ops ⟨blocks, ho⟩ pos
  obtain ⟨bits, eb, -⟩ := ho.emits.read pos
  have hr := h.rangeOk (Nat.le_of_lt hkl) hl
  have h1 := bytePos_le h hl
  have h2 : start ≤ bytePos start s k := by unfold bytePos; omega
  have hbytes : ((itemsBetween s.litlens.toList k l).map LitLen.size).sum = bytePos start s l - bytePos start s k := by
    have := hr.parses.stop
    unfold itemsBetween
    omega
  refine ⟨bits, eb, ?_⟩
  obtain ⟨dbits, hdr, ll, d, ed, ⟨t, et, el, ed'⟩, -⟩ := addLz77Block_dynamic hr hkl final
  have k1 := ho.stored (by omega) hkl pos bits eb
  have k2 := ho.dynamic (by omega) hkl _ ed pos bits dbits eb (render_bitOps _ _)
  obtain ⟨t', ll', d', ed'', -, et', ew⟩ := writtenBits_dynamic h.inv hkl hl
  rw [ed', Option.some.injEq, Prod.mk.injEq, Prod.mk.injEq] at ed''
  obtain ⟨-, rfl, rfl⟩ := ed''
  rw [et] at et'
  cases et'
  have ew : writtenBits .dynamic (itemsBetween s.litlens.toList k l) = dbits.length := by rw [el]; exact ew
  unfold predictedBits
  rw [hbytes, if_neg (by simp), ew]
  rw [Nat.min_def]
  split <;> omega

theorem addSplitBlocks_bits (L : FloatLaws F) (X : FloatExact F) {data : Array UInt8} {start stop : Nat} {s : Lz77Store} (h : StoreOk data start stop s)
    (hstop : stop ≤ data.size) (hsz : stop - start < 2 ^ 28) (final : Bool) : ∀ (sp : List Nat) (last : Nat), sp.Pairwise (· < ·) →
    (∀ x ∈ sp, last < x ∧ x < s.size) → last < s.size →
    Ret (do
      let (ops, last) ← addSplitBlocks F s data sp last
      return ops ++ (← addLz77BlockAutoType F final data s last s.size)) fun ops => ∀ pos, ∃ bits, render pos ops = some bits ∧
      bits.length ≤ ((blocksOf s.litlens.toList last sp).map fun p => predictedBits false p + 2).sum
  | [], last, _, _, h3 => by
    obtain ⟨ops, e, ho⟩ := autoType_bits L X h hstop hsz h3 (Nat.le_refl _) final
    rw [addSplitBlocks, some_bind]
    dsimp only
    rw [e, some_bind]
    refine ⟨_, rfl, fun pos => ?_⟩
    obtain ⟨bits, eb, hb⟩ := ho pos
    refine ⟨bits, by simpa using eb, ?_⟩
    have hb' : itemsBetween s.litlens.toList last s.size = s.litlens.toList.drop last := by
      unfold itemsBetween
      rw [Lz77Store.size_eq, List.take_length]
    rw [hb'] at hb
    simpa [blocksOf] using hb
  | item :: rest, last, h1, h2, h3 => by
    have hi := h2 item (by simp)
    rw [List.pairwise_cons] at h1
    obtain ⟨ops, e, ho⟩ := autoType_bits L X h hstop hsz hi.1 (Nat.le_of_lt hi.2) false
    obtain ⟨ops2, e2, ho2⟩ := addSplitBlocks_bits L X h hstop hsz final rest item h1.2 (fun x hx => ⟨h1.1 x hx, (h2 x (by simp [hx])).2⟩) hi.2
    rw [addSplitBlocks, e, some_bind]
    simp only [Option.bind_eq_bind, Option.bind_eq_some_iff, Prod.exists] at e2
    obtain ⟨ops', last', e3, ops'', e4, e5⟩ := e2
    rw [e3, some_bind]
    dsimp only
    rw [show (pure (ops ++ ops', last') : Option (List WOp × Nat)) = some (ops ++ ops', last') from rfl, some_bind]
    dsimp only
    rw [e4, some_bind]
    cases e5
    refine ⟨_, rfl, fun pos => ?_⟩
    obtain ⟨b1, r1, l1⟩ := ho pos
    obtain ⟨b2, r2, l2⟩ := ho2 (pos + b1.length)
    refine ⟨b1 ++ b2, by rw [List.append_assoc]; exact render_append r1 r2, ?_⟩
    rw [blocksOf, List.map_cons, List.sum_cons, List.length_append]
    omega

theorem addAllBlocks_bits (L : FloatLaws F) (X : FloatExact F) {data : Array UInt8} {start stop : Nat} {s : Lz77Store} (h : StoreOk data start stop s)
    (hlt : start < stop) (hstop : stop ≤ data.size) (hsz : stop - start < 2 ^ 28) {sp : List Nat} (hsp : SplitOk s.size sp) (final : Bool) :
    Ret (addAllBlocks F sp s final data) fun ops => ∀ pos, ∃ bits, render pos ops = some bits ∧
      bits.length ≤ ((blocksOf s.litlens.toList 0 sp).map fun p => predictedBits false p + 2).sum :=
  addSplitBlocks_bits L X h hstop hsz final sp 0 hsp.1 hsp.2 (h.size_pos hlt)

end Zopfli
