import Verif.Proofs.Logging
import Verif.Proofs.Bits
import Verif.Proofs.Session
/-!
# What the messages say
-/

namespace Zopfli
namespace Log

variable {σ R : Type}

/-- A logger that lets everything pass and keeps all messages. -/
def collector (R : Type) : Logger R (List (LogLevel × LogMsg R)) where
  passes _ _ := true
  enabled l _ := (true, l)
  record l level m := l ++ [(level, m)]

/-! ## Split points -/

theorem convertSplits_shift (sp : Array Nat) (k : Nat) : ∀ (items : List LitLen) (i pos : Nat) (acc : Array Nat),
    convertSplits sp items i (k + pos) (acc.map (k + ·)) = (convertSplits sp items i pos acc).map (·.map (k + ·))
  | [], _, _, _ => rfl
  | x :: rest, i, pos, acc => by
    unfold convertSplits
    rw [Array.size_map]
    cases h : sp[acc.size]? with
    | none => rfl
    | some y =>
      rw [some_bind, some_bind]
      have hp : (acc.map (k + ·)).push (k + pos) = (acc.push pos).map (k + ·) := (Array.map_push ..).symm
      by_cases hy : y = i
      · rw [if_pos hy, if_pos hy, hp]
        dsimp only
        rw [Array.size_map]
        by_cases hs : (acc.push pos).size = sp.size
        · rw [if_pos hs, if_pos hs]
          rfl
        · rw [if_neg hs, if_neg hs, Nat.add_assoc]
          exact convertSplits_shift sp k rest (i + 1) (pos + x.size) (acc.push pos)
      · rw [if_neg hy, if_neg hy, Nat.add_assoc]
        exact convertSplits_shift sp k rest (i + 1) (pos + x.size) acc

theorem andThen_some {lam α β : Type} {x : Log lam α} {f : α → Log lam β} {l : lam} {b : β} {l' : lam} (h : (x >>= f) l = some (b, l')) :
    ∃ a l1, x l = some (a, l1) ∧ f a l1 = some (b, l') := by
  have h : andThen x f l = some (b, l') := h
  unfold andThen at h
  cases hx : x l with
  | none => rw [hx] at h; cases h
  | some y => rw [hx] at h; exact ⟨y.1, y.2, rfl, h⟩

theorem lift_some {lam α : Type} {o : Option α} {l : lam} {a : α} {l' : lam} (h : Log.lift o l = some (a, l')) : o = some a ∧ l' = l := by
  unfold Log.lift at h
  cases o with
  | none => cases h
  | some x => cases h; exact ⟨rfl, rfl⟩

theorem message_collector {level : LogLevel} {m : LogMsg R} {l l' : List (LogLevel × LogMsg R)} {u : Unit}
    (h : message (collector R) level (some m) l = some (u, l')) : l' = l ++ [(level, m)] := by
  cases h
  rfl

theorem print_collector {lz77 : Lz77Store} {sp : List Nat} {l l' : List (LogLevel × LogMsg R)} {u : Unit}
    (h : printBlockSplitPoints (collector R) lz77 sp l = some (u, l')) :
    (sp = [] ∧ l' = l ++ [(.debug, .splitPoints [])]) ∨
    ∃ x, convertSplits sp.toArray lz77.litlens.toList 0 0 #[] = some x ∧ l' = l ++ [(.debug, .splitPoints x.toList)] := by
  unfold printBlockSplitPoints at h
  obtain ⟨b, l1, h1, g1⟩ := andThen_some h
  clear h
  have h1 : (true, l) = (b, l1) := Option.some.inj h1
  cases h1
  rw [if_pos rfl] at g1
  obtain ⟨pts, l2, h2, g2⟩ := andThen_some g1
  clear g1
  obtain ⟨e2, rfl⟩ := lift_some h2
  obtain ⟨_, l3, h3, g3⟩ := andThen_some g2
  clear g2
  obtain ⟨e3, rfl⟩ := lift_some h3
  have e4 := message_collector g3
  subst e4
  by_cases hn : sp.length > 0
  · rw [if_pos hn] at e2
    cases hc : convertSplits sp.toArray lz77.litlens.toList 0 0 #[] with
    | none => rw [hc] at e2; cases e2
    | some x =>
      rw [hc] at e2
      cases e2
      exact .inr ⟨x, rfl, rfl⟩
  · rw [if_neg hn] at e2
    cases e2
    exact .inl ⟨List.eq_nil_of_length_eq_zero (by omega), rfl⟩

theorem blocksplit_collector [Checks] {F : FloatOps} {inData : Array UInt8} {instart inend maxblocks : Nat} {pts : List Nat}
    {l l' : List (LogLevel × LogMsg F.F64)} (h : blocksplit F (collector F.F64) inData instart inend maxblocks l = some (pts, l')) :
    (pts = [] ∧ l' = l) ∨ ∃ rel, pts = rel.map (instart + ·) ∧ l' = l ++ [(.debug, .splitPoints rel)] := by
  unfold blocksplit at h
  obtain ⟨⟨store, c⟩, l1, h1, g1⟩ := andThen_some h
  clear h
  obtain ⟨e1, rfl⟩ := lift_some h1
  clear h1
  obtain ⟨sp, l2, h2, g2⟩ := andThen_some g1
  clear g1
  unfold blocksplitLz77 at h2
  split at h2
  · cases h2
    rw [if_neg (by exact Nat.lt_irrefl 0)] at g2
    cases g2
    exact .inl ⟨rfl, rfl⟩
  · obtain ⟨sp', l3, h3, g3⟩ := andThen_some h2
    clear h2
    obtain ⟨e3, rfl⟩ := lift_some h3
    clear h3
    obtain ⟨_, l4, h4, g4⟩ := andThen_some g3
    clear g3
    cases g4
    rcases print_collector h4 with ⟨rfl, rfl⟩ | ⟨x, hx, rfl⟩
    · rw [if_neg (by exact Nat.lt_irrefl 0)] at g2
      cases g2
      exact .inr ⟨[], rfl, rfl⟩
    · split at g2
      · obtain ⟨y, l5, h5, g5⟩ := andThen_some g2
        clear g2
        obtain ⟨e5, rfl⟩ := lift_some h5
        clear h5
        obtain ⟨_, l6, h6, g6⟩ := andThen_some g5
        clear g5
        obtain ⟨e6, rfl⟩ := lift_some h6
        cases g6
        have hs := convertSplits_shift sp.toArray instart store.litlens.toList 0 0 #[]
        rw [Nat.add_zero, hx] at hs
        have h5' : convertSplits sp.toArray store.litlens.toList 0 instart (#[].map (instart + ·)) = some y := by rw [Array.map_empty]; exact e5
        rw [h5'] at hs
        cases hs
        exact .inr ⟨x.toList, by rw [Array.toList_map], rfl⟩
      · rename_i hn
        have hsp : sp = [] := List.eq_nil_of_length_eq_zero (by omega)
        subst hsp
        cases g2
        cases hl : store.litlens.toList with
        | nil =>
          rw [hl] at hx
          cases hx
          exact .inr ⟨[], rfl, rfl⟩
        | cons a b =>
          rw [hl] at hx
          cases hx

/-! ## Iterations -/

/-- The costs announced at level debug. -/
def announced {R : Type} : List (LogLevel × LogMsg R) → List R
  | [] => []
  | (.debug, .iteration _ c) :: l => c :: announced l
  | _ :: l => announced l

theorem announced_append {R : Type} : ∀ a b : List (LogLevel × LogMsg R), announced (a ++ b) = announced a ++ announced b
  | [], _ => rfl
  | (.debug, .iteration _ c) :: l, b => congrArg (c :: ·) (announced_append l b)
  | (.debug, .splitPoints _) :: l, b => announced_append l b
  | (.debug, .treeSize _) :: l, b => announced_append l b
  | (.debug, .blockSize ..) :: l, b => announced_append l b
  | (.trace, _) :: l, b => announced_append l b

/-- The messages are about iterations `0, 1, 2, ...`. -/
def Numbered {R : Type} (n : Nat) (l : List (LogLevel × LogMsg R)) : Prop :=
  ∃ f : Nat → LogLevel × R, l = (List.range n).map fun i => ((f i).1, .iteration i (f i).2)

theorem Numbered.snoc {R : Type} {n : Nat} {l : List (LogLevel × LogMsg R)} (h : Numbered n l) (level : LogLevel) (c : R) :
    Numbered (n + 1) (l ++ [(level, .iteration n c)]) := by
  obtain ⟨f, rfl⟩ := h
  refine ⟨fun i => if i = n then (level, c) else f i, ?_⟩
  rw [List.range_succ, List.map_append]
  congr 1
  · refine List.map_congr_left fun i hi => ?_
    have : i ≠ n := Nat.ne_of_lt (List.mem_range.1 hi)
    simp [this]
  · simp

theorem loop_collector {σ ρ lam : Type} {bL : σ → Log lam (σ ⊕ ρ)} (Inv : σ → lam → Prop) (Post : ρ → lam → Prop)
    (hs : ∀ s l x l', Inv s l → bL s l = some (x, l') → (∀ s', x = .inl s' → Inv s' l') ∧ ∀ r, x = .inr r → Post r l') {s : σ} {l : lam}
    (h0 : Inv s l) {r : ρ} {l' : lam} (h : Log.loop bL s l = some (r, l')) : Post r l' := by
  unfold Log.loop at h
  refine loopM.partial_correctness _ (fun s r => Inv s.1 s.2 → Post r.1 r.2) ?_ (s, l) (r, l') h h0
  rintro f hf ⟨s, l⟩ ⟨r, l'⟩ hr hi
  rw [Option.bind_eq_bind, Option.bind_eq_some_iff] at hr
  obtain ⟨x, hx, hr⟩ := hr
  rw [Option.map_eq_some_iff] at hx
  obtain ⟨⟨y, l1⟩, hy, hx⟩ := hx
  obtain ⟨p1, p2⟩ := hs s l y l1 hi hy
  cases y with
  | inl s' =>
    dsimp only at hx
    subst hx
    exact hf (s', l1) (r, l') hr (p1 s' rfl)
  | inr r' =>
    dsimp only at hx
    subst hx
    cases hr
    exact p2 _ rfl

/-- Every number is followed only by smaller ones: each is compared with the one before. -/
def Falling (F : FloatOps) : List F.F64 → Prop
  | [] => True
  | [_] => True
  | a :: b :: l => F.lt b a = true ∧ Falling F (b :: l)

theorem Falling.snoc {F : FloatOps} {b : F.F64} : ∀ {l : List F.F64}, Falling F l → (∀ a, l.getLast? = some a → F.lt b a = true) → Falling F (l ++ [b])
  | [], _, _ => trivial
  | [a], _, h => ⟨h a rfl, trivial⟩
  | a :: c :: l, h, h' => ⟨h.1, Falling.snoc (l := c :: l) h.2 fun x hx => h' x (by rw [List.getLast?_cons_cons]; exact hx)⟩

/-- What is known about the messages after some iterations. -/
structure Told {F : FloatOps} [Checks] (n : Nat) (store : Lz77Store) (best : F.F64) (l : List (LogLevel × LogMsg F.F64)) : Prop where
  numbered : Numbered n l
  falling : Falling F (announced l)
  last : (announced l).getLast?.getD F.inf = best
  store : announced l ≠ [] → calculateBlockSize F store 0 store.size .dynamic = some best

theorem optimalStep_collector [Checks] {F : FloatOps} {inData : Array UInt8} {instart inend I W : Nat} {st : OptimalState F}
    {l l' : List (LogLevel × LogMsg F.F64)} {x : OptimalState F ⊕ Lz77Store}
    (hi : Told st.currentIteration st.outputstore st.bestcost l ∧ (st.currentIteration = 0 ∨ st.currentIteration < I))
    (h : optimalStep F (collector F.F64) inData instart inend I W st l = some (x, l')) :
    (∀ st', x = .inl st' → Told st'.currentIteration st'.outputstore st'.bestcost l' ∧ (st'.currentIteration = 0 ∨ st'.currentIteration < I)) ∧
    ∀ r, x = .inr r → ∃ n best, 1 ≤ n ∧ n ≤ max I 1 ∧ Told n r best l' := by
  obtain ⟨lmc, outputstore, stats, beststats, bestcost, lastcost, ranState, lastrandomstep, cur, without⟩ := st
  dsimp only at hi
  obtain ⟨ht, hcur⟩ := hi
  unfold optimalStep at h
  obtain ⟨⟨store, lmc'⟩, l1, h1, g1⟩ := andThen_some h
  clear h
  obtain ⟨e1, rfl⟩ := lift_some h1
  clear h1
  obtain ⟨cost, l2, h2, g2⟩ := andThen_some g1
  clear g1
  obtain ⟨e2, rfl⟩ := lift_some h2
  clear h2
  dsimp only at e2 g2
  obtain ⟨_, l3, h3, g3⟩ := andThen_some g2
  clear g2
  have e3 := message_collector h3
  clear h3
  have hn : Told (F := F) (cur + 1) (if F.lt cost bestcost = true then store else outputstore) (if F.lt cost bestcost = true then cost else bestcost) l3 := by
    subst e3
    by_cases hlt : F.lt cost bestcost = true
    · rw [if_pos hlt, if_pos hlt, if_pos hlt]
      refine ⟨ht.numbered.snoc _ _, ?_, ?_, fun _ => e2⟩
      · rw [announced_append]
        refine ht.falling.snoc fun a ha => ?_
        have := ht.last
        rw [ha] at this
        have this : a = bestcost := this
        rw [this]
        exact hlt
      · rw [announced_append]
        show (announced l2 ++ [cost]).getLast?.getD F.inf = cost
        rw [List.getLast?_append]
        rfl
    · rw [if_neg hlt, if_neg hlt, if_neg hlt]
      have ha : announced (l2 ++ [(LogLevel.trace, LogMsg.iteration cur cost)]) = announced l2 := by
        rw [announced_append]
        show announced l2 ++ [] = _
        exact List.append_nil _
      refine ⟨ht.numbered.snoc _ _, ?_, ?_, ?_⟩
      · rw [ha]; exact ht.falling
      · rw [ha]; exact ht.last
      · rw [ha]; exact ht.store
  have hmax : cur + 1 ≤ max I 1 := by
    rcases hcur with h | h
    · have := Nat.le_max_right I 1
      omega
    · exact Nat.le_trans h (Nat.le_max_left I 1)
  generalize (if F.lt cost bestcost = true then store else outputstore) = os at hn g3
  generalize (if F.lt cost bestcost = true then cost else bestcost) = bc at hn g3
  generalize (if F.lt cost bestcost = true then 0 else without + 1) = wo at g3
  generalize (if F.lt cost bestcost = true then stats else beststats) = bs at g3
  split at g3
  · cases g3
    exact ⟨nofun, fun r hr => by cases hr; exact ⟨cur + 1, _, Nat.le_add_left .., hmax, hn⟩⟩
  · split at g3
    · cases g3
      exact ⟨nofun, fun r hr => by cases hr; exact ⟨cur + 1, _, Nat.le_add_left .., hmax, hn⟩⟩
    · rename_i hI
      obtain ⟨y, l4, h4, g4⟩ := andThen_some g3
      clear g3
      obtain ⟨e4, rfl⟩ := lift_some h4
      cases g4
      refine ⟨fun st' hs => ?_, nofun⟩
      cases hs
      exact ⟨hn, .inr (Nat.lt_of_not_le hI)⟩

theorem lz77Optimal_collector [Checks] {F : FloatOps} {lmc : Cache} {inData : Array UInt8} {instart inend I W : Nat} {store : Lz77Store}
    {l' : List (LogLevel × LogMsg F.F64)} (h : lz77Optimal F (collector F.F64) lmc inData instart inend I W [] = some (store, l')) :
    ∃ n best, 1 ≤ n ∧ n ≤ max I 1 ∧ Told n store best l' := by
  unfold lz77Optimal at h
  obtain ⟨⟨s, lmc'⟩, l1, h1, g1⟩ := andThen_some h
  clear h
  obtain ⟨e1, rfl⟩ := lift_some h1
  obtain ⟨st, l2, h2, g2⟩ := andThen_some g1
  clear g1
  obtain ⟨e2, rfl⟩ := lift_some h2
  refine loop_collector (fun (st : OptimalState F) l => Told st.currentIteration st.outputstore st.bestcost l ∧ (st.currentIteration = 0 ∨ st.currentIteration < I))
    (fun r l => ∃ n best, 1 ≤ n ∧ n ≤ max I 1 ∧ Told n r best l) (fun s l x l' hi h => optimalStep_collector hi h) ?_ g2
  exact ⟨⟨⟨fun _ => (.debug, F.inf), rfl⟩, trivial, rfl, nofun⟩, .inl rfl⟩

/-! ## Blocks -/

/-- Operations that write single bits only. -/
def BitsOnly (ops : List WOp) : Prop := ∃ bits, ops = bitOps bits

theorem BitsOnly.append {a b : List WOp} (ha : BitsOnly a) (hb : BitsOnly b) : BitsOnly (a ++ b) := by
  obtain ⟨x, rfl⟩ := ha
  obtain ⟨y, rfl⟩ := hb
  exact ⟨x ++ y, (bitOps_append x y).symm⟩

theorem BitsOnly.addBits (v n : Nat) : BitsOnly (addBits v n) := ⟨_, addBits_eq v n⟩

theorem BitsOnly.addHuffmanBits (v n : Nat) : BitsOnly (addHuffmanBits v n) := ⟨_, addHuffmanBits_eq v n⟩

theorem BitsOnly.nil : BitsOnly [] := ⟨[], rfl⟩

theorem BitsOnly.mapM {α : Type} {f : α → Option (List WOp)} (hf : ∀ a r, f a = some r → BitsOnly r) : ∀ {l : List α} {r : List (List WOp)},
    l.mapM f = some r → BitsOnly r.flatten
  | [], r, h => by cases h; exact BitsOnly.nil
  | a :: l, r, h => by
    rw [List.mapM_cons] at h
    simp only [Option.bind_eq_bind, Option.bind_eq_some_iff, Option.pure_def, Option.some.injEq] at h
    obtain ⟨x, hx, y, hy, rfl⟩ := h
    exact (hf a x hx).append (BitsOnly.mapM hf hy)

theorem addDynamicTree_bits {ll d : Array Nat} {ops : List WOp} (h : addDynamicTree ll d = some ops) : BitsOnly ops := by
  unfold addDynamicTree at h
  rw [Option.bind_eq_bind, Option.bind_eq_some_iff] at h
  obtain ⟨x, -, h⟩ := h
  unfold encodeTree at h
  simp only [Option.bind_eq_bind, Option.bind_eq_some_iff, Option.pure_def, Option.some.injEq] at h
  obtain ⟨hlit, -, hdist, -, o, -, clcl, -, cls, -, hclen, -, lens, h1, items, h2, rfl⟩ := h
  refine (((BitsOnly.addBits _ _).append (BitsOnly.addBits _ _)).append (BitsOnly.addBits _ _)).append ?_ |>.append ?_
  · refine BitsOnly.mapM (fun a r hr => ?_) h1
    simp only [Option.bind_eq_some_iff, Option.some.injEq] at hr
    obtain ⟨y, -, rfl⟩ := hr
    exact BitsOnly.addBits _ _
  · refine BitsOnly.mapM (fun a r hr => ?_) h2
    have hr : rleOps clcl cls a.1 a.2 = some r := hr
    unfold rleOps at hr
    simp only [Option.bind_eq_bind, Option.bind_eq_some_iff, Option.pure_def, Option.some.injEq] at hr
    obtain ⟨y, -, z, -, rfl⟩ := hr
    refine (BitsOnly.addHuffmanBits _ _).append ?_
    split
    · exact BitsOnly.addBits _ _
    · split
      · exact BitsOnly.addBits _ _
      · split
        · exact BitsOnly.addBits _ _
        · exact BitsOnly.nil

theorem addBlockData_bits {lz77 : Lz77Store} {a b : Nat} {ll d : Array Nat} {ops : List WOp} (h : addBlockData lz77 a b ll d = some ops) : BitsOnly ops := by
  unfold addBlockData addLz77Data at h
  simp only [Option.bind_eq_bind, Option.bind_eq_some_iff, Option.pure_def, Option.some.injEq] at h
  obtain ⟨_, -, _, -, _, ⟨items, -, l, hl, rfl⟩, _, -, _, -, rfl⟩ := h
  refine (BitsOnly.mapM (fun x r hr => ?_) hl).append (BitsOnly.addHuffmanBits _ _)
  cases x with
  | literal c =>
    unfold itemOps at hr
    simp only [Option.bind_eq_bind, Option.bind_eq_some_iff, Option.pure_def, Option.some.injEq] at hr
    obtain ⟨_, -, _, -, _, -, _, -, _, -, rfl⟩ := hr
    exact BitsOnly.addHuffmanBits _ _
  | lengthDist n c =>
    unfold itemOps at hr
    simp only [Option.bind_eq_bind, Option.bind_eq_some_iff, Option.pure_def, Option.some.injEq] at hr
    obtain ⟨_, -, _, -, _, -, _, -, _, -, _, -, _, -, _, -, _, -, _, -, _, -, _, -, rfl⟩ := hr
    exact (((BitsOnly.addHuffmanBits _ _).append (BitsOnly.addBits _ _)).append (BitsOnly.addHuffmanBits _ _)).append (BitsOnly.addBits _ _)

/-- The number of bits written so far. -/
def bitPos (w : BitwiseWriter σ) : Nat := 8 * w.len + w.bp.toNat

/-- The number of bytes that are needed for some bits. -/
def bytesFor (bits : Nat) : Nat := (bits + 7) / 8

theorem bytesWritten_eq {w : BitwiseWriter σ} (h : w.bp < 8) : w.bytesWritten = bytesFor (bitPos w) := by
  unfold BitwiseWriter.bytesWritten bytesFor bitPos
  have h8 : w.bp.toNat < 8 := UInt8.lt_iff_toNat_lt.1 h
  by_cases hb : w.bp > 0
  · rw [if_pos hb]
    have : 0 < w.bp.toNat := UInt8.lt_iff_toNat_lt.1 hb
    omega
  · rw [if_neg hb]
    have : ¬ 0 < w.bp.toNat := fun h => hb (UInt8.lt_iff_toNat_lt.2 h)
    omega

variable {S : Sink σ} {I : σ → Prop} {log : σ → List UInt8} {patience : σ → Nat}

theorem exec_bit [Checks] (hS : Reliable S I log patience) (w : BitwiseWriter σ) (b : Bool) (h : w.bp < 8) (hi : I w.out) :
    ∃ w', w.exec S (.bit b) = some (.ok (), w') ∧ w'.bp < 8 ∧ bitPos w' = bitPos w + 1 ∧ I w'.out := by
  show ∃ w', w.addBit S b = _ ∧ _
  have h8 : w.bp.toNat < 8 := UInt8.lt_iff_toNat_lt.1 h
  have h1 : (w.bp + 1).toNat = w.bp.toNat + 1 := by
    rw [UInt8.toNat_add, show (1 : UInt8).toNat = 1 from rfl]
    omega
  unfold BitwiseWriter.addBit
  rw [if_neg fun hc => UInt8.not_le.2 h hc.2]
  dsimp only
  by_cases hb : w.bp + 1 = 8
  · rw [if_pos hb]
    have h7 : w.bp.toNat = 7 := by
      rw [hb] at h1
      have : (8 : UInt8).toNat = 8 := rfl
      omega
    unfold BitwiseWriter.finishPartialBits BitwiseWriter.addBytes
    rw [if_pos (show w.bp + 1 ≠ 0 by rw [hb]; decide)]
    dsimp only
    obtain ⟨⟨r, s⟩, e, e1, e2, e3⟩ := hS.writeAll _ _ w.out [w.bit ||| ((if b then 1 else 0) <<< w.bp)] rfl rfl hi
    dsimp only at e1 e2 e3
    subst e1
    rw [e]
    refine ⟨_, rfl, (show (0 : UInt8) < 8 by decide), ?_, e3⟩
    unfold bitPos
    simp only [List.length_singleton]
    have : (0 : UInt8).toNat = 0 := rfl
    omega
  · rw [if_neg hb]
    refine ⟨_, rfl, ?_, ?_, hi⟩
    · rw [UInt8.lt_iff_toNat_lt]
      have : (w.bp + 1).toNat ≠ 8 := fun h => hb (UInt8.toNat_inj.1 h)
      show (w.bp + 1).toNat < 8
      omega
    · unfold bitPos
      dsimp only
      omega

/-- Bits in front of reported operations. -/
theorem execAll_bits [Checks] {lam R : Type} (G : Logger R lam) (hS : Reliable S I log patience) (detect : Nat) (rest : List LogOp) : ∀ (bits : List Bool) (w : BitwiseWriter σ),
    w.bp < 8 → I w.out → ∃ w' : BitwiseWriter σ, w'.bp < 8 ∧ bitPos w' = bitPos w + bits.length ∧ I w'.out ∧
      ∀ l, execAll G S w detect ((bitOps bits).map .op ++ rest) l = execAll G S w' detect rest l
  | [], w, h, hi => ⟨w, h, rfl, hi, fun _ => rfl⟩
  | b :: bits, w, h, hi => by
    obtain ⟨w1, e1, g1, p1, i1⟩ := exec_bit hS w b h hi
    obtain ⟨w2, g2, p2, i2, e2⟩ := execAll_bits G hS detect rest bits w1 g1 i1
    refine ⟨w2, g2, by rw [p2, p1, List.length_cons]; omega, i2, fun l => ?_⟩
    show execAll G S w detect (.op (.bit b) :: ((bitOps bits).map .op ++ rest)) l = _
    rw [execAll, e1]
    exact e2 l

theorem usizeSub_le [Checks] {a b : Nat} (h : b ≤ a) : usizeSub a b = some (a - b) := if_pos h

theorem bytesFor_mono {a b : Nat} (h : a ≤ b) : bytesFor a ≤ bytesFor b := Nat.div_le_div_right (Nat.add_le_add_right h 7)

/-- The last part of a block and its report. -/
theorem execAll_data [Checks] {R : Type} (hS : Reliable S I log patience) (w : BitwiseWriter σ) (hw : w.bp < 8) (hi : I w.out) (bits : List Bool)
    {lz77 : Lz77Store} {a b : Nat} {items : Array LitLen} (hs : slice lz77.litlens a b = some items) (detect : Nat)
    (l : List (LogLevel × LogMsg R)) :
    ∃ w' c, execAll (collector R) S w detect (.mark :: ((bitOps bits).map .op ++ [.blockSize lz77 a b])) l =
      some ((.ok (), w'), l ++ [(.debug, .blockSize c (c / 1024) (items.toList.map LitLen.size).sum)]) ∧
      w'.bp < 8 ∧ I w'.out ∧ bitPos w' = bitPos w + bits.length ∧ c = bytesFor (bitPos w') - bytesFor (bitPos w) := by
  rw [execAll]
  obtain ⟨w1, g1, p1, i1, e1⟩ := execAll_bits (collector R) hS w.bytesWritten [.blockSize lz77 a b] bits w hw hi
  refine ⟨w1, _, ?_, g1, i1, p1, rfl⟩
  rw [e1, execAll]
  have hd := usizeSub_le (show bytesFor (bitPos w) ≤ bytesFor (bitPos w1) from bytesFor_mono (by omega))
  rw [bytesWritten_eq hw, bytesWritten_eq g1, hs, hd]
  rfl

theorem addLz77Block_collector_dynamic [Checks] {R : Type} (hS : Reliable S I log patience) {final : Bool} {inData : Array UInt8} {lz77 : Lz77Store} {a b : Nat}
    {lops : List LogOp} (h : addLz77Block .dynamic final inData lz77 a b = some lops) (w : BitwiseWriter σ) (hw : w.bp < 8) (hi : I w.out)
    (detect : Nat) (l : List (LogLevel × LogMsg R)) :
    ∃ size ll d tree data items w', getDynamicLengths lz77 a b = some (size, ll, d) ∧ addDynamicTree ll d = some (bitOps tree) ∧
      addBlockData lz77 a b ll d = some (bitOps data) ∧ slice lz77.litlens a b = some items ∧
      execAll (collector R) S w detect lops l = some ((.ok (), w'), l ++
        [(.debug, .treeSize (bytesFor (bitPos w + 3 + tree.length) - bytesFor (bitPos w + 3))),
         (.debug, .blockSize (bytesFor (bitPos w') - bytesFor (bitPos w + 3 + tree.length))
           ((bytesFor (bitPos w') - bytesFor (bitPos w + 3 + tree.length)) / 1024) (items.toList.map LitLen.size).sum)]) ∧
      bitPos w' = bitPos w + 3 + tree.length + data.length ∧ w'.bp < 8 ∧ I w'.out := by
  unfold addLz77Block at h
  simp only [Option.bind_eq_bind, Option.bind_eq_some_iff, Prod.exists, Option.pure_def, Option.some.injEq] at h
  obtain ⟨size, ll, d, h1, tops, h2, dops, h3, rfl⟩ := h
  obtain ⟨tree, rfl⟩ := addDynamicTree_bits h2
  obtain ⟨data, rfl⟩ := addBlockData_bits h3
  obtain ⟨items, hs⟩ := Option.isSome_iff_exists.1 (addBlockData_slice h3)
  obtain ⟨w1, g1, p1, i1, e1⟩ := execAll_bits (collector R) hS detect
    (.mark :: ((bitOps tree).map .op ++ (.treeSize :: .mark :: ((bitOps data).map .op ++ [.blockSize lz77 a b])))) [final, false, true] w hw hi
  obtain ⟨w2, g2, p2, i2, e2⟩ := execAll_bits (collector R) hS w1.bytesWritten
    (.treeSize :: .mark :: ((bitOps data).map .op ++ [.blockSize lz77 a b])) tree w1 g1 i1
  obtain ⟨w3, c, e3, g3, i3, p3, hc⟩ := execAll_data (R := R) hS w2 g2 i2 data hs w1.bytesWritten
    (l ++ [(.debug, .treeSize (bytesFor (bitPos w2) - bytesFor (bitPos w1)))])
  refine ⟨size, ll, d, tree, data, items, w3, h1, h2, h3, hs, ?_, ?_, g3, i3⟩
  · have hl : [LogOp.op (.bit final), .op (.bit false), .op (.bit true)] ++ [.mark] ++ (bitOps tree).map .op ++ [.treeSize] ++ [.mark]
        ++ (bitOps data).map .op ++ [.blockSize lz77 a b] =
        (bitOps [final, false, true]).map .op ++ (.mark :: ((bitOps tree).map .op ++ (.treeSize :: .mark :: ((bitOps data).map .op ++ [.blockSize lz77 a b])))) := by
      simp [bitOps]
    rw [hl, e1, execAll, e2, execAll]
    have hd := usizeSub_le (show bytesFor (bitPos w1) ≤ bytesFor (bitPos w2) from bytesFor_mono (by omega))
    rw [bytesWritten_eq g1] at e3 ⊢
    rw [bytesWritten_eq g2, hd]
    have hp1 : bitPos w1 = bitPos w + 3 := p1
    have hp2 : bitPos w2 = bitPos w + 3 + tree.length := by rw [p2, hp1]
    rw [hp1, hp2] at e3
    rw [hp2] at hc
    rw [hp1, hp2, ← hc]
    show execAll (collector R) S w2 _ _ (l ++ [_]) = _
    rw [e3, List.append_assoc]
    rfl
  · have hp1 : bitPos w1 = bitPos w + 3 := p1
    rw [p3, p2, hp1]

theorem addLz77Block_collector_fixed [Checks] {R : Type} (hS : Reliable S I log patience) {final : Bool} {inData : Array UInt8} {lz77 : Lz77Store} {a b : Nat}
    {lops : List LogOp} (h : addLz77Block .fixed final inData lz77 a b = some lops) (w : BitwiseWriter σ) (hw : w.bp < 8) (hi : I w.out)
    (detect : Nat) (l : List (LogLevel × LogMsg R)) :
    ∃ data items w', addBlockData lz77 a b fixedTree.1 fixedTree.2 = some (bitOps data) ∧ slice lz77.litlens a b = some items ∧
      execAll (collector R) S w detect lops l = some ((.ok (), w'), l ++
        [(.debug, .blockSize (bytesFor (bitPos w') - bytesFor (bitPos w + 3))
           ((bytesFor (bitPos w') - bytesFor (bitPos w + 3)) / 1024) (items.toList.map LitLen.size).sum)]) ∧
      bitPos w' = bitPos w + 3 + data.length ∧ w'.bp < 8 ∧ I w'.out := by
  unfold addLz77Block at h
  simp only [Option.bind_eq_bind, Option.bind_eq_some_iff, Option.pure_def, Option.some.injEq] at h
  obtain ⟨dops, h3, rfl⟩ := h
  obtain ⟨data, rfl⟩ := addBlockData_bits h3
  obtain ⟨items, hs⟩ := Option.isSome_iff_exists.1 (addBlockData_slice h3)
  obtain ⟨w1, g1, p1, i1, e1⟩ := execAll_bits (collector R) hS detect
    (.mark :: ((bitOps data).map .op ++ [.blockSize lz77 a b])) [final, true, false] w hw hi
  obtain ⟨w3, c, e3, g3, i3, p3, hc⟩ := execAll_data (R := R) hS w1 g1 i1 data hs detect l
  have hp1 : bitPos w1 = bitPos w + 3 := p1
  refine ⟨data, items, w3, h3, hs, ?_, by rw [p3, hp1], g3, i3⟩
  have hl : [LogOp.op (.bit final), .op (.bit true), .op (.bit false)] ++ [.mark] ++ (bitOps data).map .op ++ [.blockSize lz77 a b] =
      (bitOps [final, true, false]).map .op ++ (.mark :: ((bitOps data).map .op ++ [.blockSize lz77 a b])) := by
    simp [bitOps]
  rw [hl, e1, e3]
  rw [hp1] at hc
  rw [← hc]

end Log
end Zopfli
