import Verif.Model.Logging
import Verif.Proofs.Basic
/-!
# With a logger, the functions compute the same
-/

namespace Zopfli
namespace Log

variable {lam α β σ ρ R : Type}

/-- Whatever the logger is doing, `w` returns what `o` returns. -/
structure Sees (w : Log lam α) (o : Option α) : Prop where
  get : ∀ l a, o = some a → ∃ l', w l = some (a, l')

theorem Sees.none {w : Log lam α} : Sees w none := ⟨fun _ _ h => nomatch h⟩

theorem Sees.pure {a : α} : Sees (Pure.pure a : Log lam α) (some a) := ⟨fun l _ h => by cases h; exact ⟨l, rfl⟩⟩

theorem Sees.lift {o : Option α} : Sees (Log.lift o : Log lam α) o := ⟨fun l a h => by subst h; exact ⟨l, rfl⟩⟩

theorem Sees.bind {w : Log lam α} {o : Option α} {f : α → Log lam β} {g : α → Option β} (h : Sees w o)
    (hf : ∀ a, o = some a → Sees (f a) (g a)) : Sees (w >>= f) (o >>= g) := by
  refine ⟨fun l b hb => ?_⟩
  rw [Option.bind_eq_bind, Option.bind_eq_some_iff] at hb
  obtain ⟨a, ha, hg⟩ := hb
  obtain ⟨l1, e1⟩ := h.get l a ha
  obtain ⟨l2, e2⟩ := (hf a ha).get l1 b hg
  refine ⟨l2, ?_⟩
  show andThen w f l = _
  simp only [andThen, e1, e2]

theorem Sees.liftBind {o : Option α} {f : α → Log lam β} {g : α → Option β} (hf : ∀ a, o = some a → Sees (f a) (g a)) :
    Sees (Log.lift o >>= f) (o >>= g) := Sees.bind Sees.lift hf

/-- A message in between. -/
theorem Sees.say {w : Log lam Unit} {f : Unit → Log lam β} {o : Option β} (hw : Sees w (some ())) (hf : Sees (f ()) o) : Sees (w >>= f) o :=
  Sees.bind (g := fun _ => o) hw fun _ _ => hf

theorem Sees.message {G : Logger R lam} {level : LogLevel} {args : Option (LogMsg R)} (h : args.isSome = true) :
    Sees (Log.message G level args) (some ()) := by
  refine ⟨fun l _ ha => ?_⟩
  cases ha
  obtain ⟨m, rfl⟩ := Option.isSome_iff_exists.1 h
  unfold Log.message
  split
  · exact ⟨_, rfl⟩
  · exact ⟨_, rfl⟩

theorem Sees.isEnabled {G : Logger R lam} {level : LogLevel} {f : Bool → Log lam β} {o : Option β} (hf : ∀ b, Sees (f b) o) :
    Sees (Log.isEnabled G level >>= f) o := by
  refine ⟨fun l b hb => ?_⟩
  show ∃ l', andThen (Log.isEnabled G level) f l = _
  unfold andThen Log.isEnabled
  by_cases hp : G.passes l level = true
  · rw [if_pos hp]
    exact (hf _).get _ _ hb
  · rw [if_neg hp]
    exact (hf _).get _ _ hb

theorem Sees.ite {c : Prop} [Decidable c] {w w' : Log lam α} {o o' : Option α} (h : c → Sees w o) (h' : ¬ c → Sees w' o') :
    Sees (if c then w else w') (if c then o else o') := by
  split
  · exact h ‹_›
  · exact h' ‹_›

theorem Sees.loop {bL : σ → Log lam (σ ⊕ ρ)} {b : σ → Option (σ ⊕ ρ)} (hs : ∀ s, Sees (bL s) (b s)) (s : σ) :
    Sees (Log.loop bL s) (loopM b s) := by
  refine ⟨fun l r hr => ?_⟩
  refine loopM.partial_correctness (body := b) (motive := fun s r => ∀ l, ∃ l', Log.loop bL s l = some (r, l')) ?_ s r hr l
  intro f hf s r hr l
  rw [Option.bind_eq_bind, Option.bind_eq_some_iff] at hr
  obtain ⟨x, hx, hr⟩ := hr
  obtain ⟨l1, e⟩ := (hs s).get l x hx
  unfold Log.loop
  rw [loopM.eq_1]
  dsimp only
  rw [e]
  cases x with
  | inl s' => exact hf s' r hr l1
  | inr r' => cases hr; exact ⟨l1, rfl⟩

/-! ## blocksplitter.rs, squeeze.rs -/

theorem printBlockSplitPoints_sees (G : Logger R lam) (lz77 : Lz77Store) (sp : List Nat) :
    Sees (printBlockSplitPoints G lz77 sp) (logSplitPoints lz77 sp) := by
  unfold printBlockSplitPoints logSplitPoints
  refine Sees.isEnabled fun b => ?_
  cases b with
  | false =>
    refine ⟨fun l a h => ?_⟩
    exact ⟨l, rfl⟩
  | true =>
    rw [if_pos rfl]
    by_cases hn : sp.length > 0
    · rw [if_pos hn, if_pos hn]
      refine ⟨fun l a h => ?_⟩
      simp only [Option.bind_eq_bind, Option.bind_eq_some_iff, Option.pure_def, Option.some.injEq] at h
      obtain ⟨n, ⟨x, hx, rfl⟩, hg⟩ := h
      rw [hx]
      have hg' : guardR (x.toList.length = sp.length) = some () := by rw [Array.length_toList]; exact hg
      show ∃ l', andThen (Log.lift (some x.toList)) _ l = _
      unfold andThen
      simp only [Log.lift, Option.map_some]
      exact (Sees.bind (g := fun _ => some ()) Sees.lift fun _ _ => Sees.message rfl).get l () (by rw [hg']; rfl)
    · rw [if_neg hn, if_neg hn]
      refine ⟨fun l a h => ?_⟩
      have hg' : guardR (([] : List Nat).length = sp.length) = some () := h
      show ∃ l', andThen (Log.lift (some [])) _ l = _
      unfold andThen
      simp only [Log.lift, Option.map_some]
      exact (Sees.bind (g := fun _ => some ()) Sees.lift fun _ _ => Sees.message rfl).get l () (by rw [hg']; rfl)

theorem blocksplitLz77_sees [Checks] (F : FloatOps) (G : Logger F.F64 lam) (lz77 : Lz77Store) (maxblocks : Nat) :
    Sees (blocksplitLz77 F G lz77 maxblocks) (Zopfli.blocksplitLz77 F lz77 maxblocks) := by
  unfold blocksplitLz77 Zopfli.blocksplitLz77
  refine Sees.ite (fun _ => Sees.pure) fun _ => ?_
  exact Sees.liftBind fun sp _ => Sees.bind (printBlockSplitPoints_sees G lz77 sp) fun _ _ => Sees.pure

theorem blocksplit_sees [Checks] (F : FloatOps) (G : Logger F.F64 lam) (inData : Array UInt8) (instart inend maxblocks : Nat) :
    Sees (blocksplit F G inData instart inend maxblocks) (Zopfli.blocksplit F inData instart inend maxblocks) := by
  unfold blocksplit Zopfli.blocksplit
  refine Sees.liftBind fun x _ => Sees.bind (blocksplitLz77_sees F G _ _) fun sp _ => ?_
  refine Sees.ite (fun _ => ?_) fun _ => Sees.pure
  exact Sees.liftBind fun _ _ => Sees.liftBind fun _ _ => Sees.pure

theorem optimalStep_sees [Checks] (F : FloatOps) (G : Logger F.F64 lam) (inData : Array UInt8) (instart inend I W : Nat) (st : OptimalState F) :
    Sees (optimalStep F G inData instart inend I W st) (Zopfli.optimalStep F inData instart inend I W st) := by
  obtain ⟨lmc, outputstore, stats, beststats, bestcost, lastcost, ranState, lastrandomstep, cur, without⟩ := st
  unfold optimalStep Zopfli.optimalStep
  refine Sees.liftBind fun x _ => Sees.liftBind fun cost _ => ?_
  dsimp only
  refine Sees.say (Sees.message rfl) ?_
  refine Sees.ite (fun _ => Sees.pure) fun _ => ?_
  refine Sees.ite (fun _ => Sees.pure) fun _ => ?_
  exact Sees.liftBind fun _ _ => Sees.pure

theorem lz77Optimal_sees [Checks] (F : FloatOps) (G : Logger F.F64 lam) (lmc : Cache) (inData : Array UInt8) (instart inend I W : Nat) :
    Sees (lz77Optimal F G lmc inData instart inend I W) (Zopfli.lz77Optimal F lmc inData instart inend I W) := by
  unfold lz77Optimal Zopfli.lz77Optimal
  exact Sees.liftBind fun x _ => Sees.liftBind fun _ _ => Sees.loop (fun _ => optimalStep_sees ..) _

theorem optimizeParts_sees [Checks] (F : FloatOps) (G : Logger F.F64 lam) (options : Options) (inData : Array UInt8) :
    ∀ (l : List Nat) (st : Lz77Store × List Nat × F.F64 × Nat),
      Sees (optimizeParts F G options inData l st) (Zopfli.optimizeParts F options inData l st)
  | [], _ => Sees.pure
  | item :: rest, (lz77, sp, totalcost, last) => by
    unfold optimizeParts Zopfli.optimizeParts
    refine Sees.liftBind fun n _ => Sees.bind (lz77Optimal_sees ..) fun store _ => ?_
    refine Sees.liftBind fun c _ => Sees.liftBind fun _ _ => Sees.liftBind fun lz _ => ?_
    exact optimizeParts_sees F G options inData rest _

theorem blocksplitPlan_sees [Checks] (F : FloatOps) (G : Logger F.F64 lam) (options : Options) (inData : Array UInt8) (instart inend : Nat) :
    Sees (blocksplitPlan F G options inData instart inend) (Zopfli.blocksplitPlan F options inData instart inend) := by
  unfold blocksplitPlan Zopfli.blocksplitPlan
  refine Sees.bind (blocksplit_sees ..) fun sp _ => Sees.bind (optimizeParts_sees ..) fun st _ => ?_
  obtain ⟨lz77, splitpoints, totalcost, last⟩ := st
  refine Sees.liftBind fun n _ => Sees.bind (lz77Optimal_sees ..) fun store _ => ?_
  refine Sees.liftBind fun c _ => Sees.liftBind fun _ _ => Sees.liftBind fun lz _ => ?_
  refine Sees.ite (fun _ => ?_) fun _ => Sees.pure
  refine Sees.bind (blocksplitLz77_sees ..) fun sp2 _ => Sees.liftBind fun _ _ => ?_
  exact Sees.ite (fun _ => Sees.pure) fun _ => Sees.pure

/-! ## deflate.rs -/

/-- The operations on the writer among those that are reported on. -/
def erase : List LogOp → List WOp
  | [] => []
  | .op o :: l => o :: erase l
  | .mark :: l => erase l
  | .treeSize :: l => erase l
  | .blockSize .. :: l => erase l

theorem erase_append : ∀ a b : List LogOp, erase (a ++ b) = erase a ++ erase b
  | [], _ => rfl
  | .op o :: l, b => congrArg (o :: ·) (erase_append l b)
  | .mark :: l, b => erase_append l b
  | .treeSize :: l, b => erase_append l b
  | .blockSize .. :: l, b => erase_append l b

theorem erase_map : ∀ l : List WOp, erase (l.map .op) = l
  | [] => rfl
  | o :: l => congrArg (o :: ·) (erase_map l)

/-- The blocks that are reported on exist. -/
def Exist (l : List LogOp) : Prop := ∀ lz a b, .blockSize lz a b ∈ l → (slice lz.litlens a b).isSome = true

theorem Exist.append {a b : List LogOp} (ha : Exist a) (hb : Exist b) : Exist (a ++ b) := fun lz x y h =>
  (List.mem_append.1 h).elim (ha lz x y) (hb lz x y)

theorem Exist.map (l : List WOp) : Exist (l.map .op) := fun lz x y h => by
  obtain ⟨_, _, h⟩ := List.mem_map.1 h
  cases h

theorem addBlockData_slice {lz77 : Lz77Store} {a b : Nat} {ll d : Array Nat} {ops : List WOp} (h : addBlockData lz77 a b ll d = some ops) :
    (slice lz77.litlens a b).isSome = true := by
  unfold addBlockData addLz77Data at h
  simp only [Option.bind_eq_bind, Option.bind_eq_some_iff] at h
  obtain ⟨_, -, _, -, _, ⟨items, hi, -⟩, -⟩ := h
  rw [hi]
  rfl

theorem addLz77Block_log [Checks] {btype : BlockType} {final : Bool} {inData : Array UInt8} {lz77 : Lz77Store} {a b : Nat} {ops : List WOp}
    (h : Zopfli.addLz77Block btype final inData lz77 a b = some ops) :
    ∃ lops, addLz77Block btype final inData lz77 a b = some lops ∧ Exist lops ∧ erase lops = ops := by
  cases btype with
  | uncompressed =>
    unfold Zopfli.addLz77Block at h
    unfold addLz77Block
    simp only [Option.bind_eq_bind, Option.bind_eq_some_iff] at h
    obtain ⟨n, h1, p, h2, h3⟩ := h
    rw [h1, some_bind, h2, some_bind, h3]
    exact ⟨_, rfl, Exist.map _, erase_map _⟩
  | fixed =>
    unfold Zopfli.addLz77Block at h
    unfold addLz77Block
    simp only [Option.bind_eq_bind, Option.bind_eq_some_iff, Option.pure_def, Option.some.injEq] at h
    obtain ⟨x, hx, rfl⟩ := h
    dsimp only
    rw [hx]
    refine ⟨_, rfl, ?_, ?_⟩
    · refine Exist.append (Exist.append ?_ (Exist.map _)) ?_
      · exact Exist.append (Exist.map [.bit final, .bit true, .bit false]) (by rintro lz x y (_ | ⟨_, ⟨⟩⟩))
      · rintro lz x y h
        rw [List.mem_singleton] at h
        cases h
        exact addBlockData_slice hx
    · rw [erase_append, erase_append, erase_map]
      show _ ++ [] = _
      rw [List.append_nil]
      rfl
  | dynamic =>
    unfold Zopfli.addLz77Block at h
    unfold addLz77Block
    simp only [Option.bind_eq_bind, Option.bind_eq_some_iff, Option.pure_def, Option.some.injEq] at h
    obtain ⟨⟨c, ll, d⟩, h1, tree, h2, x, hx, rfl⟩ := h
    dsimp only at h2 hx ⊢
    rw [h1, some_bind]
    dsimp only
    rw [h2, some_bind, hx]
    refine ⟨_, rfl, ?_, ?_⟩
    · refine Exist.append (Exist.append (Exist.append (Exist.append (Exist.append ?_ (Exist.map _)) ?_) ?_) (Exist.map _)) ?_
      · exact Exist.append (Exist.map [.bit final, .bit false, .bit true]) (by rintro lz x y (_ | ⟨_, ⟨⟩⟩))
      · rintro lz x y (_ | ⟨_, ⟨⟩⟩)
      · rintro lz x y (_ | ⟨_, ⟨⟩⟩)
      · rintro lz x y h
        rw [List.mem_singleton] at h
        cases h
        exact addBlockData_slice hx
    · rw [erase_append, erase_append, erase_append, erase_append, erase_append, erase_map, erase_map]
      show _ ++ _ ++ [] ++ [] ++ _ ++ [] = _
      rw [List.append_nil, List.append_nil, List.append_nil]
      rfl

theorem addLz77BlockAutoType_log [Checks] {F : FloatOps} {final : Bool} {inData : Array UInt8} {lz77 : Lz77Store} {a b : Nat} {ops : List WOp}
    (h : Zopfli.addLz77BlockAutoType F final inData lz77 a b = some ops) :
    ∃ lops, addLz77BlockAutoType F final inData lz77 a b = some lops ∧ Exist lops ∧ erase lops = ops := by
  unfold Zopfli.addLz77BlockAutoType at h
  unfold addLz77BlockAutoType
  rw [Option.bind_eq_bind, Option.bind_eq_some_iff] at h
  obtain ⟨c1, h1, h⟩ := h
  rw [Option.bind_eq_some_iff] at h
  obtain ⟨c2, h2, h⟩ := h
  rw [Option.bind_eq_some_iff] at h
  obtain ⟨c3, h3, h⟩ := h
  rw [h1, some_bind, h2, some_bind, h3, some_bind]
  dsimp only at h ⊢
  split at h
  · rename_i hab
    cases h
    rw [if_pos hab]
    exact ⟨_, rfl, Exist.map _, erase_map _⟩
  · rename_i hab
    rw [if_neg hab]
    rw [Option.bind_eq_bind, Option.bind_eq_some_iff] at h
    obtain ⟨⟨fs, fc⟩, h4, h⟩ := h
    rw [h4, some_bind]
    dsimp only at h ⊢
    split at h
    · rename_i hc
      rw [if_pos hc]
      exact addLz77Block_log h
    · rename_i hc
      rw [if_neg hc]
      split at h
      · rename_i hc
        rw [if_pos hc]
        split at h
        · rename_i hc
          rw [if_pos hc]
          exact addLz77Block_log h
        · rename_i hc
          rw [if_neg hc]
          exact addLz77Block_log h
      · rename_i hc
        rw [if_neg hc]
        exact addLz77Block_log h

theorem addSplitBlocks_log [Checks] {F : FloatOps} {inData : Array UInt8} {lz77 : Lz77Store} : ∀ (sp : List Nat) (last : Nat) {ops : List WOp} {k : Nat},
    Zopfli.addSplitBlocks F lz77 inData sp last = some (ops, k) →
    ∃ lops, addSplitBlocks F lz77 inData sp last = some (lops, k) ∧ Exist lops ∧ erase lops = ops
  | [], last, ops, k, h => by cases h; exact ⟨[], rfl, nofun, rfl⟩
  | item :: rest, last, ops, k, h => by
    unfold Zopfli.addSplitBlocks at h
    simp only [Option.bind_eq_bind, Option.bind_eq_some_iff, Prod.exists, Option.pure_def, Option.some.injEq, Prod.mk.injEq] at h
    obtain ⟨o1, h1, o2, k', h2, rfl, rfl⟩ := h
    obtain ⟨l1, e1, x1, r1⟩ := addLz77BlockAutoType_log h1
    obtain ⟨l2, e2, x2, r2⟩ := addSplitBlocks_log rest item h2
    unfold addSplitBlocks
    rw [e1, some_bind, e2, some_bind]
    exact ⟨_, rfl, x1.append x2, by rw [erase_append, r1, r2]⟩

theorem addAllBlocks_log [Checks] {F : FloatOps} {inData : Array UInt8} {lz77 : Lz77Store} {sp : List Nat} {final : Bool} {ops : List WOp}
    (h : Zopfli.addAllBlocks F sp lz77 final inData = some ops) :
    ∃ lops, addAllBlocks F sp lz77 final inData = some lops ∧ Exist lops ∧ erase lops = ops := by
  unfold Zopfli.addAllBlocks at h
  simp only [Option.bind_eq_bind, Option.bind_eq_some_iff, Prod.exists, Option.pure_def, Option.some.injEq] at h
  obtain ⟨o1, k, h1, o2, h2, rfl⟩ := h
  obtain ⟨l1, e1, x1, r1⟩ := addSplitBlocks_log sp 0 h1
  obtain ⟨l2, e2, x2, r2⟩ := addLz77BlockAutoType_log h2
  unfold addAllBlocks
  rw [e1, some_bind]
  dsimp only
  rw [e2]
  exact ⟨_, rfl, x1.append x2, by rw [erase_append, r1, r2]⟩

theorem deflatePart_log [Checks] {F : FloatOps} (G : Logger F.F64 lam) {options : Options} {btype : BlockType} {final : Bool} {inData : Array UInt8}
    {instart inend : Nat} {ops : List WOp} (h : Zopfli.deflatePart F options btype final inData instart inend = some ops) (l : lam) :
    ∃ lops l', deflatePart F G options btype final inData instart inend l = some (lops, l') ∧ Exist lops ∧ erase lops = ops := by
  cases btype with
  | uncompressed =>
    have h : addNonCompressedBlock final inData instart inend = some ops := h
    refine ⟨ops.map .op, l, ?_, Exist.map _, erase_map _⟩
    unfold deflatePart Log.lift
    dsimp only
    rw [h]
    rfl
  | fixed =>
    unfold Zopfli.deflatePart at h
    simp only [Option.bind_eq_bind, Option.bind_eq_some_iff, Prod.exists] at h
    obtain ⟨n, h1, s, c, h2, h3⟩ := h
    obtain ⟨lops, e, x, r⟩ := addLz77Block_log h3
    refine ⟨lops, l, ?_, x, r⟩
    unfold deflatePart Log.lift
    dsimp only
    rw [h1, some_bind, h2, some_bind, e]
    rfl
  | dynamic =>
    unfold Zopfli.deflatePart blocksplitAttempt at h
    simp only [Option.bind_eq_bind, Option.bind_eq_some_iff, Prod.exists] at h
    obtain ⟨lz, sp, h1, h2⟩ := h
    obtain ⟨l1, e1⟩ := (blocksplitPlan_sees F G options inData instart inend).get l _ h1
    obtain ⟨lops, e, x, r⟩ := addAllBlocks_log h2
    refine ⟨lops, l1, ?_, x, r⟩
    unfold deflatePart
    show andThen _ _ l = _
    unfold andThen
    rw [e1]
    dsimp only
    rw [e]
    rfl

/-! ## The writer -/

variable {S : Sink σ}

theorem addBytes_mono {w w' : BitwiseWriter σ} {b : List UInt8} {r : Except ErrKind Unit} (h : w.addBytes S b = some (r, w')) :
    w'.len = w.len + b.length ∧ w'.bp = w.bp := by
  unfold BitwiseWriter.addBytes at h
  simp only [Option.bind_eq_bind, Option.bind_eq_some_iff, Prod.exists, Option.pure_def, Option.some.injEq, Prod.mk.injEq] at h
  obtain ⟨_, _, -, -, rfl⟩ := h
  exact ⟨rfl, rfl⟩

theorem finishPartialBits_mono {w w' : BitwiseWriter σ} {r : Except ErrKind Unit} (h : w.finishPartialBits S = some (r, w')) :
    w.bytesWritten ≤ w'.bytesWritten := by
  unfold BitwiseWriter.finishPartialBits at h
  split at h
  · simp only [Option.bind_eq_bind, Option.bind_eq_some_iff, Prod.exists] at h
    obtain ⟨r1, w1, h1, h⟩ := h
    obtain ⟨e1, e2⟩ := addBytes_mono h1
    unfold BitwiseWriter.bytesWritten
    cases r1 with
    | error k =>
      cases h
      rw [e1, e2]
      simp only [List.length_singleton]
      omega
    | ok u =>
      cases h
      dsimp only
      rw [e1]
      simp only [List.length_singleton]
      split <;> omega
  · cases h
    exact Nat.le_refl _

theorem exec_mono [Checks] (hc : Checks.on = true) {w w' : BitwiseWriter σ} {o : WOp} {r : Except ErrKind Unit} (h : w.exec S o = some (r, w')) :
    w.bytesWritten ≤ w'.bytesWritten := by
  cases o with
  | bit b =>
    have h : w.addBit S b = some (r, w') := h
    unfold BitwiseWriter.addBit at h
    split at h
    · cases h
    · rename_i hn
      have hbp : w.bp < 8 := UInt8.not_le.1 fun h8 => hn ⟨hc, h8⟩
      have hb1 : (w.bp + 1) > 0 := by
        rw [gt_iff_lt, UInt8.lt_iff_toNat_lt, UInt8.toNat_add]
        rw [UInt8.lt_iff_toNat_lt] at hbp
        have : (8 : UInt8).toNat = 8 := rfl
        have : (1 : UInt8).toNat = 1 := rfl
        have : (0 : UInt8).toNat = 0 := rfl
        omega
      dsimp only at h
      have hle : w.bytesWritten ≤ BitwiseWriter.bytesWritten
          { w with bit := w.bit ||| ((if b then 1 else 0) <<< w.bp), bp := w.bp + 1 } := by
        unfold BitwiseWriter.bytesWritten
        dsimp only
        rw [if_pos hb1]
        split <;> omega
      split at h
      · exact Nat.le_trans hle (finishPartialBits_mono h)
      · cases h
        exact hle
  | align => exact finishPartialBits_mono h
  | bytes l =>
    obtain ⟨e1, e2⟩ := addBytes_mono (S := S) h
    unfold BitwiseWriter.bytesWritten
    rw [e1, e2]
    omega

theorem usizeSub_isSome [Checks] {a b : Nat} (h : Checks.on = true → b ≤ a) : ∃ c, usizeSub a b = some c := by
  unfold usizeSub
  split
  · exact ⟨_, rfl⟩
  · split
    · exact absurd (h ‹_›) ‹_›
    · exact ⟨_, rfl⟩

theorem execAll_sees [Checks] (G : Logger R lam) : ∀ (lops : List LogOp) (w : BitwiseWriter σ) (detect : Nat), Exist lops →
    (Checks.on = true → detect ≤ w.bytesWritten) → Sees (execAll G S w detect lops) (w.execAll S (erase lops))
  | [], _, _, _, _ => Sees.pure
  | .op o :: l, w, detect, hx, hd => by
    unfold execAll erase BitwiseWriter.execAll
    refine Sees.liftBind fun x he => ?_
    obtain ⟨r, w'⟩ := x
    cases r with
    | error k => exact Sees.pure
    | ok u =>
      exact execAll_sees G l w' detect (fun lz a b h => hx lz a b (List.mem_cons_of_mem _ h)) fun hc => Nat.le_trans (hd hc) (exec_mono hc he)
  | .mark :: l, w, detect, hx, hd => by
    unfold execAll erase
    exact execAll_sees G l w _ (fun lz a b h => hx lz a b (List.mem_cons_of_mem _ h)) fun _ => Nat.le_refl _
  | .treeSize :: l, w, detect, hx, hd => by
    unfold execAll erase
    obtain ⟨c, hc⟩ := usizeSub_isSome hd
    refine Sees.say (Sees.message ?_) (execAll_sees G l w _ (fun lz a b h => hx lz a b (List.mem_cons_of_mem _ h)) hd)
    rw [hc]
    rfl
  | .blockSize lz a b :: l, w, detect, hx, hd => by
    unfold execAll erase
    have ih := execAll_sees G l w detect (fun lz a b h => hx lz a b (List.mem_cons_of_mem _ h)) hd
    refine Sees.isEnabled fun on => ?_
    cases on with
    | false => exact ih
    | true =>
      rw [if_pos rfl]
      obtain ⟨items, hi⟩ := Option.isSome_iff_exists.1 (hx lz a b List.mem_cons_self)
      obtain ⟨c, hc⟩ := usizeSub_isSome hd
      rw [hi, hc]
      refine Sees.bind (g := fun _ => w.execAll S (erase l)) (o := some items) Sees.lift fun _ _ => ?_
      refine Sees.bind (g := fun _ => w.execAll S (erase l)) (o := some c) Sees.lift fun _ _ => ?_
      exact Sees.say (Sees.message rfl) ih

/-! ## The encoders -/

theorem compressChunk_sees [Checks] (env : Env σ) (G : Logger env.F.F64 lam) (e : DeflateEncoder σ) (isLast : Bool) :
    Sees (compressChunk env G e isLast) (e.compressChunk env isLast) := by
  unfold compressChunk DeflateEncoder.compressChunk
  refine Sees.liftBind fun w _ => ?_
  refine ⟨fun l a h => ?_⟩
  rw [Option.bind_eq_bind, Option.bind_eq_some_iff] at h
  obtain ⟨ops, h1, h2⟩ := h
  obtain ⟨lops, l1, e1, hx, rfl⟩ := deflatePart_log G h1 l
  show ∃ l', andThen _ _ l = _
  unfold andThen
  rw [e1]
  dsimp only
  refine (Sees.bind (execAll_sees G lops w 0 hx fun _ => Nat.zero_le _) fun x _ => ?_).get l1 a h2
  exact Sees.pure

theorem finishInner_sees [Checks] (env : Env σ) (G : Logger env.F.F64 lam) (e : DeflateEncoder σ) :
    Sees (finishInner env G e) (e.finishInner env) := by
  unfold finishInner DeflateEncoder.finishInner
  cases e.bitwiseWriter with
  | none => exact Sees.pure
  | some w0 =>
    dsimp only
    refine Sees.bind (compressChunk_sees ..) fun x _ => ?_
    obtain ⟨r, e'⟩ := x
    cases r with
    | error k => exact Sees.pure
    | ok u =>
      dsimp only
      refine Sees.liftBind fun w _ => Sees.liftBind fun y _ => ?_
      obtain ⟨r, w'⟩ := y
      cases r with
      | error k => exact Sees.pure
      | ok u => exact Sees.pure

theorem deflateWrite_sees [Checks] (env : Env σ) (G : Logger env.F.F64 lam) (e : DeflateEncoder σ) (buf : List UInt8) :
    Sees (deflateWrite env G e buf) (e.write env buf) := by
  unfold deflateWrite DeflateEncoder.write
  refine Sees.bind (Sees.ite (fun _ => compressChunk_sees ..) fun _ => Sees.pure) fun x _ => ?_
  obtain ⟨r, e'⟩ := x
  cases r with
  | error k => exact Sees.pure
  | ok u => exact Sees.pure

theorem dropWith_sees [Checks] (env : Env σ) (G : Logger env.F.F64 lam) (e : DeflateEncoder σ) (s : σ) :
    Sees (dropWith env G e s) (e.dropWith env s) := by
  unfold dropWith DeflateEncoder.dropWith
  exact Sees.bind (finishInner_sees ..) fun _ _ => Sees.pure

theorem deflateDrop_sees [Checks] (env : Env σ) (G : Logger env.F.F64 lam) (e : DeflateEncoder σ) :
    Sees (deflateDrop env G e) (e.drop env) := by
  unfold deflateDrop DeflateEncoder.drop
  exact Sees.liftBind fun _ _ => dropWith_sees ..

theorem deflateFinish_sees [Checks] (env : Env σ) (G : Logger env.F.F64 lam) (e : DeflateEncoder σ) :
    Sees (deflateFinish env G e) (e.finish env) := by
  unfold deflateFinish DeflateEncoder.finish
  refine Sees.bind (finishInner_sees ..) fun x _ => ?_
  obtain ⟨r, e', s⟩ := x
  cases r with
  | error k =>
    dsimp only
    exact Sees.liftBind fun _ _ => Sees.bind (dropWith_sees ..) fun _ _ => Sees.pure
  | ok o =>
    cases o with
    | none => exact Sees.none
    | some _ =>
      dsimp only
      exact Sees.liftBind fun _ _ => Sees.bind (dropWith_sees ..) fun _ _ => Sees.pure

theorem gzipWrite_sees [Checks] (env : Env σ) (G : Logger env.F.F64 lam) (e : GzipEncoder σ) (buf : List UInt8) :
    Sees (gzipWrite env G e buf) (e.write env buf) := by
  unfold gzipWrite GzipEncoder.write
  refine Sees.liftBind fun d _ => Sees.bind (deflateWrite_sees ..) fun x _ => ?_
  obtain ⟨r, e'⟩ := x
  cases r with
  | error k => exact Sees.pure
  | ok u => exact Sees.pure

theorem gzipFinishInner_sees [Checks] (env : Env σ) (G : Logger env.F.F64 lam) (e : GzipEncoder σ) (d : DeflateEncoder σ) :
    Sees (gzipFinishInner env G e d) (e.finishInner env d) := by
  unfold gzipFinishInner GzipEncoder.finishInner
  refine Sees.bind (deflateFinish_sees ..) fun x _ => ?_
  obtain ⟨r, s⟩ := x
  cases r with
  | error k => exact Sees.pure
  | ok u =>
    dsimp only
    refine Sees.liftBind fun y _ => ?_
    obtain ⟨r, s⟩ := y
    cases r with
    | error k => exact Sees.pure
    | ok u => exact Sees.lift

theorem zlibWrite_sees [Checks] (env : Env σ) (G : Logger env.F.F64 lam) (e : ZlibEncoder σ) (buf : List UInt8) :
    Sees (zlibWrite env G e buf) (e.write env buf) := by
  unfold zlibWrite ZlibEncoder.write
  refine Sees.liftBind fun d _ => Sees.bind (deflateWrite_sees ..) fun x _ => ?_
  obtain ⟨r, e'⟩ := x
  cases r with
  | error k => exact Sees.pure
  | ok u => exact Sees.pure

theorem zlibFinishInner_sees [Checks] (env : Env σ) (G : Logger env.F.F64 lam) (e : ZlibEncoder σ) (d : DeflateEncoder σ) :
    Sees (zlibFinishInner env G e d) (e.finishInner env d) := by
  unfold zlibFinishInner ZlibEncoder.finishInner
  refine Sees.bind (deflateFinish_sees ..) fun x _ => ?_
  obtain ⟨r, s⟩ := x
  cases r with
  | error k => exact Sees.pure
  | ok u => exact Sees.lift

theorem write_sees [Checks] (env : Env σ) (G : Logger env.F.F64 lam) (e : Encoder σ) (buf : List UInt8) :
    Sees (write env G e buf) (e.write env buf) := by
  cases e with
  | gzip e => exact Sees.bind (gzipWrite_sees ..) fun _ _ => Sees.pure
  | zlib e => exact Sees.bind (zlibWrite_sees ..) fun _ _ => Sees.pure
  | deflate e => exact Sees.bind (deflateWrite_sees ..) fun _ _ => Sees.pure

theorem finish_sees [Checks] (env : Env σ) (G : Logger env.F.F64 lam) (e : Encoder σ) :
    Sees (finish env G e) (e.finish env) := by
  cases e with
  | gzip e => exact Sees.liftBind fun _ _ => gzipFinishInner_sees ..
  | zlib e => exact Sees.liftBind fun _ _ => zlibFinishInner_sees ..
  | deflate e => exact deflateFinish_sees ..

theorem drop_sees [Checks] (env : Env σ) (G : Logger env.F.F64 lam) (e : Encoder σ) :
    Sees (drop env G e) (e.drop env) := by
  cases e with
  | gzip e => exact Sees.liftBind fun _ _ => Sees.bind (gzipFinishInner_sees ..) fun _ _ => Sees.pure
  | zlib e => exact Sees.liftBind fun _ _ => Sees.bind (zlibFinishInner_sees ..) fun _ _ => Sees.pure
  | deflate e => exact deflateDrop_sees ..

theorem run_sees [Checks] (env : Env σ) (G : Logger env.F.F64 lam) : ∀ (calls : List Call) (e : Encoder σ),
    Sees (run env G calls e) (e.run env calls)
  | [], _ => Sees.pure
  | .write buf :: l, e => by
    unfold run Encoder.run
    refine Sees.bind (write_sees ..) fun x _ => ?_
    obtain ⟨r, e'⟩ := x
    cases r with
    | error k => exact Sees.pure
    | ok u => exact run_sees env G l e'
  | .flush :: l, e => by
    unfold run Encoder.run
    refine Sees.liftBind fun x _ => ?_
    obtain ⟨r, e'⟩ := x
    cases r with
    | error k => exact Sees.pure
    | ok u => exact run_sees env G l e'

theorem session_sees [Checks] (env : Env σ) (G : Logger env.F.F64 lam) (fmt : Format) (calls : List Call) (ending : Ending) (sink : σ) :
    Sees (session env G fmt calls ending sink) (Zopfli.session env fmt calls ending sink) := by
  unfold session Zopfli.session
  refine Sees.liftBind fun x _ => ?_
  obtain ⟨r, s⟩ := x
  cases r with
  | error k => exact Sees.pure
  | ok e =>
    dsimp only
    refine Sees.bind (run_sees ..) fun y _ => ?_
    obtain ⟨r, e'⟩ := y
    cases r with
    | error k =>
      dsimp only
      exact Sees.bind (drop_sees ..) fun _ _ => Sees.pure
    | ok u =>
      dsimp only
      cases ending with
      | finish => exact finish_sees ..
      | drop => exact Sees.bind (drop_sees ..) fun _ _ => Sees.pure

end Log
end Zopfli
