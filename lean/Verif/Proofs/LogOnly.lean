import Verif.Proofs.Memory
import Verif.Spec.Buffered
/-!
# What the platform's logarithm can influence

`FloatOps.withLog` puts another `log2` in place of the given one.  Nothing but the statistics of the optimal parser depends on it, and
those ask for logarithms of integers only.
-/

namespace Zopfli

/-- The same arithmetic with another logarithm. -/
@[reducible] def FloatOps.withLog (F : FloatOps) (l : F.F64 → F.F64) : FloatOps := { F with log2 := l }

variable {F : FloatOps} {l : F.F64 → F.F64}

theorem map_bind_congr {α β γ : Type} {x : Option α} {f : α → Option β} {f' : α → Option γ} {g : β → γ} (h : ∀ a, (f a).map g = f' a) :
    (x >>= f).map g = x >>= f' := by
  cases x with
  | none => rfl
  | some a => exact h a

def BestState.re (s : BestState (F.withLog l)) : BestState F := ⟨s.i, s.h, s.lmc, s.costs, s.lengthArray, s.sublen⟩
def SymbolStats.re (s : SymbolStats (F.withLog l)) : SymbolStats F := ⟨s.litlens, s.dists, s.llSymbols, s.dSymbols⟩
def OptimalState.re (s : OptimalState (F.withLog l)) : OptimalState F :=
  ⟨s.lmc, s.outputstore, s.stats.re, s.beststats.re, s.bestcost, s.lastcost, s.ranState, s.lastrandomstep, s.currentIteration,
    s.iterationsWithoutImprovement⟩

theorem bestStep_log (costmodel : Nat → Nat → Option F.F64) (mincost : F.F64) (arr : Array UInt8) (instart inend : Nat)
    (s : BestState (F.withLog l)) :
    (bestStep (F.withLog l) costmodel mincost arr instart inend s).map (Sum.map BestState.re id)
      = bestStep F costmodel mincost arr instart inend s.re := by
  obtain ⟨i, h, lmc, costs, la, sub⟩ := s
  show _ = bestStep F costmodel mincost arr instart inend ⟨i, h, lmc, costs, la, sub⟩
  unfold bestStep
  dsimp only
  by_cases hi : i < inend
  · rw [if_pos hi, if_pos hi]
    refine map_bind_congr fun h => ?_
    refine map_bind_congr fun long => ?_
    refine map_bind_congr fun x => ?_
    refine map_bind_congr fun y => ?_
    refine map_bind_congr fun z => ?_
    refine map_bind_congr fun u => ?_
    refine map_bind_congr fun v => ?_
    refine map_bind_congr fun w => ?_
    rfl
  · rw [if_neg hi, if_neg hi]
    refine map_bind_congr fun h => ?_
    refine map_bind_congr fun long => ?_
    refine map_bind_congr fun x => ?_
    refine map_bind_congr fun y => ?_
    rfl

theorem getBestLengths_log (lmc : Cache) (inData : Array UInt8) (instart inend : Nat) (costmodel : Nat → Nat → Option F.F64) :
    getBestLengths (F.withLog l) lmc inData instart inend costmodel = getBestLengths F lmc inData instart inend costmodel := by
  unfold getBestLengths
  refine bind_congr fun bs => ?_
  by_cases h : instart = inend
  · rw [if_pos h, if_pos h]
  · rw [if_neg h, if_neg h]
    refine bind_congr fun arr => ?_
    refine bind_congr fun hs => ?_
    refine bind_congr fun costs => ?_
    refine bind_congr fun mc => ?_
    rw [← Option.map_id_apply (x := loopM (bestStep (F.withLog l) costmodel mc arr instart inend) _)]
    exact loopM_carry BestState.re id (fun s => bestStep_log costmodel mc arr instart inend s) _

theorem lz77OptimalRun_log (lmc : Cache) (inData : Array UInt8) (instart inend : Nat) (costmodel : Nat → Nat → Option F.F64) (store : Lz77Store) :
    lz77OptimalRun (F.withLog l) lmc inData instart inend costmodel store = lz77OptimalRun F lmc inData instart inend costmodel store := by
  unfold lz77OptimalRun
  rw [getBestLengths_log]

theorem lz77OptimalFixed_log (lmc : Cache) (inData : Array UInt8) (instart inend : Nat) (store : Lz77Store) :
    lz77OptimalFixed (F.withLog l) lmc inData instart inend store = lz77OptimalFixed F lmc inData instart inend store :=
  lz77OptimalRun_log lmc inData instart inend (getCostFixed F) store

/-! ## The statistics -/

section
variable (h : ∀ n : Nat, l (F.ofUsize n) = F.log2 (F.ofUsize n))
include h

theorem entropyOf_log (count : Array Nat) : entropyOf (F.withLog l) count = entropyOf F count := by
  unfold entropyOf
  have h' : ∀ n : Nat, (F.withLog l).log2 ((F.withLog l).ofUsize n) = F.log2 (F.ofUsize n) := h
  show count.map (fun c => if c = 0 then (F.withLog l).log2 ((F.withLog l).ofUsize (if count.toList.sum = 0 then count.size else count.toList.sum))
    else F.sub ((F.withLog l).log2 ((F.withLog l).ofUsize (if count.toList.sum = 0 then count.size else count.toList.sum)))
      ((F.withLog l).log2 ((F.withLog l).ofUsize c))) = _
  rw [h']
  refine congrArg (fun g => count.map g) (funext fun c => ?_)
  rw [h']

theorem calculateEntropy_log (s : SymbolStats (F.withLog l)) : s.calculateEntropy.re = s.re.calculateEntropy := by
  unfold SymbolStats.calculateEntropy SymbolStats.re
  simp only [entropyOf_log h]

theorem getStatistics_log (s : SymbolStats (F.withLog l)) (store : Lz77Store) :
    (s.getStatistics store).map SymbolStats.re = s.re.getStatistics store := by
  unfold SymbolStats.getStatistics
  refine map_bind_congr fun x => ?_
  refine map_bind_congr fun y => ?_
  exact congrArg some (calculateEntropy_log h _)

omit h in
theorem addWeighedStatFreqs_log (s t : SymbolStats (F.withLog l)) :
    (addWeighedStatFreqs (F.withLog l) s t).map SymbolStats.re = addWeighedStatFreqs F s.re t.re := by
  unfold addWeighedStatFreqs
  refine map_bind_congr fun x => ?_
  refine map_bind_congr fun y => ?_
  refine map_bind_congr fun y => ?_
  rfl

omit h in
theorem randomizeStatFreqs_log (s : SymbolStats (F.withLog l)) (r : RanState) :
    (s.randomizeStatFreqs r).map (Prod.map SymbolStats.re id) = s.re.randomizeStatFreqs r := by
  unfold SymbolStats.randomizeStatFreqs
  refine map_bind_congr fun x => ?_
  refine map_bind_congr fun y => ?_
  refine map_bind_congr fun y => ?_
  rfl

omit h in
theorem map_bind_map {α α' β γ : Type} {x : Option α} {x' : Option α'} {k : α → α'} {f : α → Option β} {f' : α' → Option γ} {g : β → γ}
    (hx : x.map k = x') (hf : ∀ a, (f a).map g = f' (k a)) : (x >>= f).map g = x' >>= f' := by
  subst hx
  cases x with
  | none => rfl
  | some a => exact hf a

theorem nextStats_log (store : Lz77Store) (cost lastcost : F.F64) (cur : Nat) (lr : Option Nat) (s b : SymbolStats (F.withLog l)) (r : RanState) :
    (nextStats (F.withLog l) store cost lastcost cur lr s b r).map (Prod.map SymbolStats.re id)
      = nextStats F store cost lastcost cur lr s.re b.re r := by
  unfold nextStats
  dsimp only
  refine map_bind_map (k := SymbolStats.re) (getStatistics_log h _ store) fun s1 => ?_
  refine map_bind_map (k := SymbolStats.re) ?_ fun s2 => ?_
  · by_cases h1 : lr ≠ none
    · rw [if_pos h1, if_pos h1]
      exact map_bind_map (k := SymbolStats.re) (addWeighedStatFreqs_log _ _) fun t => congrArg some (calculateEntropy_log h t)
    · rw [if_neg h1, if_neg h1]; rfl
  · by_cases h1 : cur > 5 ∧ F.lt (F.abs (F.sub cost lastcost)) F.eps
    · rw [if_pos h1, if_pos h1]
      refine map_bind_map (k := Prod.map SymbolStats.re id) (randomizeStatFreqs_log _ _) fun t => ?_
      exact congrArg some (Prod.ext (calculateEntropy_log h t.1) rfl)
    · rw [if_neg h1, if_neg h1]; rfl

theorem optimalStep_log [Checks] (inData : Array UInt8) (instart inend mi mw : Nat) (s : OptimalState (F.withLog l)) :
    (optimalStep (F.withLog l) inData instart inend mi mw s).map (Sum.map OptimalState.re id)
      = optimalStep F inData instart inend mi mw s.re := by
  obtain ⟨lmc, out, stats, best, bc, lc, ran, lr, cur, wo⟩ := s
  show _ = optimalStep F inData instart inend mi mw ⟨lmc, out, stats.re, best.re, bc, lc, ran, lr, cur, wo⟩
  unfold optimalStep
  dsimp only
  refine map_bind_map (k := id) ?_ fun x => ?_
  · rw [Option.map_id]
    exact lz77OptimalRun_log lmc inData instart inend (getCostStat F stats.re) Lz77Store.new
  refine map_bind_congr fun cost => ?_
  have key : ∀ (b' : SymbolStats (F.withLog l)) (out' : Lz77Store) (bc' : F.F64) (wo' : Nat) (p : Prop) [Decidable p],
      Option.map (Sum.map OptimalState.re id)
        (if p then (some (Sum.inr out') : Option (OptimalState (F.withLog l) ⊕ Lz77Store))
         else if cur + 1 ≥ mi then some (Sum.inr out')
         else nextStats (F.withLog l) x.1 cost lc (cur + 1) lr stats b' ran >>= fun y =>
           some (Sum.inl ⟨x.2, out', y.1, b', bc', cost, y.2.1, y.2.2, cur + 1, wo'⟩))
        = (if p then (some (Sum.inr out') : Option (OptimalState F ⊕ Lz77Store))
         else if cur + 1 ≥ mi then some (Sum.inr out')
         else nextStats F x.1 cost lc (cur + 1) lr stats.re b'.re ran >>= fun y =>
           some (Sum.inl ⟨x.2, out', y.1, b'.re, bc', cost, y.2.1, y.2.2, cur + 1, wo'⟩)) := by
    intro b' out' bc' wo' p _
    by_cases hp : p
    · rw [if_pos hp, if_pos hp]; rfl
    · rw [if_neg hp, if_neg hp]
      by_cases hc : cur + 1 ≥ mi
      · rw [if_pos hc, if_pos hc]; rfl
      · rw [if_neg hc, if_neg hc]
        exact map_bind_map (k := Prod.map SymbolStats.re id) (nextStats_log h _ _ _ _ _ _ _ _) fun t => rfl
  have e : (if (F.withLog l).lt cost bc = true then stats else best).re = if F.lt cost bc = true then stats.re else best.re := by
    by_cases hb : F.lt cost bc = true
    · rw [if_pos hb, if_pos hb]
    · rw [if_neg hb, if_neg hb]
  rw [← e]
  exact key _ _ _ _ _

theorem lz77Optimal_log [Checks] (lmc : Cache) (inData : Array UInt8) (instart inend mi mw : Nat) :
    lz77Optimal (F.withLog l) lmc inData instart inend mi mw = lz77Optimal F lmc inData instart inend mi mw := by
  unfold lz77Optimal
  refine bind_congr fun x => ?_
  refine Eq.trans (Option.map_id_apply (x := _)).symm ?_
  refine map_bind_map (k := SymbolStats.re) (getStatistics_log h _ _) fun s => ?_
  exact loopM_carry OptimalState.re id (fun s => optimalStep_log h inData instart inend mi mw s) _

/-! ## The blocks -/

omit h in
theorem addLz77BlockAutoType_log [Checks] (f : Bool) (d : Array UInt8) (lz77 : Lz77Store) (a b : Nat) :
    addLz77BlockAutoType (F.withLog l) f d lz77 a b = addLz77BlockAutoType F f d lz77 a b := by
  unfold addLz77BlockAutoType
  simp only [lz77OptimalFixed_log]
  rfl

omit h in
theorem addSplitBlocks_log [Checks] (lz77 : Lz77Store) (d : Array UInt8) :
    ∀ (l' : List Nat) (a : Nat), addSplitBlocks (F.withLog l) lz77 d l' a = addSplitBlocks F lz77 d l' a
  | [], _ => rfl
  | i :: l', a => by simp only [addSplitBlocks, addLz77BlockAutoType_log, addSplitBlocks_log lz77 d l']

omit h in
theorem totalCostOf_log [Checks] (lz77 : Lz77Store) :
    ∀ (l' : List Nat) (a : Nat) (c : F.F64), totalCostOf (F.withLog l) lz77 l' a c = totalCostOf F lz77 l' a c
  | [], _, _ => rfl
  | i :: l', a, c => by
    unfold totalCostOf
    refine bind_congr fun x => ?_
    exact totalCostOf_log lz77 l' i _

theorem optimizeParts_log [Checks] (o : Options) (d : Array UInt8) :
    ∀ (l' : List Nat) (x : Lz77Store × List Nat × F.F64 × Nat), optimizeParts (F.withLog l) o d l' x = optimizeParts F o d l' x
  | [], _ => rfl
  | i :: l', (a, b, c, e) => by
    unfold optimizeParts
    simp only [lz77Optimal_log h]
    refine bind_congr fun x => ?_
    refine bind_congr fun x => ?_
    refine bind_congr fun x => ?_
    refine bind_congr fun x => ?_
    refine bind_congr fun x => ?_
    exact optimizeParts_log o d l' _

theorem blocksplitPlan_log [Checks] (o : Options) (d : Array UInt8) (a b : Nat) :
    blocksplitPlan (F.withLog l) o d a b = blocksplitPlan F o d a b := by
  unfold blocksplitPlan
  simp only [lz77Optimal_log h]
  refine bind_congr fun sp => ?_
  rw [optimizeParts_log h]
  refine bind_congr fun x => ?_
  refine bind_congr fun x => ?_
  refine bind_congr fun x => ?_
  refine bind_congr fun x => ?_
  refine bind_congr fun x => ?_
  refine bind_congr fun lz => ?_
  split
  · refine bind_congr fun sp2 => ?_
    have e := totalCostOf_log (F := F) (l := l) lz sp2 0 (F.ofUsize 0)
    change totalCostOf (F.withLog l) lz sp2 0 ((F.withLog l).ofUsize 0) = _ at e
    rw [e]
  · rfl

/-- The blocks of a part with either logarithm. -/
theorem deflatePart_log [Checks] (o : Options) (bt : BlockType) (f : Bool) (d : Array UInt8) (a b : Nat) :
    deflatePart (F.withLog l) o bt f d a b = deflatePart F o bt f d a b := by
  unfold deflatePart
  cases bt with
  | uncompressed => rfl
  | fixed => simp only [lz77OptimalFixed_log]
  | dynamic => 
    simp only [blocksplitAttempt, blocksplitPlan_log h, addAllBlocks, addSplitBlocks_log, addLz77BlockAutoType_log]

omit h in
/-- Outside the dynamic mode there is no logarithm. -/
theorem deflatePart_no_log [Checks] (o : Options) {bt : BlockType} (hb : bt ≠ .dynamic) (f : Bool) (d : Array UInt8) (a b : Nat) :
    deflatePart (F.withLog l) o bt f d a b = deflatePart F o bt f d a b := by
  unfold deflatePart
  cases bt with
  | uncompressed => rfl
  | fixed => simp only [lz77OptimalFixed_log]
  | dynamic => exact absurd rfl hb

end

/-! ## The encoders: whoever compresses parts alike does everything alike -/

/-- The two environments have the same sink and make the same blocks of the same part. -/
structure SameParts [Checks] {σ : Type} (env env' : Env σ) : Prop where
  sink : env'.S = env.S
  part : ∀ f d a b, deflatePart env'.F env'.options env'.btype f d a b = deflatePart env.F env.options env.btype f d a b

section
variable [Checks] {σ : Type} {env env' : Env σ} (h : SameParts env env')
include h

theorem SameParts.symm : SameParts env' env := ⟨h.sink.symm, fun f d a b => (h.part f d a b).symm⟩

theorem SameParts.chunk (e : DeflateEncoder σ) (l : Bool) : e.compressChunk env' l = e.compressChunk env l := by
  unfold DeflateEncoder.compressChunk
  simp only [h.part, h.sink]

theorem SameParts.finishInner (e : DeflateEncoder σ) : e.finishInner env' = e.finishInner env := by
  unfold DeflateEncoder.finishInner
  simp only [h.chunk, h.sink]

theorem SameParts.dropWith (e : DeflateEncoder σ) (s : σ) : e.dropWith env' s = e.dropWith env s := by
  unfold DeflateEncoder.dropWith
  rw [h.finishInner]

theorem SameParts.deflateFinish (e : DeflateEncoder σ) : e.finish env' = e.finish env := by
  unfold DeflateEncoder.finish
  simp only [h.finishInner, h.dropWith]

theorem SameParts.new (fmt : Format) (s : σ) : Encoder.new env' fmt s = Encoder.new env fmt s := by
  unfold Encoder.new GzipEncoder.new ZlibEncoder.new
  rw [h.sink]

theorem SameParts.write (e : Encoder σ) (buf : List UInt8) : e.write env' buf = e.write env buf := by
  have hd : ∀ d : DeflateEncoder σ, d.write env' buf = d.write env buf := by
    intro d
    unfold DeflateEncoder.write
    simp only [h.chunk]
  cases e with
  | gzip e => simp only [Encoder.write, GzipEncoder.write, hd]
  | zlib e => simp only [Encoder.write, ZlibEncoder.write, hd]
  | deflate e => simp only [Encoder.write, hd]

theorem SameParts.flush (e : Encoder σ) : e.flush env' = e.flush env := by
  cases e with
  | gzip e => simp only [Encoder.flush, GzipEncoder.flush, DeflateEncoder.flush, h.sink]
  | zlib e => simp only [Encoder.flush, ZlibEncoder.flush, DeflateEncoder.flush, h.sink]
  | deflate e => simp only [Encoder.flush, DeflateEncoder.flush, h.sink]

theorem SameParts.finish (e : Encoder σ) : e.finish env' = e.finish env := by
  cases e with
  | gzip e => simp only [Encoder.finish, GzipEncoder.finish, GzipEncoder.finishInner, h.deflateFinish, h.sink]
  | zlib e => simp only [Encoder.finish, ZlibEncoder.finish, ZlibEncoder.finishInner, h.deflateFinish, h.sink]
  | deflate e => simp only [Encoder.finish, h.deflateFinish]

theorem SameParts.drop (e : Encoder σ) : e.drop env' = e.drop env := by
  cases e with
  | gzip e => simp only [Encoder.drop, GzipEncoder.drop, GzipEncoder.finishInner, h.deflateFinish, h.sink]
  | zlib e => simp only [Encoder.drop, ZlibEncoder.drop, ZlibEncoder.finishInner, h.deflateFinish, h.sink]
  | deflate e => simp only [Encoder.drop, DeflateEncoder.drop, h.dropWith]

theorem SameParts.run : ∀ (calls : List Call) (e : Encoder σ), e.run env' calls = e.run env calls
  | [], _ => rfl
  | .write buf :: l, e => by simp only [Encoder.run, h.write, SameParts.run l]
  | .flush :: l, e => by simp only [Encoder.run, h.flush, SameParts.run l]

theorem SameParts.session (fmt : Format) (calls : List Call) (ending : Ending) (s : σ) :
    session env' fmt calls ending s = session env fmt calls ending s := by
  unfold Zopfli.session
  simp only [h.new, h.run, h.finish, h.drop]

/-! ### Buffered encoders -/

theorem SameParts.flushBuf_le (e : Encoder σ) (buf : List UInt8) (r) : flushBuf env' e buf = some r → flushBuf env e buf = some r := by
  revert e buf r
  refine flushBuf.partial_correctness (env := env') (motive := fun e buf r => flushBuf env e buf = some r) ?_
  intro f ih e buf r hr
  rw [flushBuf.eq_1]
  rw [h.write] at hr
  split at hr
  · rename_i h0; rw [if_pos h0]; exact hr
  · rename_i h0
    rw [if_neg h0]
    cases hw : e.write env buf with
    | none => rw [hw] at hr; cases hr
    | some p =>
      obtain ⟨q, e'⟩ := p
      rw [hw, some_bind] at hr
      rw [some_bind]
      dsimp only at hr ⊢
      split at hr
      · exact hr
      · exact ih _ _ _ hr
      · exact ih _ _ _ hr
      · exact hr

omit h in
theorem some_eq_of_le {α : Type} {x y : Option α} (h1 : ∀ a, x = some a → y = some a) (h2 : ∀ a, y = some a → x = some a) : x = y := by
  cases x with
  | some a => exact (h1 a rfl).symm
  | none =>
    cases y with
    | none => rfl
    | some a => exact h2 a rfl

theorem SameParts.flushBuf (e : Encoder σ) (buf : List UInt8) : flushBuf env' e buf = flushBuf env e buf :=
  some_eq_of_le (h.flushBuf_le e buf) (h.symm.flushBuf_le e buf)

theorem SameParts.copyLoop_le {ρ : Type} (R : Reader ρ) (r : ρ) (e : Encoder σ) (buf : List UInt8) (x) :
    copyLoop env' R r e buf = some x → copyLoop env R r e buf = some x := by
  revert r e buf x
  refine copyLoop.partial_correctness (env := env') (R := R) (motive := fun r e buf x => copyLoop env R r e buf = some x) ?_
  intro f ih r e buf x hr
  rw [copyLoop.eq_1]
  rw [h.flushBuf] at hr
  dsimp only at hr ⊢
  split at hr
  · rename_i h0
    rw [if_pos h0]
    split at hr
    · exact hr
    · split at hr
      · rename_i h2; rw [if_pos h2]; exact ih _ _ _ _ hr
      · cases hr
    · exact ih _ _ _ _ hr
    · exact hr
  · rename_i h0
    rw [if_neg h0]
    split at hr
    · cases hr
    · exact hr
    · exact ih _ _ _ _ hr

theorem SameParts.copyLoop {ρ : Type} (R : Reader ρ) (r : ρ) (e : Encoder σ) (buf : List UInt8) :
    copyLoop env' R r e buf = copyLoop env R r e buf :=
  some_eq_of_le (h.copyLoop_le R r e buf) (h.symm.copyLoop_le R r e buf)

theorem SameParts.dropBuffered (e : Encoder σ) (buf : List UInt8) : dropBuffered env' e buf = dropBuffered env e buf := by
  unfold Zopfli.dropBuffered
  simp only [h.flushBuf, h.drop]

theorem SameParts.bufNew (fmt : Format) (s : σ) : BufEncoder.new env' fmt s = BufEncoder.new env fmt s := by
  unfold BufEncoder.new
  rw [h.new]

theorem SameParts.bufWrite (b : BufEncoder σ) (data : List UInt8) : b.write env' data = b.write env data := by
  unfold BufEncoder.write
  simp only [h.flushBuf, h.write]

theorem SameParts.bufFlush (b : BufEncoder σ) : b.flush env' = b.flush env := by
  unfold BufEncoder.flush
  simp only [h.flushBuf, h.flush]

theorem SameParts.bufDrop (b : BufEncoder σ) : b.drop env' = b.drop env := h.dropBuffered _ _

theorem SameParts.bufFinish (b : BufEncoder σ) : b.intoInnerFinish env' = b.intoInnerFinish env := by
  unfold BufEncoder.intoInnerFinish
  simp only [h.flushBuf, h.bufDrop, h.finish]

theorem SameParts.bufRun : ∀ (calls : List Call) (b : BufEncoder σ), b.run env' calls = b.run env calls
  | [], _ => rfl
  | .write buf :: l, e => by simp only [BufEncoder.run, h.bufWrite, SameParts.bufRun l]
  | .flush :: l, e => by simp only [BufEncoder.run, h.bufFlush, SameParts.bufRun l]

theorem SameParts.bufferedSession (fmt : Format) (calls : List Call) (ending : Ending) (s : σ) :
    bufferedSession env' fmt calls ending s = bufferedSession env fmt calls ending s := by
  unfold Zopfli.bufferedSession
  simp only [h.bufNew, h.bufRun, h.bufFinish, h.bufDrop]

theorem SameParts.writeAll (b : BufEncoder σ) (data : List UInt8) : b.writeAll env' data = b.writeAll env data := by
  unfold BufEncoder.writeAll
  simp only [h.flushBuf]

theorem SameParts.copyTo_le {ρ : Type} (src : Source ρ) (r : ρ) (b : BufEncoder σ) (x) :
    copyTo env' src r b = some x → copyTo env src r b = some x := by
  revert r b x
  refine copyTo.partial_correctness (env := env') (src := src) (motive := fun r b x => copyTo env src r b = some x) ?_
  intro f ih r b x hr
  rw [copyTo.eq_1]
  split at hr
  · exact hr
  · rw [h.writeAll] at hr
    split at hr
    · cases hr
    · exact ih _ _ _ hr
    · exact hr
  · exact ih _ _ _ hr
  · exact hr

theorem SameParts.copyTo {ρ : Type} (src : Source ρ) (r : ρ) (b : BufEncoder σ) : copyTo env' src r b = copyTo env src r b :=
  some_eq_of_le (h.copyTo_le src r b) (h.symm.copyTo_le src r b)

end

end Zopfli
