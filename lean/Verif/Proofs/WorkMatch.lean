import Verif.Proofs.Work
import Verif.Proofs.GetMatch
/-!
# Steps of the match finder
-/

namespace Zopfli
namespace Work

theorem guardR_some {c : Bool} {u : Unit} (h : guardR c = some u) : c = true := by
  cases c
  · cases h
  · rfl

theorem aset_size' {α : Type} {a b : Array α} {i : Nat} {v : α} (h : aset a i v = some b) : b.size = a.size ∧ i < a.size := by
  unfold aset at h
  split at h
  · cases h
    exact ⟨Array.size_set _, ‹_›⟩
  · cases h

theorem storeSublenLoop_cost (subl : Array Nat) (start length : Nat) : ∀ (cache : Array Nat) (i j bestlength : Nat),
    Cost (storeSublenLoop subl start length cache i j bestlength) (Zopfli.storeSublenLoop subl start length cache i j bestlength)
      fun _ t => t ≤ length + 1 - i := by
  intro cache i
  induction hn : length + 1 - i generalizing cache i with
  | zero =>
    intro j bestlength
    rw [storeSublenLoop, Zopfli.storeSublenLoop, if_neg (by omega), if_neg (by omega)]
    exact Cost.pure (by omega)
  | succ n ih =>
    intro j bestlength
    rw [storeSublenLoop, Zopfli.storeSublenLoop, if_pos (by omega), if_pos (by omega)]
    refine Cost.tick (Cost.liftBind fun s _ => Cost.liftBind fun d _ => ?_)
    refine Cost.ite (fun _ => ?_) fun _ => ?_
    · refine Cost.liftBind fun c1 _ => Cost.liftBind fun c2 _ => Cost.liftBind fun c3 _ => ?_
      refine Cost.ite (fun _ => Cost.pure (by omega)) fun _ => ?_
      exact (ih c3 (i + 1) (by omega) (j + 1) i).mono fun _ t _ h => by omega
    · exact (ih cache (i + 1) (by omega) j bestlength).mono fun _ t _ h => by omega

theorem storeSublen_cost (cache subl : Array Nat) (pos length : Nat) :
    Cost (storeSublen cache subl pos length) (Zopfli.storeSublen cache subl pos length) fun _ t => t ≤ length - 2 := by
  unfold storeSublen Zopfli.storeSublen
  refine Cost.ite (fun _ => Cost.pure (by omega)) fun hl => ?_
  refine Cost.bind (storeSublenLoop_cost ..) fun a t _ p => ?_
  exact Cost.lift fun _ _ => by omega

theorem fillSublen_size {subl subl' : Array Nat} {i length dist : Nat} (h : fillSublen subl i length dist = some subl') :
    subl'.size = subl.size ∧ length + 1 - i ≤ subl.size := by
  have key : ∀ (n i : Nat) (s s' : Array Nat), Zopfli.forN (fun k s => aset s k dist) n i s = some s' → s'.size = s.size ∧ n ≤ s.size := by
    intro n
    have gen : ∀ (n i : Nat) (s s' : Array Nat), Zopfli.forN (fun k s => aset s k dist) n i s = some s' → s'.size = s.size ∧ (n = 0 ∨ i + n ≤ s.size) := by
      intro n
      induction n with
      | zero => intro i s s' h; cases h; exact ⟨rfl, .inl rfl⟩
      | succ n ih =>
        intro i s s' h
        rw [Zopfli.forN, Option.bind_eq_bind, Option.bind_eq_some_iff] at h
        obtain ⟨s1, h1, h2⟩ := h
        obtain ⟨e1, l1⟩ := aset_size' h1
        obtain ⟨e2, l2⟩ := ih _ _ _ h2
        exact ⟨by omega, by omega⟩
    intro i s s' h
    obtain ⟨a, b⟩ := gen n i s s' h
    exact ⟨a, by omega⟩
  exact key _ _ _ _ h

theorem fetchSublenLoop_cost (cache : Array Nat) (start maxlength : Nat) : ∀ (n j prevlength : Nat) (subl : Array Nat),
    Cost (fetchSublenLoop cache start maxlength n j prevlength subl) (Zopfli.fetchSublenLoop cache start maxlength n j prevlength subl)
      fun subl' t => subl'.size = subl.size ∧ t ≤ n * (1 + subl.size)
  | 0, j, prevlength, subl => Cost.pure ⟨rfl, by omega⟩
  | n + 1, j, prevlength, subl => by
    rw [fetchSublenLoop, Zopfli.fetchSublenLoop]
    refine Cost.tick ?_
    refine Cost.liftBind fun x _ => Cost.liftBind fun y _ => Cost.liftBind fun z _ => ?_
    refine Cost.tick (Cost.liftBind fun subl1 h1 => ?_)
    obtain ⟨s1, l1⟩ := fillSublen_size h1
    refine Cost.ite (fun _ => Cost.pure ⟨s1, ?_⟩) fun _ => ?_
    · rw [Nat.add_mul]; omega
    · refine (fetchSublenLoop_cost cache start maxlength n (j + 1) _ subl1).mono fun s t _ p => ?_
      rw [s1] at p
      refine ⟨p.1, ?_⟩
      rw [Nat.add_mul]
      have := p.2
      omega

theorem fetchSublen_cost (cache : Array Nat) (pos length : Nat) (subl : Array Nat) :
    Cost (fetchSublen cache pos length subl) (Zopfli.fetchSublen cache pos length subl)
      fun subl' t => subl'.size = subl.size ∧ t ≤ 8 * (1 + subl.size) := by
  unfold fetchSublen Zopfli.fetchSublen
  refine Cost.ite (fun _ => Cost.pure ⟨rfl, by omega⟩) fun hl => ?_
  exact Cost.liftBind fun m _ => fetchSublenLoop_cost ..

/-- The buffer for shorter lengths, if any, has 259 cells. -/
def SubOk (s : Option (Array Nat)) : Prop := ∀ a, s = some a → a.size = 259

theorem lmcTryGet_cost (c : LongestMatchCache) (pos limit : Nat) (sublen : Option (Array Nat)) (blockstart : Nat) (hs : SubOk sublen) (hl : limit ≤ 258) :
    Cost (lmcTryGet c pos limit sublen blockstart) (c.tryGet pos limit sublen blockstart)
      fun r t => SubOk r.2 ∧ (r.1.fromCache = true → r.1.length ≤ 258) ∧ t ≤ 2081 := by
  unfold lmcTryGet LongestMatchCache.tryGet
  refine Cost.tick ?_
  by_cases hp : pos < blockstart
  · simp only [if_pos hp]
    exact Cost.noneBind
  · simp only [if_neg hp]
    refine Cost.liftBind fun l _ => Cost.liftBind fun d _ => Cost.liftBind fun ms _ => ?_
    refine Cost.ite (fun _ => Cost.ite (fun _ => ?_) fun _ => ?_) fun _ => ?_
    · cases sublen with
      | none => exact Cost.pure ⟨nofun, fun _ => by dsimp only; omega, by omega⟩
      | some subl =>
        refine Cost.bind (fetchSublen_cost ..) fun s t _ p => ?_
        have h259 := hs _ rfl
        refine Cost.liftBind fun dist _ => ?_
        have fin : SubOk (some s) ∧ (true = true → min l (limit % 65536) ≤ 258) ∧ 1 + (t + 0) ≤ 2081 := by
          refine ⟨?_, fun _ => by omega, by omega⟩
          rintro a ⟨⟩
          omega
        by_cases hc : limit = MAX_MATCH ∧ min l (limit % 65536) ≥ MIN_MATCH
        · simp only [if_pos hc]
          exact Cost.liftBind fun _ _ => Cost.pure fin
        · simp only [if_neg hc]
          exact Cost.liftBind fun _ _ => Cost.pure fin
    · exact Cost.pure ⟨hs, nofun, by omega⟩
    · exact Cost.pure ⟨hs, nofun, by omega⟩

theorem tryGet_cost (c : Cache) (pos limit : Nat) (sublen : Option (Array Nat)) (blockstart : Nat) (hs : SubOk sublen) (hl : limit ≤ 258) :
    Cost (tryGet c pos limit sublen blockstart) (c.tryGet pos limit sublen blockstart)
      fun r t => SubOk r.2 ∧ (r.1.fromCache = true → r.1.length ≤ 258) ∧ t ≤ 2081 := by
  cases c with
  | noCache => exact Cost.pure ⟨hs, nofun, by omega⟩
  | lmc c => exact lmcTryGet_cost c pos limit sublen blockstart hs hl

theorem lmcStore_cost (c : LongestMatchCache) (pos limit : Nat) (sublen : Option (Array Nat)) (distance length blockstart : Nat) :
    Cost (lmcStore c pos limit sublen distance length blockstart) (c.store pos limit sublen distance length blockstart)
      fun _ t => t ≤ 1 + (length - 2) := by
  obtain ⟨ls, ds, sub⟩ := c
  cases sublen with
  | none => exact Cost.pure (by omega)
  | some subl =>
    unfold lmcStore LongestMatchCache.store
    dsimp only
    refine Cost.tick ?_
    by_cases hp : pos < blockstart
    · simp only [if_pos hp]
      exact Cost.noneBind
    · simp only [if_neg hp]
      refine Cost.liftBind fun l0 _ => Cost.liftBind fun d0 _ => ?_
      refine Cost.ite (fun _ => ?_) fun _ => Cost.pure (by omega)
      refine Cost.liftBind fun _ _ => Cost.liftBind fun ds' _ => Cost.liftBind fun ls' _ => ?_
      refine Cost.liftBind fun l1 _ => Cost.liftBind fun d1 _ => Cost.liftBind fun _ _ => ?_
      exact Cost.bind (storeSublen_cost ..) fun a t _ p => Cost.pure (by omega)

theorem cacheStore_cost (c : Cache) (pos limit : Nat) (sublen : Option (Array Nat)) (distance length blockstart : Nat) :
    Cost (cacheStore c pos limit sublen distance length blockstart) (c.store pos limit sublen distance length blockstart)
      fun _ t => t ≤ 1 + (length - 2) := by
  cases c with
  | noCache => exact Cost.pure (by omega)
  | lmc c =>
    refine Cost.bind (lmcStore_cost ..) fun a t _ p => Cost.pure (by omega)

theorem getMatchTail_cost (a b : Array UInt8) (n : Nat) : ∀ j,
    Cost (getMatchTail a b n j) (Zopfli.getMatchTail a b n j) fun _ t => t ≤ n - j := by
  intro j
  induction hm : n - j generalizing j with
  | zero =>
    rw [getMatchTail, Zopfli.getMatchTail, if_neg (by omega), if_neg (by omega)]
    exact Cost.pure (by omega)
  | succ m ih =>
    rw [getMatchTail, Zopfli.getMatchTail, if_pos (by omega), if_pos (by omega)]
    refine Cost.tick (Cost.liftBind fun x _ => Cost.liftBind fun y _ => ?_)
    refine Cost.ite (fun _ => Cost.pure (by omega)) fun _ => ?_
    exact (ih (j + 1) (by omega)).mono fun _ t _ h => by omega

theorem getMatchLoop_cost (a b : Array UInt8) (n : Nat) : ∀ i,
    Cost (getMatchLoop a b n i) (Zopfli.getMatchLoop a b n i) fun _ t => t ≤ (n - i) / 16 + 16 := by
  intro i
  induction hm : n - i using Nat.strongRecOn generalizing i with
  | ind m ih =>
    rw [getMatchLoop, Zopfli.getMatchLoop]
    refine Cost.ite (fun h => ?_) fun h => ?_
    · refine Cost.tick (Cost.liftBind fun x _ => Cost.liftBind fun y _ => ?_)
      refine Cost.ite (fun _ => Cost.pure (by omega)) fun _ => ?_
      exact (ih (n - (i + 16)) (by omega) (i + 16) rfl).mono fun _ t _ h => by omega
    · exact (getMatchTail_cost a b n i).mono fun _ t _ h => by omega

theorem getMatch_cost (a b : Array UInt8) (n : Nat) (h : a.size ≤ n) :
    Cost (getMatch a b) (Zopfli.getMatch a b) fun m t => m ≤ a.size ∧ t ≤ n / 16 + 16 := by
  refine (getMatchLoop_cost a b _ 0).mono fun m t e p => ?_
  obtain ⟨m', e', l⟩ := getMatch_spec a b
  unfold Zopfli.getMatch at e'
  rw [e] at e'
  cases e'
  have := l.1
  refine ⟨by omega, ?_⟩
  have : (min a.size b.size - 0) / 16 ≤ n / 16 := Nat.div_le_div_right (by omega)
  omega

theorem currentLength_cost (h : ZopfliHash) (array : Array UInt8) (pos size limit bestlength dist : Nat) (hl : limit ≤ 258) :
    Cost (currentLength h array pos size limit bestlength dist) (Zopfli.currentLength h array pos size limit bestlength dist)
      fun m t => m ≤ limit ∧ t ≤ 32 := by
  unfold currentLength Zopfli.currentLength
  by_cases hp : pos < dist
  · simp only [if_pos hp]
    exact Cost.noneBind
  · simp only [if_neg hp]
    refine Cost.liftBind fun test _ => Cost.ite (fun _ => ?_) fun _ => Cost.pure ⟨by omega, by omega⟩
    refine Cost.liftBind fun s0 _ => Cost.liftBind fun us _ => Cost.liftBind fun same hsame => ?_
    refine Cost.liftBind fun a ha => Cost.liftBind fun b hb => ?_
    have hsz : a.size = limit - same ∧ same ≤ limit := by
      unfold slice at ha
      split at ha
      · cases ha
        rw [Array.size_extract]
        omega
      · cases ha
    refine Cost.bind (getMatch_cost a b 258 (by omega)) fun m t _ p => Cost.pure ⟨by omega, by omega⟩

theorem setSublen_size (s : Array Nat) (lo hi d : Nat) : (setSublen s lo hi d).size = s.size := by
  unfold setSublen
  exact Array.size_mapIdx

theorem matchLoop_cost (h : ZopfliHash) (array : Array UInt8) (pos size limit : Nat) (hl : limit ≤ 258) :
    ∀ (n : Nat) (st : MatchState), SubOk st.sublen → st.bestlength ≤ limit →
      Cost (matchLoop h array pos size limit n st) (Zopfli.matchLoop h array pos size limit n st)
        fun st' t => SubOk st'.sublen ∧ st'.bestlength ≤ limit ∧ t + st.bestlength ≤ n * 33 + st'.bestlength
  | 0, st, hs, hb => Cost.pure ⟨hs, hb, by omega⟩
  | n + 1, ⟨wh, p, dist, bl, bd, sub⟩, hs, hb => by
    unfold matchLoop Zopfli.matchLoop
    refine Cost.ite (fun hd => ?_) fun _ => Cost.pure ⟨hs, hb, by dsimp only; omega⟩
    refine Cost.tick (Cost.liftBind fun _ _ => ?_)
    have hcl : Cost (if dist > 0 then currentLength h array pos size limit bl dist else pure 0)
        (if dist > 0 then Zopfli.currentLength h array pos size limit bl dist else some 0) fun m t => m ≤ limit ∧ t ≤ 32 :=
      Cost.ite (fun _ => currentLength_cost h array pos size limit bl dist hl) fun _ => Cost.pure ⟨by omega, by omega⟩
    refine Cost.bind hcl fun cl t _ pc => Cost.tick ?_
    dsimp only at hs hb
    by_cases hbt : dist > 0 ∧ cl > bl
    · have hsub : SubOk (sub.map fun s => setSublen s (bl + 1) cl dist) := by
        intro a ha
        rw [Option.map_eq_some_iff] at ha
        obtain ⟨s, e, rfl⟩ := ha
        rw [setSublen_size]
        exact hs s e
      simp only [if_pos hbt]
      refine Cost.ite (fun _ => ?_) fun _ => ?_
      · exact Cost.pure ⟨hsub, pc.1, by dsimp only; omega⟩
      refine Cost.liftBind fun sw _ => Cost.liftBind fun p' _ => ?_
      refine Cost.ite (fun _ => ?_) fun _ => ?_
      · exact Cost.pure ⟨hsub, pc.1, by dsimp only; omega⟩
      refine (matchLoop_cost h array pos size limit hl n _ hsub pc.1).mono fun st' t' _ q => ⟨q.1, q.2.1, ?_⟩
      have := q.2.2
      dsimp only at this ⊢
      omega
    · simp only [if_neg hbt]
      refine Cost.ite (fun _ => ?_) fun _ => ?_
      · exact Cost.pure ⟨hs, hb, by dsimp only; omega⟩
      refine Cost.liftBind fun sw _ => Cost.liftBind fun p' _ => ?_
      refine Cost.ite (fun _ => ?_) fun _ => ?_
      · exact Cost.pure ⟨hs, hb, by dsimp only; omega⟩
      refine (matchLoop_cost h array pos size limit hl n _ hs hb).mono fun st' t' _ q => ⟨q.1, q.2.1, ?_⟩
      have := q.2.2
      dsimp only at this ⊢
      omega

theorem findLongestMatchLoop_cost (h : ZopfliHash) (array : Array UInt8) (pos size limit : Nat) (sublen : Option (Array Nat)) (hl : limit ≤ 258)
    (h1 : 1 ≤ limit) (hs : SubOk sublen) :
    Cost (findLongestMatchLoop h array pos size limit sublen) (Zopfli.findLongestMatchLoop h array pos size limit sublen)
      fun r t => SubOk r.2.2 ∧ r.2.1 ≤ limit ∧ t ≤ 270594 := by
  unfold findLongestMatchLoop Zopfli.findLongestMatchLoop
  refine Cost.liftBind fun p _ => ?_
  refine Cost.bind (matchLoop_cost h array pos size limit hl MAX_CHAIN_HITS _ hs h1) fun st t _ q => ?_
  refine Cost.liftBind fun _ _ => Cost.pure ⟨q.1, q.2.1, ?_⟩
  have := q.2
  dsimp only [MAX_CHAIN_HITS] at this
  omega

/-- A search for a match takes a bounded number of steps, and its result is in range. -/
theorem findLongestMatch_cost (lmc : Cache) (h : ZopfliHash) (array : Array UInt8) (pos size blockstart limit : Nat)
    (sublen : Option (Array Nat)) (hs : SubOk sublen) (hl : limit ≤ 258) :
    Cost (findLongestMatch lmc h array pos size blockstart limit sublen) (Zopfli.findLongestMatch lmc h array pos size blockstart limit sublen)
      fun r t => SubOk r.2.2 ∧ r.1.length ≤ 258 ∧ pos + r.1.length ≤ size ∧ t ≤ 273000 := by
  unfold findLongestMatch Zopfli.findLongestMatch
  refine Cost.tick (Cost.bind (tryGet_cost lmc pos limit sublen blockstart hs hl) fun r t _ p => ?_)
  obtain ⟨m, sub⟩ := r
  dsimp only at p ⊢
  refine Cost.ite (fun hc => ?_) fun hc => ?_
  · refine Cost.liftBind fun _ hg => Cost.pure ⟨p.1, p.2.1 hc, ?_, by omega⟩
    exact of_decide_eq_true (guardR_some hg)
  · refine Cost.liftBind fun _ hg => ?_
    have hg := of_decide_eq_true (guardR_some hg)
    refine Cost.ite (fun _ => Cost.pure ⟨p.1, by dsimp only; omega, by dsimp only; omega, by omega⟩) fun hsz => ?_
    have hlim : (if pos + m.limit > size then size - pos else m.limit) ≤ 258 ∧ 1 ≤ (if pos + m.limit > size then size - pos else m.limit) := by
      dsimp only [MAX_MATCH, MIN_MATCH] at hg hsz
      split <;> omega
    generalize (if pos + m.limit > size then size - pos else m.limit) = lim at hlim ⊢
    refine Cost.bind (findLongestMatchLoop_cost h array pos size lim sub hlim.1 hlim.2 p.1) fun r t' _ q => ?_
    obtain ⟨bd, bl, sub'⟩ := r
    dsimp only at q ⊢
    refine Cost.bind (cacheStore_cost ..) fun c t'' _ q' => ?_
    refine Cost.liftBind fun _ hg' => Cost.pure ⟨q.1, by dsimp only; omega, ?_, by omega⟩
    exact (of_decide_eq_true (guardR_some hg')).2

end Work
end Zopfli
