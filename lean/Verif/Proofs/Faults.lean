import Verif.Proofs.Hom
/-! # Failing sinks: sessions that end by dropping the encoder, and `compress` -/

namespace Zopfli
open Rfc

variable {σ ρ : Type}

/-- An encoder dropped over a recording sink. -/
theorem drop_recorded (env : Env σ) {log : σ → List UInt8} {failed : σ → Option ErrKind} (hS : Recorded env.S log failed) {fmt : Format}
    {e : Encoder σ} {c : DCore} {data : List UInt8} {s s' : σ} {cs : List (List UInt8)} (he : e.Is fmt c data s) (hs : failed s = none)
    (hc : c.finish env.F env.options env.btype = some cs) (hd : e.drop env = some s') :
    (failed s' = none → log s' = log s ++ (cs ++ trailer fmt data).flatten) ∧
    ∀ k, failed s' = some k → ∃ n < (cs ++ trailer fmt data).flatten.length, log s' = log s ++ (cs ++ trailer fmt data).flatten.take n := by
  have := Encoder.drop_outcome env he hc
  cases hm : writeMany env.S s (cs ++ trailer fmt data) with
  | none =>
    rw [hm] at this
    have this : _ = none := this
    rw [this] at hd
    cases hd
  | some p =>
    obtain ⟨q, s2⟩ := p
    rw [hm] at this
    obtain ⟨l1, l2⟩ := hS.writeMany _ hm hs
    cases q with
    | ok u =>
      obtain ⟨_, this, rfl⟩ := this
      rw [this] at hd
      cases hd
      obtain ⟨m1, m2⟩ := l1 u rfl
      refine ⟨fun _ => m2, fun k hk => ?_⟩
      rw [m1] at hk
      cases hk
    | error k =>
      obtain ⟨m1, n, hl, m2⟩ := l2 k rfl
      dsimp only at m1 m2
      have this : Left _ _ _ _ := this
      rw [hd] at this
      obtain ⟨-, n2⟩ := this _ rfl
      obtain ⟨o1, o2⟩ := n2 _ (hS.inv k (log s2)) ⟨m1, rfl⟩
      dsimp only at o1 o2
      refine ⟨fun h => ?_, fun k' _ => ⟨n, hl, by rw [o2, m2]⟩⟩
      rw [o1] at h
      cases h

/-- A session that ends by dropping the encoder, over a recording sink. -/
theorem session_drop_recorded (env : Env σ) {log : σ → List UInt8} {failed : σ → Option ErrKind} (hS : Recorded env.S log failed) (fmt : Format)
    (calls : List Call) {s s' : σ} (hI : failed s = none) {stream : List UInt8} {r : Except ErrKind Unit}
    (h : StreamOf env.F env.options env.btype fmt (writesOf calls) stream) (hr : session env fmt calls .drop s = some (r, s')) :
    (failed s' = none → r = .ok () ∧ log s' = log s ++ stream) ∧
    (∀ k, failed s' = some k → (r = .ok () ∨ r = .error k) ∧ ∃ n, (n < stream.length ∨ FlushFails env.S k) ∧ log s' = log s ++ stream.take n) := by
  obtain ⟨cs, c, cs', hc1, hc2, rfl⟩ := h.core
  have h0 := Encoder.new_outcome env fmt s
  unfold session at hr
  cases hm : writeMany env.S s [header fmt] with
  | none =>
    rw [hm] at h0
    have h0 : _ = none := h0
    rw [h0] at hr
    cases hr
  | some p =>
    obtain ⟨q, s0⟩ := p
    rw [hm] at h0
    obtain ⟨g1, g2⟩ := hS.writeMany _ hm hI
    rw [List.flatten_cons, List.flatten_nil, List.append_nil] at g1 g2
    cases q with
    | error k =>
      have h0 : _ = some _ := h0
      rw [h0, some_bind] at hr
      cases hr
      obtain ⟨i1, n, hl, i2⟩ := g2 _ rfl
      dsimp only at i1 i2
      refine ⟨(by intro hu; rw [i1] at hu; cases hu), ?_⟩
      intro k' hk
      rw [i1] at hk
      cases hk
      exact ⟨.inr rfl, n, .inl (by rw [List.length_append]; omega), by rw [i2, take_append_flatten _ _ hl]⟩
    | ok u =>
      obtain ⟨_, h0, e0, rfl, he0⟩ := h0
      obtain ⟨i1, i2⟩ := g1 u rfl
      dsimp only at i1 i2
      rw [h0, some_bind] at hr
      dsimp only at hr
      cases hrun : e0.run env calls with
      | none => rw [hrun] at hr; cases hr
      | some p =>
        obtain ⟨q, e1⟩ := p
        rw [hrun, some_bind] at hr
        obtain ⟨j1, j2⟩ := run_recorded env hS calls he0 i1 hc1 hrun
        cases q with
        | error k =>
          obtain ⟨s1, k1, k2, n, hl, k3⟩ := j2 k rfl
          dsimp only at hr
          cases hd : e1.drop env with
          | none => rw [hd] at hr; cases hr
          | some s2 =>
            rw [hd, some_bind] at hr
            cases hr
            obtain ⟨l1, l2⟩ := Encoder.drop_inv env (hS.inv k (log s1)) hd k1 ⟨k2, rfl⟩
            refine ⟨(by intro hu; rw [l1] at hu; cases hu), ?_⟩
            intro k' hk
            rw [l1] at hk
            cases hk
            refine ⟨.inr rfl, (header fmt).length + n, ?_, ?_⟩
            · simp only [List.length_append]
              exact hl.imp (by omega) And.left
            · rw [l2, k3, i2, List.take_length_add_append, List.take_append_of_le_length (by rcases hl with hl | hl <;> omega), List.append_assoc]
        | ok u =>
          obtain ⟨s1, k1, k2, k3⟩ := j1 u rfl
          dsimp only at hr
          cases hd : e1.drop env with
          | none => rw [hd] at hr; cases hr
          | some s2 =>
            rw [hd, some_bind] at hr
            cases hr
            obtain ⟨l1, l2⟩ := drop_recorded env hS k1 k2 hc2 hd
            rw [List.nil_append] at l1 l2
            refine ⟨fun hu => ⟨rfl, ?_⟩, fun k hk => ⟨.inl rfl, ?_⟩⟩
            · rw [l1 hu, k3, i2]; simp [List.append_assoc]
            · obtain ⟨n, hl, l2⟩ := l2 k hk
              refine ⟨(header fmt).length + (cs.flatten.length + n), .inl (by rw [List.length_append, List.length_append]; omega), ?_⟩
              rw [l2, k3, i2, List.take_length_add_append, List.take_length_add_append, List.append_assoc, List.append_assoc]

/-! ## Invariants through `write` and `flushBuf` -/

theorem writeAll_not_interrupted {S : Sink σ} {s : σ} {buf : List UInt8} {r : Except ErrKind Unit × σ}
    (h : S.writeAll s buf = some r) : r.1 ≠ .error .interrupted := by
  have := Sink.writeAll.partial_correctness (S := S) (motive := fun s buf r => r.1 ≠ .error .interrupted) (by
    intro f ih s buf r hr
    split at hr
    · cases hr; intro h; cases h
    · split at hr
      · cases hr; intro h; cases h
      · split at hr
        · exact ih _ _ _ hr
        · cases hr
      · exact ih _ _ _ hr
      · rename_i hk _; cases hr; intro h; cases h; exact hk rfl)
  exact this s buf r h

theorem writeMany_not_interrupted {S : Sink σ} : ∀ (cs : List (List UInt8)) {s : σ} {r : Except ErrKind Unit × σ},
    writeMany S s cs = some r → r.1 ≠ .error .interrupted
  | [], s, r, h => by cases h; intro h; cases h
  | c :: cs, s, r, h => by
    rw [writeMany] at h
    cases hw : S.writeAll s c with
    | none => rw [hw] at h; cases h
    | some p =>
      obtain ⟨q, s'⟩ := p
      rw [hw, some_bind] at h
      cases q with
      | ok u => exact writeMany_not_interrupted cs h
      | error k => cases h; exact writeAll_not_interrupted hw

theorem writeD_inv (env : Env σ) {I : σ → Prop} (hI : SinkInv env.S I) {d : DeflateEncoder σ} {buf : List UInt8} {r : Except ErrKind Nat × DeflateEncoder σ}
    (h : d.write env buf = some r) {s : σ} (hs : d.sink? = some s) (hI0 : I s) : ∃ s', r.2.sink? = some s' ∧ I s' := by
  unfold DeflateEncoder.write at h
  split at h
  · cases hc : d.compressChunk env false with
    | none => rw [hc] at h; cases h
    | some p =>
      have hi := compressChunk_inv env hI hc (by intro s1 h1; rw [hs] at h1; cases h1; exact hI0)
      have hsome : ∃ s', p.2.sink? = some s' := by
        unfold DeflateEncoder.compressChunk at hc
        cases hw : d.bitwiseWriter with
        | none => rw [hw] at hc; cases hc
        | some w =>
          rw [hw, some_bind] at hc
          cases hp : deflatePart env.F env.options env.btype false d.windowAndChunk d.chunkStart d.windowAndChunk.size with
          | none => rw [hp] at hc; cases hc
          | some ops =>
            rw [hp, some_bind] at hc
            cases hx : w.execAll env.S ops with
            | none => rw [hx] at hc; cases hc
            | some p =>
              rw [hx, some_bind] at hc
              cases hc
              exact ⟨_, rfl⟩
      obtain ⟨s', hs'⟩ := hsome
      obtain ⟨q, d'⟩ := p
      rw [hc, some_bind] at h
      cases q with
      | error k => cases h; exact ⟨s', hs', hi s' hs'⟩
      | ok u => cases h; exact ⟨s', hs', hi s' hs'⟩
  · cases h
    exact ⟨s, hs, hI0⟩

theorem Encoder.write_inv (env : Env σ) {I : σ → Prop} (hI : SinkInv env.S I) {e : Encoder σ} {buf : List UInt8} {r : Except ErrKind Nat × Encoder σ}
    (h : e.write env buf = some r) {s : σ} (hs : e.sink? = some s) (hI0 : I s) : ∃ s', r.2.sink? = some s' ∧ I s' := by
  cases e with
  | deflate d =>
    simp only [Encoder.write] at h
    cases hw : d.write env buf with
    | none => rw [hw] at h; cases h
    | some p =>
      rw [hw, some_bind] at h
      cases h
      exact writeD_inv env hI hw hs hI0
  | gzip g =>
    obtain ⟨d, crc, sz⟩ := g
    cases d with
    | none => cases hs
    | some d =>
      simp only [Encoder.write, GzipEncoder.write, some_bind] at h
      cases hw : d.write env buf with
      | none => rw [hw] at h; cases h
      | some p =>
        have := writeD_inv env hI hw hs hI0
        obtain ⟨q, d'⟩ := p
        rw [hw, some_bind] at h
        cases q with
        | error k => cases h; exact this
        | ok u => cases h; exact this
  | zlib g =>
    obtain ⟨d, ad⟩ := g
    cases d with
    | none => cases hs
    | some d =>
      simp only [Encoder.write, ZlibEncoder.write, some_bind] at h
      cases hw : d.write env buf with
      | none => rw [hw] at h; cases h
      | some p =>
        have := writeD_inv env hI hw hs hI0
        obtain ⟨q, d'⟩ := p
        rw [hw, some_bind] at h
        cases q with
        | error k => cases h; exact this
        | ok u => cases h; exact this

theorem flushBuf_inv (env : Env σ) {I : σ → Prop} (hI : SinkInv env.S I) {e : Encoder σ} {buf : List UInt8} {r : Except ErrKind Unit × Encoder σ × List UInt8}
    (h : flushBuf env e buf = some r) {s : σ} (hs : e.sink? = some s) (hI0 : I s) : ∃ s', r.2.1.sink? = some s' ∧ I s' := by
  have := flushBuf.partial_correctness (env := env) (motive := fun e buf r => ∀ s, e.sink? = some s → I s → ∃ s', r.2.1.sink? = some s' ∧ I s') (by
    intro f ih e buf r hr s hs hI0
    split at hr
    · cases hr; exact ⟨s, hs, hI0⟩
    · cases hw : e.write env buf with
      | none => rw [hw] at hr; cases hr
      | some p =>
        obtain ⟨s', hs', hI'⟩ := Encoder.write_inv env hI hw hs hI0
        obtain ⟨q, e'⟩ := p
        rw [hw, some_bind] at hr
        dsimp only at hr hs'
        split at hr
        · cases hr; exact ⟨s', hs', hI'⟩
        · exact ih _ _ _ hr s' hs' hI'
        · exact ih _ _ _ hr s' hs' hI'
        · cases hr; exact ⟨s', hs', hI'⟩)
  exact this e buf r h s hs hI0

theorem dropBuffered_inv (env : Env σ) {I : σ → Prop} (hI : SinkInv env.S I) {e : Encoder σ} {buf : List UInt8} {s s' : σ}
    (h : dropBuffered env e buf = some s') (hs : e.sink? = some s) (hI0 : I s) : I s' := by
  unfold dropBuffered at h
  cases hf : flushBuf env e buf with
  | none => rw [hf] at h; cases h
  | some p =>
    obtain ⟨s1, h1, h2⟩ := flushBuf_inv env hI hf hs hI0
    obtain ⟨q, e', b'⟩ := p
    rw [hf, some_bind] at h
    exact Encoder.drop_inv env hI h h1 h2

/-! ## `compress` -/

/-- Flushing a buffer into an encoder over a recording sink. -/
theorem flushBuf_recorded (env : Env σ) {log : σ → List UInt8} {failed : σ → Option ErrKind} (hS : Recorded env.S log failed) {fmt : Format}
    {e : Encoder σ} {c c' : DCore} {data buf : List UInt8} {s : σ} {cs : List (List UInt8)} (he : e.Is fmt c data s) (hI : failed s = none) (hb : buf ≠ [])
    (hc : c.write env.F env.options env.btype buf = some (cs, c')) {x : Except ErrKind Unit × Encoder σ × List UInt8} (hx : flushBuf env e buf = some x) :
    (x.1 = .ok () ∧ x.2.2 = [] ∧ ∃ s', x.2.1.Is fmt c' (data ++ buf) s' ∧ failed s' = none ∧ log s' = log s ++ cs.flatten) ∨
    ∃ k s' n, x.1 = .error k ∧ x.2.1.sink? = some s' ∧ failed s' = some k ∧ n < cs.flatten.length ∧ log s' = log s ++ cs.flatten.take n := by
  have := Encoder.write_outcome env he hc
  rw [flushBuf, if_neg hb] at hx
  cases hm : writeMany env.S s cs with
  | none =>
    rw [hm] at this
    have this : _ = none := this
    rw [this] at hx
    cases hx
  | some p =>
    obtain ⟨q, s1⟩ := p
    obtain ⟨g1, g2⟩ := hS.writeMany cs hm hI
    have g3 := writeMany_not_interrupted cs hm
    rw [hm] at this
    cases q with
    | ok u =>
      obtain ⟨⟨r1, e1⟩, h1, h2, h3⟩ := this
      dsimp only at h2 h3
      subst h2
      have hl : buf.length ≠ 0 := by simpa using hb
      obtain ⟨n, hn⟩ : ∃ n, buf.length = n + 1 := ⟨buf.length - 1, by omega⟩
      rw [h1, some_bind, hn] at hx
      dsimp only at hx
      rw [← hn, List.drop_length, flushBuf_nil] at hx
      cases hx
      exact .inl ⟨rfl, rfl, s1, h3, g1 u rfl⟩
    | error k =>
      obtain ⟨e1, h1, h2⟩ := this
      obtain ⟨i1, n, hl, i2⟩ := g2 k rfl
      rw [h1, some_bind] at hx
      cases k with
      | interrupted => exact absurd rfl g3
      | writeZero => cases hx; exact .inr ⟨_, s1, n, rfl, h2, i1, hl, i2⟩
      | other j => cases hx; exact .inr ⟨_, s1, n, rfl, h2, i1, hl, i2⟩

/-- What is left in the buffer becomes a last write, unless it is empty. -/
def lastPart (p : List UInt8) : List (List UInt8) := if p = [] then [] else [p]

/-- What the copy loop writes to the encoder depends on the reader only. -/
theorem copyLoop_plan {F : FloatOps} (L : FloatLaws F) (o : Options) (bt : BlockType)
    {R : Reader ρ} {J : ρ → Prop} {rest : ρ → List UInt8} {res : Except ErrKind Unit} {ν : ρ → Nat} (hR : Delivers R J rest res ν) :
    ∀ (n m k : Nat) (r : ρ) (c : DCore) (buf prev chunk out : List UInt8), (rest r).length = n → ν r = m → buf.length = k → J r →
      buf.length ≤ MASTER_BLOCK_SIZE → DInv c prev chunk out → chunk.length < L.lim →
      ∃ W buf' cs c' prev' chunk', W.flatten ++ buf' = buf ++ rest r ∧ ((∀ w ∈ W, 991808 < w.length ∧ w.length ≤ 1000000) ∧
        (FullReads R J rest → (buf = [] ∨ buf.length = 1000000 ∨ rest r = []) → ∀ w ∈ (W ++ lastPart buf').dropLast, w.length = 1000000)) ∧
        coreWrites F o bt c W = some (cs, c') ∧
        DInv c' prev' chunk' (out ++ cs.flatten) ∧ chunk'.length < L.lim ∧ buf'.length ≤ MASTER_BLOCK_SIZE ∧
        ∀ (σ : Type) (S : Sink σ) (fmt : Format) (e : Encoder σ) (data : List UInt8) (s : σ), e.Is fmt c data s →
          (∀ (I : σ → Prop) (log : σ → List UInt8) (μ : σ → Nat), Reliable S I log μ → I s →
            ∃ e' s', copyLoop ⟨F, S, o, bt⟩ R r e buf = some (res, e', buf') ∧ e'.Is fmt c' (data ++ W.flatten) s' ∧ log s' = log s ++ cs.flatten ∧ I s') ∧
          (∀ (log : σ → List UInt8) (failed : σ → Option ErrKind), Recorded S log failed → failed s = none →
            ∀ x, copyLoop ⟨F, S, o, bt⟩ R r e buf = some x →
              (x.1 = res ∧ x.2.2 = buf' ∧ ∃ s', x.2.1.Is fmt c' (data ++ W.flatten) s' ∧ failed s' = none ∧ log s' = log s ++ cs.flatten) ∨
              ∃ k s' n, x.1 = .error k ∧ x.2.1.sink? = some s' ∧ failed s' = some k ∧ n < cs.flatten.length ∧ log s' = log s ++ cs.flatten.take n) := by
  intro n
  induction n using Nat.strong_induction_on with
  | _ n ihn =>
    intro m
    induction m using Nat.strong_induction_on with
    | _ m ihm =>
      intro k
      induction k using Nat.strong_induction_on with
      | _ k ihk =>
        intro r c buf prev chunk out hn hm hk hJ hlen hD hch
        by_cases hroom : DEFAULT_BUF_SIZE ≤ MASTER_BLOCK_SIZE - buf.length
        · have hc : ∀ (σ : Type) (S : Sink σ) (e : Encoder σ), copyLoop ⟨F, S, o, bt⟩ R r e buf =
              match R.read r (1000000 - buf.length) with
              | (.ok [], _) => some (.ok (), e, buf)
              | (.ok (b :: bs), r) => if (b :: bs).length ≤ 1000000 - buf.length then copyLoop ⟨F, S, o, bt⟩ R r e (buf ++ b :: bs) else none
              | (.error .interrupted, r) => copyLoop ⟨F, S, o, bt⟩ R r e buf
              | (.error k, _) => some (.error k, e, buf) := by
            intro σ S e
            rw [copyLoop]
            dsimp only [DEFAULT_BUF_SIZE, MASTER_BLOCK_SIZE] at hroom ⊢
            rw [if_pos hroom]
            rfl
          dsimp only [DEFAULT_BUF_SIZE, MASTER_BLOCK_SIZE] at hroom hlen
          rcases hR.read r (1000000 - buf.length) hJ (by omega) with ⟨l, r', e1, h1, h2, h3, h4⟩ | ⟨r', e1, h1, h2, h3⟩ | ⟨r', e1, h1⟩
          · cases l with
            | nil => exact absurd rfl h1
            | cons b bs =>
              have hl : (rest r).length = (b :: bs).length + (rest r').length := by rw [h3, List.length_append]
              rw [List.length_cons] at hl
              have := ihn (rest r').length (by omega) _ _ r' c (buf ++ b :: bs) prev chunk out rfl rfl rfl h4 (by
                dsimp only [MASTER_BLOCK_SIZE]
                rw [List.length_append]
                omega) hD hch
              rw [List.append_assoc, ← h3] at this
              have hfull : FullReads R J rest → (buf = [] ∨ buf.length = 1000000 ∨ rest r = []) →
                  (buf ++ b :: bs = [] ∨ (buf ++ b :: bs).length = 1000000 ∨ rest r' = []) := by
                intro hF hb
                have hlt := hF r _ _ _ hJ (by omega) e1
                rcases hb with rfl | hb | hb
                · have e4 := congrArg List.length hlt
                  rw [List.length_take] at e4
                  rw [List.length_nil] at e4
                  rw [List.nil_append, ← List.length_eq_zero_iff (l := rest r')]
                  rw [List.length_cons] at e4 ⊢
                  omega
                · omega
                · rw [hb] at h3
                  cases h3
              have this : ∃ W buf' cs c' prev' chunk', _ := this
              obtain ⟨W, buf', cs, c', prev', chunk', a1, a2, a3⟩ := this
              refine ⟨W, buf', cs, c', prev', chunk', a1, ⟨a2.1, fun hF hb => a2.2 hF (hfull hF hb)⟩, ?_⟩
              have this := a3
              have hc' : ∀ (σ : Type) (S : Sink σ) (e : Encoder σ), copyLoop ⟨F, S, o, bt⟩ R r e buf = copyLoop ⟨F, S, o, bt⟩ R r' e (buf ++ b :: bs) := by
                intro σ S e
                rw [hc, e1]
                dsimp only
                rw [if_pos h2]
              simp only [hc']
              exact this
          · have := ihm (ν r') (by omega) _ r' c buf prev chunk out (by rw [h1, hn]) rfl rfl h3 (by dsimp only [MASTER_BLOCK_SIZE]; exact hlen) hD hch
            rw [h1] at this
            have hc' : ∀ (σ : Type) (S : Sink σ) (e : Encoder σ), copyLoop ⟨F, S, o, bt⟩ R r e buf = copyLoop ⟨F, S, o, bt⟩ R r' e buf := by
              intro σ S e
              rw [hc, e1]
            simp only [hc']
            exact this
          · have hc' : ∀ (σ : Type) (S : Sink σ) (e : Encoder σ), copyLoop ⟨F, S, o, bt⟩ R r e buf = some (res, e, buf) := by
              intro σ S e
              rw [hc, e1]
              cases res with
              | ok u => rfl
              | error kd =>
                cases kd with
                | interrupted => exact absurd rfl hR.not_interrupted
                | writeZero => rfl
                | other n => rfl
            refine ⟨[], buf, [], c, prev, chunk, by rw [h1]; simp, ⟨by simp, fun _ _ w hw => by
              unfold lastPart at hw
              split at hw <;> cases hw⟩, rfl, by simpa using hD, hch, by dsimp only [MASTER_BLOCK_SIZE]; exact hlen, ?_⟩
            intro σ S fmt e data s he
            refine ⟨fun I log μ hS hI => ⟨e, s, hc' σ S e, by simpa using he, by simp, hI⟩, fun log failed hS hf x hx => ?_⟩
            rw [hc'] at hx
            cases hx
            exact .inl ⟨rfl, rfl, s, by simpa using he, hf, by simp⟩
        · have hc : ∀ (σ : Type) (S : Sink σ) (e : Encoder σ), copyLoop ⟨F, S, o, bt⟩ R r e buf =
              match flushBuf ⟨F, S, o, bt⟩ e buf with
              | none => none
              | some (.error k, e, buf) => some (.error k, e, buf)
              | some (.ok (), e, buf) => copyLoop ⟨F, S, o, bt⟩ R r e buf := by
            intro σ S e
            rw [copyLoop]
            dsimp only [DEFAULT_BUF_SIZE, MASTER_BLOCK_SIZE] at hroom ⊢
            rw [if_neg hroom]
            rfl
          dsimp only [DEFAULT_BUF_SIZE, MASTER_BLOCK_SIZE] at hroom hlen
          have h0 : buf ≠ [] := by
            rintro rfl
            exact hroom (by simp)
          obtain ⟨⟨cs1, c1⟩, hw, hd⟩ := hD.write L o bt hch buf
          obtain ⟨W, buf', cs, c', prev', chunk', i1, i2, i3, i4, i5, i6, i7⟩ :=
            ihk 0 (by omega) r c1 [] (prev ++ chunk) buf (out ++ cs1.flatten) hn hm rfl hJ (by dsimp only [MASTER_BLOCK_SIZE]; simp) hd (by have := L.lim_ge; omega)
          refine ⟨buf :: W, buf', cs1 ++ cs, c', prev', chunk', ?_, ?_, ?_, ?_, i5, i6, ?_⟩
          · rw [List.flatten_cons, List.append_assoc, i1, List.nil_append]
          · refine ⟨fun w hw => ?_, fun hF hb w hw => ?_⟩
            · rcases List.mem_cons.1 hw with rfl | hw
              · omega
              · exact i2.1 w hw
            · by_cases hP : W ++ lastPart buf' = []
              · rw [List.cons_append, hP] at hw
                cases hw
              · rw [List.cons_append, List.dropLast_cons_of_ne_nil hP] at hw
                rcases List.mem_cons.1 hw with rfl | hw
                · rcases hb with hb | hb | hb
                  · exact absurd hb h0
                  · exact hb
                  · rw [hb, List.nil_append] at i1
                    obtain ⟨j1, j2⟩ := List.append_eq_nil_iff.1 i1
                    refine absurd ?_ hP
                    rw [j2]
                    cases W with
                    | nil => rfl
                    | cons x l =>
                      rw [List.flatten_cons] at j1
                      have := (i2.1 x (.head _)).1
                      rw [(List.append_eq_nil_iff.1 j1).1] at this
                      cases this
                · exact i2.2 hF (.inl rfl) w hw
          · rw [coreWrites, hw, some_bind]
            dsimp only
            rw [i3, some_bind]
            rfl
          · rw [List.flatten_append, ← List.append_assoc]
            exact i4
          · intro σ S fmt e data s he
            refine ⟨fun I log μ hS hI => ?_, fun log failed hS hf x hx => ?_⟩
            · obtain ⟨e1, s1, g1, g2, g3, g4⟩ := flushBuf_reliable ⟨F, S, o, bt⟩ hS he hI h0 hw
              obtain ⟨e2, s2, k1, k2, k3, k4⟩ := (i7 σ S fmt e1 _ s1 g2).1 I log μ hS g4
              refine ⟨e2, s2, ?_, ?_, ?_, k4⟩
              · rw [hc, g1]
                exact k1
              · rw [List.flatten_cons, ← List.append_assoc]
                exact k2
              · rw [k3, g3, List.flatten_append, List.append_assoc]
            · rw [hc] at hx
              cases hfl : flushBuf ⟨F, S, o, bt⟩ e buf with
              | none => rw [hfl] at hx; cases hx
              | some y =>
                have := flushBuf_recorded ⟨F, S, o, bt⟩ hS he hf h0 hw hfl
                obtain ⟨q, e1, b1⟩ := y
                rw [hfl] at hx
                rcases this with ⟨a1, a2, s1, a3, a4, a5⟩ | ⟨k, s1, n, a1, a2, a3, hl, a4⟩
                · dsimp only at a1 a2 a3
                  subst a1 a2
                  dsimp only at hx
                  rcases (i7 σ S fmt e1 _ s1 a3).2 log failed hS a4 x hx with ⟨b1, b2, s2, b3, b4, b5⟩ | ⟨k, s2, n, b1, b2, b3, hl, b4⟩
                  · refine .inl ⟨b1, b2, s2, ?_, b4, ?_⟩
                    · rw [List.flatten_cons, ← List.append_assoc]
                      exact b3
                    · rw [b5, a5, List.flatten_append, List.append_assoc]
                  · refine .inr ⟨k, s2, cs1.flatten.length + n, b1, b2, b3, by rw [List.flatten_append, List.length_append]; omega, ?_⟩
                    rw [b4, a5, List.flatten_append, List.append_assoc, List.take_length_add_append]
                · dsimp only at a1 a2
                  subst a1
                  cases hx
                  refine .inr ⟨k, s1, n, rfl, a2, a3, by rw [List.flatten_append, List.length_append]; omega, ?_⟩
                  rw [a4, List.flatten_append, take_append_flatten _ _ hl]

/-- What `compress` hands to the sink depends on the reader, the options and the format only; a failing sink gets a
prefix of it. -/
theorem compress_plan {F : FloatOps} (L : FloatLaws F) (R : Reader ρ) {J : ρ → Prop} {rest : ρ → List UInt8} {res : Except ErrKind Unit} {ν : ρ → Nat}
    (hR : Delivers R J rest res ν) (o : Options) (fmt : Format) {r : ρ} (hJ : J r) :
    ∃ W stream, StreamOf F o .dynamic fmt W stream ∧ (∀ w ∈ W, w.length < L.lim) ∧ W.flatten = rest r ∧
      ((∀ w ∈ W, w ≠ [] ∧ w.length ≤ 1000000) ∧ (∀ w ∈ W.dropLast, 991808 < w.length) ∧ (FullReads R J rest → ∀ w ∈ W.dropLast, w.length = 1000000)) ∧
      ∀ (σ : Type) (S : Sink σ) (s : σ),
        (∀ (I : σ → Prop) (log : σ → List UInt8) (μ : σ → Nat), Reliable S I log μ → I s →
          ∃ s', compress F S R o fmt r s = some (res, s') ∧ log s' = log s ++ stream ∧ I s') ∧
        (∀ (log : σ → List UInt8) (failed : σ → Option ErrKind), Recorded S log failed → failed s = none →
          ∀ x, compress F S R o fmt r s = some x →
            (failed x.2 = none → x.1 = res ∧ log x.2 = log s ++ stream) ∧
            ∀ k, failed x.2 = some k → (x.1 = .error k ∨ ∃ k', res = .error k' ∧ x.1 = .error k') ∧ ∃ n < stream.length, log x.2 = log s ++ stream.take n) := by
  obtain ⟨W, buf, cs, c, prev, chunk, i1, i2, i3, i4, i5, i6, i7⟩ :=
    copyLoop_plan L o .dynamic hR _ _ _ r DCore.new [] [] [] [] rfl rfl rfl hJ (by simp) DInv.new L.lim_pos
  rw [List.nil_append] at i1 i4
  dsimp only [MASTER_BLOCK_SIZE] at i6
  -- the last buffer
  have i2' : ∀ w ∈ W, w.length < L.lim := fun w hw => by
    have := (i2.1 w hw).2
    have := L.lim_ge
    omega
  obtain ⟨W2, cs2, c2, prev2, chunk2, jW, j1, j2, j3, j4, j5, j6⟩ : ∃ W2 cs2 c2 prev2 chunk2, W2 = W ++ lastPart buf ∧ W2.flatten = rest r ∧ (∀ w ∈ W2, w.length < L.lim) ∧
      coreWrites F o .dynamic DCore.new W2 = some (cs ++ cs2, c2) ∧ DInv c2 prev2 chunk2 (cs ++ cs2).flatten ∧ chunk2.length < L.lim ∧
      (∀ (σ : Type) (S : Sink σ) (e : Encoder σ) (s : σ), e.Is fmt c W.flatten s →
        (∀ (I : σ → Prop) (log : σ → List UInt8) (μ : σ → Nat), Reliable S I log μ → I s → ∃ e' s', flushBuf ⟨F, S, o, .dynamic⟩ e buf = some (.ok (), e', []) ∧
          e'.Is fmt c2 W2.flatten s' ∧ log s' = log s ++ cs2.flatten ∧ I s') ∧
        (∀ (log : σ → List UInt8) (failed : σ → Option ErrKind), Recorded S log failed → failed s = none → ∀ x, flushBuf ⟨F, S, o, .dynamic⟩ e buf = some x →
          (x.1 = .ok () ∧ x.2.2 = [] ∧ ∃ s', x.2.1.Is fmt c2 W2.flatten s' ∧ failed s' = none ∧ log s' = log s ++ cs2.flatten) ∨
          ∃ k s' n, x.1 = .error k ∧ x.2.1.sink? = some s' ∧ failed s' = some k ∧ n < cs2.flatten.length ∧ log s' = log s ++ cs2.flatten.take n)) := by
    by_cases h0 : buf = []
    · subst h0
      refine ⟨W, [], c, prev, chunk, by simp [lastPart], by simpa using i1, i2', by simpa using i3, by simpa using i4, i5, ?_⟩
      intro σ S e s he
      refine ⟨fun I log μ hS hI => ⟨e, s, flushBuf_nil _ e, he, by simp, hI⟩, fun log failed hS hf x hx => ?_⟩
      rw [flushBuf_nil] at hx
      cases hx
      exact .inl ⟨rfl, rfl, s, he, hf, by simp⟩
    · obtain ⟨⟨cs2, c2⟩, hw, hd⟩ := i4.write L o .dynamic i5 buf
      refine ⟨W ++ [buf], cs2, c2, prev ++ chunk, buf, by simp [lastPart, h0], by simpa using i1, ?_, ?_, ?_, by have := L.lim_ge; omega, ?_⟩
      · intro w hw
        rw [List.mem_append, List.mem_singleton] at hw
        rcases hw with hw | rfl
        · exact i2' w hw
        · have := L.lim_ge; omega
      · rw [coreWrites_append, i3, Option.bind_some]
        dsimp only
        rw [coreWrites, hw, some_bind]
        dsimp only
        rw [coreWrites, some_bind]
        simp
      · rw [List.flatten_append]
        exact hd
      · intro σ S e s he
        rw [List.flatten_append, List.flatten_cons, List.flatten_nil, List.append_nil]
        exact ⟨fun I log μ hS hI => flushBuf_reliable ⟨F, S, o, .dynamic⟩ hS he hI h0 hw,
          fun log failed hS hf x hx => flushBuf_recorded ⟨F, S, o, .dynamic⟩ hS he hf h0 hw hx⟩
  obtain ⟨cs', e2, blocks, hv⟩ := j4.finish L o .dynamic j5
  refine ⟨W2, _, ⟨cs ++ cs2, c2, cs', j3, e2, rfl⟩, j2, j1, ⟨?_, ?_, fun hF => ?_⟩, ?_⟩
  · intro w hw
    rw [jW] at hw
    rcases List.mem_append.1 hw with hw | hw
    · have := i2.1 w hw
      refine ⟨?_, this.2⟩
      rintro rfl
      exact absurd this.1 (by simp)
    · unfold lastPart at hw
      split at hw
      · cases hw
      · rename_i hb
        rw [List.mem_singleton.1 hw]
        exact ⟨hb, i6⟩
  · intro w hw
    rw [jW] at hw
    unfold lastPart at hw
    split at hw
    · rw [List.append_nil] at hw
      exact (i2.1 w (List.dropLast_subset _ hw)).1
    · rw [List.dropLast_concat] at hw
      exact (i2.1 w hw).1
  · rw [jW]
    exact i2.2 hF (.inl rfl)
  intro σ S s
  have h0 := Encoder.new_outcome ⟨F, S, o, .dynamic⟩ fmt s
  refine ⟨fun I log μ hS hI => ?_, fun log failed hS hf x hx => ?_⟩
  · obtain ⟨s0, a1, a2, a3⟩ := hS.writeMany [header fmt] s hI
    dsimp only at h0
    rw [a1] at h0
    obtain ⟨_, h0, e0, rfl, he0⟩ := h0
    obtain ⟨e1, s1, b1, b2, b3, b4⟩ := (i7 σ S fmt e0 [] s0 he0).1 I log μ hS a3
    rw [List.nil_append] at b2
    obtain ⟨e3, s3, d1, d2, d3, d4⟩ := (j6 σ S e1 s1 b2).1 I log μ hS b4
    obtain ⟨s4, f1, f2, f3⟩ := hS.writeMany (cs' ++ trailer fmt W2.flatten) s3 d4
    refine ⟨s4, ?_, ?_, f3⟩
    · unfold compress
      dsimp only
      rw [h0, some_bind]
      dsimp only
      rw [b1, some_bind]
      cases res with
      | ok u =>
        dsimp only
        rw [d1, some_bind]
        have := Encoder.finish_outcome ⟨F, S, o, .dynamic⟩ d2 e2
        dsimp only at this
        rw [f1] at this
        obtain ⟨_, this, rfl⟩ := this
        exact this
      | error k =>
        dsimp only
        unfold dropBuffered
        rw [d1, some_bind]
        have := Encoder.drop_outcome ⟨F, S, o, .dynamic⟩ d2 e2
        dsimp only at this ⊢
        rw [f1] at this
        obtain ⟨_, this, rfl⟩ := this
        rw [this]
        rfl
    · rw [f2, d3, b3, a2]; simp [List.append_assoc]
  · unfold compress at hx
    dsimp only at hx h0
    cases hm : writeMany S s [header fmt] with
    | none =>
      rw [hm] at h0
      have h0 : _ = none := h0
      rw [h0] at hx
      cases hx
    | some p =>
      obtain ⟨q, s0⟩ := p
      rw [hm] at h0
      obtain ⟨g1, g2⟩ := hS.writeMany _ hm hf
      rw [List.flatten_cons, List.flatten_nil, List.append_nil] at g1 g2
      cases q with
      | error k =>
        have h0 : _ = some _ := h0
        rw [h0, some_bind] at hx
        cases hx
        obtain ⟨a1, n, hl, a2⟩ := g2 _ rfl
        dsimp only at a1 a2
        refine ⟨(by intro hu; rw [a1] at hu; cases hu), ?_⟩
        intro k' hk
        rw [a1] at hk
        cases hk
        exact ⟨.inl rfl, n, by rw [List.length_append]; omega, by rw [a2, take_append_flatten _ _ hl]⟩
      | ok u =>
        obtain ⟨_, h0, e0, rfl, he0⟩ := h0
        obtain ⟨a1, a2⟩ := g1 u rfl
        dsimp only at a1 a2
        rw [h0, some_bind] at hx
        dsimp only at hx
        cases hcl : copyLoop ⟨F, S, o, .dynamic⟩ R r e0 [] with
        | none => rw [hcl] at hx; cases hx
        | some y =>
          have hy := (i7 σ S fmt e0 [] s0 he0).2 log failed hS a1 y hcl
          obtain ⟨q, e1, b1⟩ := y
          rw [hcl, some_bind] at hx
          rcases hy with ⟨y1, y2, s1, y3, y4, y5⟩ | ⟨k, s1, n, y1, y2, y3, hl, y4⟩
          · dsimp only at y1 y2 y3
            subst y1 y2
            rw [List.nil_append] at y3
            -- the copy has ended; the last flush
            have hflush : ∀ x2, flushBuf ⟨F, S, o, .dynamic⟩ e1 b1 = some x2 → _ := fun x2 h => (j6 σ S e1 s1 y3).2 log failed hS y4 x2 h
            cases q with
            | ok u =>
              dsimp only at hx
              cases hfl : flushBuf ⟨F, S, o, .dynamic⟩ e1 b1 with
              | none => rw [hfl] at hx; cases hx
              | some z =>
                have hz := hflush z hfl
                obtain ⟨q, e3, b3⟩ := z
                rw [hfl, some_bind] at hx
                rcases hz with ⟨z1, z2, s3, z3, z4, z5⟩ | ⟨k, s3, n, z1, z2, z3, hl, z4⟩
                · dsimp only at z1 z2 z3
                  subst z1 z2
                  dsimp only at hx
                  have := Encoder.finish_outcome ⟨F, S, o, .dynamic⟩ z3 e2
                  dsimp only at this
                  cases hm2 : writeMany S s3 (cs' ++ trailer fmt W2.flatten) with
                  | none =>
                    rw [hm2] at this
                    have this : _ = none := this
                    rw [this] at hx
                    cases hx
                  | some p =>
                    obtain ⟨q, s4⟩ := p
                    rw [hm2] at this
                    obtain ⟨l1, l2⟩ := hS.writeMany _ hm2 z4
                    cases q with
                    | ok u =>
                      obtain ⟨_, this, rfl⟩ := this
                      rw [this] at hx
                      cases hx
                      obtain ⟨m1, m2⟩ := l1 u rfl
                      dsimp only at m1 m2
                      refine ⟨fun _ => ⟨rfl, ?_⟩, fun k hk => ?_⟩
                      · dsimp only
                        rw [m2, z5, y5, a2]; simp [List.append_assoc]
                      · rw [m1] at hk; cases hk
                    | error k =>
                      obtain ⟨m1, n, hl, m2⟩ := l2 k rfl
                      dsimp only at m1 m2
                      have this : Left _ _ _ _ := this
                      obtain ⟨n1, n2⟩ := this _ hx
                      obtain ⟨o1, o2⟩ := n2 _ (hS.inv k (log s4)) ⟨m1, rfl⟩
                      refine ⟨fun hu => ?_, fun k' hk => ⟨.inl ?_, (header fmt).length + ((cs ++ cs2).flatten.length + n), by simp only [List.flatten_append, List.length_append] at hl ⊢; omega, ?_⟩⟩
                      · rw [o1] at hu; cases hu
                      · rw [o1] at hk; cases hk; exact n1
                      · rw [o2, m2, z5, y5, a2, List.take_length_add_append, List.take_length_add_append, List.flatten_append]
                        simp [List.append_assoc]
                · dsimp only at z1 z2
                  subst z1
                  dsimp only at hx
                  cases hd : dropBuffered ⟨F, S, o, .dynamic⟩ e3 b3 with
                  | none => rw [hd] at hx; cases hx
                  | some s4 =>
                    rw [hd, some_bind] at hx
                    cases hx
                    obtain ⟨l1, l2⟩ := dropBuffered_inv ⟨F, S, o, .dynamic⟩ (hS.inv k (log s3)) hd z2 ⟨z3, rfl⟩
                    refine ⟨fun hu => ?_, fun k' hk => ⟨.inl ?_, ?_⟩⟩
                    · rw [l1] at hu; cases hu
                    · rw [l1] at hk; cases hk; rfl
                    · have hm := take_append_flatten cs2.flatten (cs' ++ trailer fmt W2.flatten).flatten hl
                      refine ⟨(header fmt).length + (cs.flatten.length + n), by simp only [List.flatten_append, List.length_append] at hl ⊢; omega, ?_⟩
                      dsimp only
                      rw [l2, z4, y5, a2, List.take_length_add_append, List.flatten_append, List.append_assoc cs.flatten, List.take_length_add_append, ← hm]
                      simp [List.append_assoc]
            | error kr =>
              dsimp only at hx
              cases hd : dropBuffered ⟨F, S, o, .dynamic⟩ e1 b1 with
              | none => rw [hd] at hx; cases hx
              | some s4 =>
                rw [hd, some_bind] at hx
                cases hx
                unfold dropBuffered at hd
                cases hfl : flushBuf ⟨F, S, o, .dynamic⟩ e1 b1 with
                | none => rw [hfl] at hd; cases hd
                | some z =>
                  have hz := hflush z hfl
                  obtain ⟨q, e3, b3⟩ := z
                  rw [hfl, some_bind] at hd
                  dsimp only at hd
                  rcases hz with ⟨z1, z2, s3, z3, z4, z5⟩ | ⟨k, s3, n, z1, z2, z3, hl, z4⟩
                  · dsimp only at z3
                    obtain ⟨l1, l2⟩ := drop_recorded ⟨F, S, o, .dynamic⟩ hS z3 z4 e2 hd
                    refine ⟨fun hu => ⟨rfl, ?_⟩, fun k' hk => ⟨.inr ⟨kr, rfl, rfl⟩, ?_⟩⟩
                    · dsimp only
                      rw [l1 hu, z5, y5, a2]; simp [List.append_assoc]
                    · obtain ⟨n, hl, l2⟩ := l2 k' hk
                      refine ⟨(header fmt).length + ((cs ++ cs2).flatten.length + n), by simp only [List.flatten_append, List.length_append] at hl ⊢; omega, ?_⟩
                      dsimp only
                      rw [l2, z5, y5, a2, List.take_length_add_append, List.take_length_add_append, List.flatten_append]
                      simp [List.append_assoc]
                  · dsimp only at z1 z2
                    obtain ⟨l1, l2⟩ := Encoder.drop_inv ⟨F, S, o, .dynamic⟩ (hS.inv k (log s3)) hd z2 ⟨z3, rfl⟩
                    refine ⟨fun hu => ?_, fun k' hk => ⟨.inr ⟨kr, rfl, rfl⟩, ?_⟩⟩
                    · rw [l1] at hu; cases hu
                    · have hm := take_append_flatten cs2.flatten (cs' ++ trailer fmt W2.flatten).flatten hl
                      refine ⟨(header fmt).length + (cs.flatten.length + n), by simp only [List.flatten_append, List.length_append] at hl ⊢; omega, ?_⟩
                      dsimp only
                      rw [l2, z4, y5, a2, List.take_length_add_append, List.flatten_append, List.append_assoc cs.flatten, List.take_length_add_append, ← hm]
                      simp [List.append_assoc]
          · dsimp only at y1 y2
            subst y1
            dsimp only at hx
            cases hd : dropBuffered ⟨F, S, o, .dynamic⟩ e1 b1 with
            | none => rw [hd] at hx; cases hx
            | some s4 =>
              rw [hd, some_bind] at hx
              cases hx
              obtain ⟨l1, l2⟩ := dropBuffered_inv ⟨F, S, o, .dynamic⟩ (hS.inv k (log s1)) hd y2 ⟨y3, rfl⟩
              refine ⟨fun hu => ?_, fun k' hk => ⟨.inl ?_, ?_⟩⟩
              · rw [l1] at hu; cases hu
              · rw [l1] at hk; cases hk; rfl
              · have hm := take_append_flatten cs.flatten (cs2.flatten ++ (cs' ++ trailer fmt W2.flatten).flatten) hl
                refine ⟨(header fmt).length + n, by simp only [List.flatten_append, List.length_append] at hl ⊢; omega, ?_⟩
                dsimp only
                rw [l2, y4, a2, List.take_length_add_append, List.flatten_append, List.append_assoc cs.flatten, ← hm]
                simp [List.append_assoc]

end Zopfli
