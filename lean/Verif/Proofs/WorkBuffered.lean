import Verif.Model.WorkBuffered
import Verif.Proofs.WorkCompress
/-!
# The steps of buffered encoders
-/

namespace Zopfli
namespace Work

variable {σ ρ : Type}

/-- What handing over `bytes` bytes in `c` calls, of which `F` are flushes, does: the encoder held back `h` bytes and the buffer `p` bytes before, `h'` and
`p'` afterwards; `t` steps were taken. -/
def Handed (A K2 h p h' p' t bytes F c : Nat) (ok : Prop) : Prop :=
  p' ≤ MASTER_BLOCK_SIZE ∧ ∃ fl m, m + p' ≤ p + bytes ∧ h' ≤ h + m ∧ 1000000 * fl + p ≤ 2 * m + p' + 1000000 * F ∧
    t ≤ A * (h + m) + fl * (K2 + 2) + 2 * (K2 + 2) + 4 * p + 5 * bytes + 2 * c ∧
    (ok → t + A * h' ≤ A * (h + m) + 2 * m + fl * (K2 + 2) + bytes + 2 * c)

theorem Handed.ofOk {A K2 h p h' p' t bytes F c : Nat} {ok : Prop} (fl m : Nat) (h0 : p' ≤ 1000000) (h1 : m + p' ≤ p + bytes) (h2 : h' ≤ h + m)
    (h3 : 1000000 * fl + p ≤ 2 * m + p' + 1000000 * F) (h4 : t + A * h' ≤ A * (h + m) + 2 * m + fl * (K2 + 2) + bytes + 2 * c) :
    Handed A K2 h p h' p' t bytes F c ok := by
  refine ⟨h0, fl, m, h1, h2, h3, ?_, fun _ => h4⟩
  generalize A * (h + m) = x at *
  generalize A * h' = y at *
  generalize fl * (K2 + 2) = z at *
  omega

theorem Handed.trans {A K2 h p h1 p1 h2 p2 t1 t2 b1 b2 F1 F2 c1 c2 : Nat} {ok1 ok2 : Prop} (hok : ok1) (x : Handed A K2 h p h1 p1 t1 b1 F1 c1 ok1)
    (y : Handed A K2 h1 p1 h2 p2 t2 b2 F2 c2 ok2) : Handed A K2 h p h2 p2 (t1 + t2) (b1 + b2) (F1 + F2) (c1 + c2) ok2 := by
  obtain ⟨-, fl, m, x1, x2, x3, -, x5⟩ := x
  obtain ⟨y0, fl', m', y1, y2, y3, y4, y5⟩ := y
  have x5 := x5 hok
  have e1 : A * (h + (m + m')) = A * (h + m) + A * m' := by rw [← Nat.add_assoc, Nat.mul_add]
  have e2 : A * (h1 + m') = A * h1 + A * m' := Nat.mul_add ..
  have e3 : (fl + fl') * (K2 + 2) = fl * (K2 + 2) + fl' * (K2 + 2) := Nat.add_mul ..
  refine ⟨y0, fl + fl', m + m', by omega, by omega, by omega, ?_, fun ho => ?_⟩
  · rw [e1, e3]
    rw [e2] at y4
    generalize A * (h + m) = u1 at *
    generalize A * m' = u2 at *
    generalize A * h1 = u3 at *
    generalize fl * (K2 + 2) = u4 at *
    generalize fl' * (K2 + 2) = u5 at *
    omega
  · have y5 := y5 ho
    rw [e1, e3]
    rw [e2] at y5
    generalize A * (h + m) = u1 at *
    generalize A * m' = u2 at *
    generalize A * h1 = u3 at *
    generalize fl * (K2 + 2) = u4 at *
    generalize fl' * (K2 + 2) = u5 at *
    omega

/-- Nothing but the buffer is touched. -/
theorem Handed.fits (A K2 h p d : Nat) (hp : p + d ≤ 1000000) (ok : Prop) : Handed A K2 h p h (p + d) (d + 1 + 0) d 0 1 ok :=
  Handed.ofOk 0 0 hp (by omega) (by omega) (by omega) (by simp only [Nat.add_zero, Nat.zero_mul]; omega)

/-- The buffer could not be handed on. -/
theorem Handed.failed (A K2 h p t d c : Nat) (hp : p ≤ 1000000) (ht : t ≤ A * h + K2 + 2 * p + 2) {ok : Prop} (hok : ¬ ok) (hc : 1 ≤ c) (F : Nat) :
    Handed A K2 h p h p (d + 1 + (t + 0)) d F c ok := by
  refine ⟨hp, 0, 0, by omega, by omega, by omega, ?_, fun h => absurd h hok⟩
  simp only [Nat.add_zero, Nat.zero_mul]
  generalize A * h = x at *
  omega

/-- The first part of a call: the buffer is handed on, if need be. -/
def Emptied (A K2 lim : Nat) (e : Encoder σ) (buf : List UInt8) (c : Prop) (x : Except ErrKind Unit × Encoder σ × List UInt8) (t : Nat) : Prop :=
  Ready lim x.2.1 ∧ t ≤ A * heldBy e + K2 + 2 * buf.length + 2 ∧
    (x.1 = .ok () → (c ∧ x.2.2 = [] ∧ ((buf.length = 0 ∧ heldBy x.2.1 = heldBy e ∧ t = 1) ∨ (buf.length ≠ 0 ∧ heldBy x.2.1 = buf.length))) ∨
      (¬ c ∧ x.2.2 = buf ∧ heldBy x.2.1 = heldBy e ∧ t = 0)) ∧
    (∀ k, x.1 = .error k → x.2.2 = buf ∧ heldBy x.2.1 = heldBy e)

theorem emptied_cost (E : Nat) (env : Env σ) (L : FloatLaws env.F) (A K K2 : Nat) (hK : K2 = K + 32768) (hA : ∀ n, stepsFor env.options E n = A * n + K)
    (e : Encoder σ) (hg : Ready L.lim e) (buf : List UInt8) (hb : buf.length ≤ 1000000) (c : Prop) [Decidable c] :
    Cost (if c then flushBuf E env e buf else (Pure.pure (.ok (), e, buf) : Work _)) (if c then Zopfli.flushBuf env e buf else some (.ok (), e, buf))
      (Emptied A K2 L.lim e buf c) := by
  have hlim : buf.length < L.lim := by
    have := L.lim_ge
    omega
  refine Cost.ite (fun hc => (flushBuf_cost E env L e hg buf hlim).mono fun x t _ p => ?_) fun hc => Cost.pure ?_
  · obtain ⟨p1, p2, p3, p4⟩ := p
    rw [hA] at p2
    refine ⟨p1, by omega, fun h => .inl ⟨hc, ?_⟩, p4⟩
    obtain ⟨q1, q2, q3⟩ := p3 h
    refine ⟨q1, ?_⟩
    by_cases hp : buf = []
    · exact .inl ⟨by rw [hp]; rfl, q2 hp⟩
    · exact .inr ⟨by simpa using hp, q3 hp⟩
  · exact ⟨hg, Nat.zero_le _, fun _ => .inr ⟨hc, rfl, rfl, rfl⟩, nofun⟩

/-- The last part of a call: buffering the data. -/
theorem Emptied.buffered {A K2 lim : Nat} {e e' : Encoder σ} {buf buf' : List UInt8} {t d : Nat}
    (h : Emptied A K2 lim e buf (d > 1000000 - buf.length) (.ok (), e', buf') t) (hb : buf.length ≤ 1000000) (hd : ¬ d < 1000000 - buf.length)
    (hd' : ¬ d ≥ 1000000) (ok : Prop) :
    Handed A K2 (heldBy e) buf.length (heldBy e') (buf'.length + d) (d + 1 + (t + 0)) d 0 1 ok := by
  obtain ⟨-, h1, h2, -⟩ := h
  rcases h2 rfl with ⟨q1, q2, ⟨q3, -, -⟩ | ⟨q3, q4⟩⟩ | ⟨q1, q2, q3, q4⟩
  · exfalso; omega
  · dsimp only at q2 q4
    rw [q2, q4, List.length_nil]
    refine Handed.ofOk 1 buf.length (by omega) (by omega) (by omega) (by omega) ?_
    rw [Nat.mul_add]
    generalize A * heldBy e = x at *
    omega
  · dsimp only at q2 q3
    rw [q2, q3, q4]
    exact Handed.fits A K2 (heldBy e) buf.length d (by omega) ok

/-- The last part of a call: the data go straight to the encoder. -/
theorem Emptied.direct {A K2 lim : Nat} {e e' e2 : Encoder σ} {buf buf' : List UInt8} {t d t' : Nat}
    (h : Emptied A K2 lim e buf (d > 1000000 - buf.length) (.ok (), e', buf') t) (hb : buf.length ≤ 1000000) (hd' : d ≥ 1000000)
    (ht' : t' ≤ A * heldBy e' + K2 + 2 * d + 2) {ok : Prop} (hok : ok → heldBy e2 = d) (hno : ¬ ok → heldBy e2 = heldBy e') :
    Handed A K2 (heldBy e) buf.length (heldBy e2) buf'.length (d + 1 + (t + (t' + 0))) d 0 1 ok := by
  obtain ⟨-, h1, h2, -⟩ := h
  have key : buf'.length = 0 ∧ (buf.length = 0 ∧ heldBy e' = heldBy e ∧ t ≤ 1 ∨ buf.length ≠ 0 ∧ heldBy e' = buf.length) := by
    rcases h2 rfl with ⟨q1, q2, ⟨q3, q4, q5⟩ | ⟨q3, q4⟩⟩ | ⟨q1, q2, q3, q4⟩
    · exact ⟨by rw [show buf' = [] from q2]; rfl, .inl ⟨q3, q4, by omega⟩⟩
    · exact ⟨by rw [show buf' = [] from q2]; rfl, .inr ⟨q3, q4⟩⟩
    · dsimp only at q2 q3
      refine ⟨by rw [q2]; omega, .inl ⟨by omega, q3, by omega⟩⟩
  obtain ⟨k0, ⟨k1, k2, k3⟩ | ⟨k1, k2⟩⟩ := key
  · rw [k2] at ht' hno
    by_cases ho : ok
    · rw [hok ho, k0, k1]
      refine Handed.ofOk 1 d (by omega) (by omega) (by omega) (by omega) ?_
      rw [Nat.mul_add]
      generalize A * heldBy e = x at *
      omega
    · rw [hno ho, k0, k1]
      refine ⟨by decide, 0, 0, by omega, by omega, by omega, ?_, fun h => absurd h ho⟩
      simp only [Nat.add_zero, Nat.zero_mul]
      generalize A * heldBy e = x at *
      omega
  · rw [k2] at ht' hno
    by_cases ho : ok
    · rw [hok ho, k0]
      refine Handed.ofOk 2 (buf.length + d) (by omega) (by omega) (by omega) (by omega) ?_
      rw [Nat.mul_add, Nat.mul_add]
      generalize A * heldBy e = x at *
      omega
    · rw [hno ho, k0]
      refine ⟨by decide, 0, buf.length, by omega, by omega, by omega, ?_, fun h => absurd h ho⟩
      rw [Nat.mul_add]
      simp only [Nat.zero_mul]
      generalize A * heldBy e = x at *
      omega

/-- A buffered encoder before and after. -/
def HandedB (A K2 lim : Nat) (b b' : BufEncoder σ) (t bytes F c : Nat) (ok : Prop) : Prop :=
  Ready lim b'.inner ∧ Handed A K2 (heldBy b.inner) b.buf.length (heldBy b'.inner) b'.buf.length t bytes F c ok

section
variable (E : Nat) (env : Env σ) (L : FloatLaws env.F) (A K K2 : Nat) (hK : K2 = K + 32768) (hA : ∀ n, stepsFor env.options E n = A * n + K)
include hK hA

theorem bufWrite_cost (b : BufEncoder σ) (hg : Ready L.lim b.inner) (hb : b.buf.length ≤ 1000000) (data : List UInt8) (hd : data.length < L.lim) :
    Cost (bufWrite E env b data) (b.write env data) fun x t => HandedB A K2 L.lim b x.2 t data.length 0 1 (∃ n, x.1 = .ok n) := by
  unfold bufWrite BufEncoder.write
  refine Cost.tick ?_
  dsimp only [MASTER_BLOCK_SIZE]
  refine Cost.ite (fun h1 => Cost.pure ⟨hg, ?_⟩) fun h1 => ?_
  · dsimp only
    rw [List.length_append]
    exact Handed.fits _ _ _ _ _ (by omega) _
  · refine Cost.bind (emptied_cost E env L A K K2 hK hA b.inner hg b.buf hb _) fun x t _ p => ?_
    obtain ⟨q, e, buf⟩ := x
    dsimp only
    cases q with
    | error k =>
      refine Cost.pure ⟨p.1, ?_⟩
      obtain ⟨p1, p2⟩ := p.2.2.2 k rfl
      dsimp only at p1 p2 ⊢
      rw [p1, p2]
      exact Handed.failed A K2 _ _ _ _ 1 hb p.2.1 (by simp) (Nat.le_refl _) 0
    | ok u =>
      refine Cost.ite (fun h2 => ?_) fun h2 => Cost.pure ⟨p.1, ?_⟩
      · refine Cost.bind (write_cost E env L e p.1 data hd) fun y t' _ r => Cost.pure ?_
        obtain ⟨w, e2⟩ := y
        obtain ⟨r1, r2, r3, r4⟩ := r
        dsimp only at r1 r2 r3 r4 ⊢
        rw [hA] at r2
        refine ⟨r1, p.direct hb h2 (by omega) ?_ ?_⟩
        · rintro ⟨n, rfl⟩
          exact r3 n rfl
        · intro h
          cases w with
          | ok n => exact absurd ⟨n, rfl⟩ h
          | error k => exact r4 k rfl
      · dsimp only
        rw [List.length_append]
        exact p.buffered hb h1 h2 _

theorem bufWriteAll_cost (b : BufEncoder σ) (hg : Ready L.lim b.inner) (hb : b.buf.length ≤ 1000000) (data : List UInt8) (hd : data.length < L.lim) :
    Cost (bufWriteAll E env b data) (b.writeAll env data) fun x t => HandedB A K2 L.lim b x.2 t data.length 0 1 (x.1 = .ok ()) := by
  unfold bufWriteAll BufEncoder.writeAll
  refine Cost.tick ?_
  dsimp only [MASTER_BLOCK_SIZE]
  refine Cost.ite (fun h1 => Cost.pure ⟨hg, ?_⟩) fun h1 => ?_
  · dsimp only
    rw [List.length_append]
    exact Handed.fits _ _ _ _ _ (by omega) _
  · refine Cost.bind (emptied_cost E env L A K K2 hK hA b.inner hg b.buf hb _) fun x t _ p => ?_
    obtain ⟨q, e, buf⟩ := x
    dsimp only
    cases q with
    | error k =>
      refine Cost.pure ⟨p.1, ?_⟩
      obtain ⟨p1, p2⟩ := p.2.2.2 k rfl
      dsimp only at p1 p2 ⊢
      rw [p1, p2]
      exact Handed.failed A K2 _ _ _ _ 1 hb p.2.1 (by simp) (Nat.le_refl _) 0
    | ok u =>
      refine Cost.ite (fun h2 => ?_) fun h2 => Cost.pure ⟨p.1, ?_⟩
      · refine Cost.bind (flushBuf_cost E env L e p.1 data hd) fun y t' _ r => Cost.pure ?_
        obtain ⟨w, e2, buf2⟩ := y
        obtain ⟨r1, r2, r3, r4⟩ := r
        dsimp only at r1 r2 r3 r4 ⊢
        rw [hA] at r2
        have hne : data ≠ [] := by rintro rfl; simp at h2
        refine ⟨r1, p.direct hb h2 (by omega) ?_ ?_⟩
        · rintro rfl
          exact (r3 rfl).2.2 hne
        · intro h
          cases w with
          | ok n => exact absurd rfl h
          | error k => exact (r4 k rfl).2
      · dsimp only
        rw [List.length_append]
        exact p.buffered hb h1 h2 _

theorem bufFlush_cost (b : BufEncoder σ) (hg : Ready L.lim b.inner) (hb : b.buf.length ≤ 1000000) :
    Cost (bufFlush E env b) (b.flush env) fun x t => HandedB A K2 L.lim b x.2 t 0 1 1 (x.1 = .ok ()) := by
  have hlim : b.buf.length < L.lim := by
    have := L.lim_ge
    omega
  unfold bufFlush BufEncoder.flush
  refine Cost.bind (flushBuf_cost E env L b.inner hg b.buf hlim) fun x t _ p => ?_
  obtain ⟨q, e, buf⟩ := x
  obtain ⟨p1, p2, p3, p4⟩ := p
  rw [hA] at p2
  dsimp only at p1 p2 p3 p4 ⊢
  cases q with
  | error k =>
    refine Cost.pure ⟨p1, ?_⟩
    obtain ⟨p5, p6⟩ := p4 k rfl
    dsimp only
    rw [p5, p6]
    refine ⟨hb, 0, 0, by omega, by omega, by omega, ?_, nofun⟩
    simp only [Nat.add_zero, Nat.zero_mul]
    generalize A * heldBy b.inner = x at *
    omega
  | ok u =>
    obtain ⟨p5, p6, p7⟩ := p3 rfl
    unfold flush
    dsimp only
    refine Cost.bind (P := fun _ t => t = 1) (Cost.tick (Cost.lift fun _ _ => rfl)) fun y t' hy r => Cost.pure ?_
    obtain ⟨w, e2⟩ := y
    obtain ⟨g1, g2⟩ := flush_same env hy p1
    subst r
    refine ⟨g1, ?_⟩
    dsimp only
    rw [g2, p5, List.length_nil]
    by_cases hp : b.buf = []
    · obtain ⟨p8, p9⟩ := p6 hp
      rw [p8, p9, hp, List.length_nil]
      refine Handed.ofOk 0 0 (by omega) (by omega) (by omega) (by omega) ?_
      simp only [Nat.add_zero, Nat.zero_mul]
      omega
    · rw [p7 hp]
      refine Handed.ofOk 1 b.buf.length (by omega) (by omega) (by omega) (by omega) ?_
      rw [Nat.mul_add]
      generalize A * heldBy b.inner = x at *
      omega

/-- The number of calls of `flush`. -/
def flushesOf : List Call → Nat
  | [] => 0
  | .write _ :: l => flushesOf l
  | .flush :: l => flushesOf l + 1

omit hK hA in
theorem HandedB.buf_le {A K2 lim : Nat} {b b' : BufEncoder σ} {t bytes F c : Nat} {ok : Prop} (h : HandedB A K2 lim b b' t bytes F c ok) :
    b'.buf.length ≤ 1000000 := h.2.1

theorem bufRun_cost : ∀ (calls : List Call) (b : BufEncoder σ), (∀ w ∈ writesOf calls, w.length < L.lim) → Ready L.lim b.inner → b.buf.length ≤ 1000000 →
    Cost (bufRun E env calls b) (b.run env calls) fun x t =>
      HandedB A K2 L.lim b x.2 t (writesOf calls).flatten.length (flushesOf calls) calls.length (x.1 = .ok ())
  | [], b, _, hg, hb => by
    refine Cost.pure ⟨hg, ?_⟩
    refine Handed.ofOk 0 0 hb (Nat.le_of_eq (by simp [writesOf])) (Nat.le_refl _) (by simp) ?_
    simp [writesOf]
  | .write data :: l, b, hw, hg, hb => by
    rw [writesOf, List.forall_mem_cons] at hw
    rw [bufRun, BufEncoder.run]
    refine Cost.bind (bufWrite_cost E env L A K K2 hK hA b hg hb data hw.1) fun x t _ p => ?_
    obtain ⟨q, b1⟩ := x
    dsimp only
    have e1 : (writesOf (.write data :: l)).flatten.length = data.length + (writesOf l).flatten.length := by
      rw [writesOf, List.flatten_cons, List.length_append]
    have e2 : flushesOf (.write data :: l) = 0 + flushesOf l := by rw [flushesOf, Nat.zero_add]
    have e3 : (Call.write data :: l).length = 1 + l.length := by rw [List.length_cons, Nat.add_comm]
    rw [e1, e2, e3]
    cases q with
    | ok n =>
      refine (bufRun_cost l b1 hw.2 p.1 p.buf_le).mono fun y t' _ r => ⟨r.1, ?_⟩
      exact Handed.trans ⟨n, rfl⟩ p.2 r.2
    | error k =>
      refine Cost.pure ⟨p.1, ?_⟩
      obtain ⟨p0, fl, m, p1, p2, p3, p4, -⟩ := p.2
      refine ⟨p0, fl, m, by omega, p2, by dsimp only at *; omega, ?_, nofun⟩
      rw [Nat.add_zero]
      refine Nat.le_trans p4 ?_
      omega
  | .flush :: l, b, hw, hg, hb => by
    rw [writesOf] at hw
    rw [bufRun, BufEncoder.run]
    refine Cost.bind (bufFlush_cost E env L A K K2 hK hA b hg hb) fun x t _ p => ?_
    obtain ⟨q, b1⟩ := x
    dsimp only
    have e1 : (writesOf (.flush :: l)).flatten.length = 0 + (writesOf l).flatten.length := by rw [writesOf, Nat.zero_add]
    have e2 : flushesOf (.flush :: l) = 1 + flushesOf l := by rw [flushesOf, Nat.add_comm]
    have e3 : (Call.flush :: l).length = 1 + l.length := by rw [List.length_cons, Nat.add_comm]
    rw [e1, e2, e3]
    cases q with
    | ok n =>
      refine (bufRun_cost l b1 hw p.1 p.buf_le).mono fun y t' _ r => ⟨r.1, ?_⟩
      exact Handed.trans rfl p.2 r.2
    | error k =>
      refine Cost.pure ⟨p.1, ?_⟩
      obtain ⟨p0, fl, m, p1, p2, p3, p4, -⟩ := p.2
      refine ⟨p0, fl, m, by omega, p2, by dsimp only at *; omega, ?_, nofun⟩
      rw [Nat.add_zero]
      refine Nat.le_trans p4 ?_
      omega

theorem intoInnerFinish_cost (b : BufEncoder σ) (hg : Ready L.lim b.inner) (hb : b.buf.length ≤ 1000000) (N : Nat) (hN : heldBy b.inner + b.buf.length ≤ N) :
    Cost (intoInnerFinish E env b) (b.intoInnerFinish env) fun x t => t ≤ 4 * (A * N) + 4 * N + 4 * K2 + 2 ∧
      (x.1 = .ok () → t ≤ A * heldBy b.inner + A * b.buf.length + 2 * N + 2 * K2 + 2) := by
  have hlim : b.buf.length < L.lim := by
    have := L.lim_ge
    omega
  unfold intoInnerFinish BufEncoder.intoInnerFinish
  have hAN : A * heldBy b.inner + A * b.buf.length ≤ A * N := by rw [← Nat.mul_add]; exact Nat.mul_le_mul_left _ hN
  refine Cost.bind (flushBuf_cost E env L b.inner hg b.buf hlim) fun x t _ p => ?_
  obtain ⟨q, e, buf⟩ := x
  obtain ⟨p1, p2, p3, p4⟩ := p
  rw [hA] at p2
  dsimp only at p1 p2 p3 p4 ⊢
  cases q with
  | error k =>
    obtain ⟨p5, p6⟩ := p4 k rfl
    refine Cost.bind (dropBuffered_cost E env L A K K2 hK hA e p1 buf (by rw [p5]; exact hb) N (by omega) (by rw [p5]; omega)) fun s t' _ r =>
      Cost.pure ⟨?_, nofun⟩
    generalize A * N = y at *
    generalize A * heldBy b.inner = z at *
    omega
  | ok u =>
    obtain ⟨-, p6, p7⟩ := p3 rfl
    refine (finish_cost E env L e p1).mono fun x t' _ r => ?_
    rw [hA] at r
    obtain ⟨r1, r2⟩ := r
    by_cases hp : b.buf = []
    · obtain ⟨p8, p9⟩ := p6 hp
      rw [p8] at r1 r2
      generalize A * N = y at *
      generalize A * heldBy b.inner = z at *
      refine ⟨by omega, fun h => ?_⟩
      have := r2 h
      omega
    · rw [p7 hp] at r1 r2
      generalize A * N = y at *
      generalize A * heldBy b.inner = z at *
      generalize A * b.buf.length = u at *
      refine ⟨by omega, fun h => ?_⟩
      have := r2 h
      omega

omit hK hA in
theorem flushesOf_le : ∀ calls : List Call, flushesOf calls ≤ calls.length
  | [] => Nat.le_refl _
  | .write _ :: l => by rw [flushesOf, List.length_cons]; exact Nat.le_succ_of_le (flushesOf_le l)
  | .flush :: l => by rw [flushesOf, List.length_cons]; exact Nat.succ_le_succ (flushesOf_le l)

omit hK hA in
/-- The total, when all went well. -/
theorem Handed.total_ok {m n fl F c h1 p1 t1 t2 : Nat} (hF : F ≤ c) (x1 : m + p1 ≤ n) (x3 : 1000000 * fl ≤ 2 * m + p1 + 1000000 * F)
    (x5 : t1 + A * h1 ≤ A * m + 2 * m + fl * (K2 + 2) + n + 2 * c) (y : t2 ≤ A * h1 + A * p1 + 2 * n + 2 * K2 + 2) (hK2 : 32768 ≤ K2) :
    10 + (t1 + t2) ≤ (A + 6) * n + 4 * c + (n / 500000 + F + 3) * K2 := by
  have hfl : fl ≤ n / 500000 + F := by omega
  have e1 : A * m + A * p1 ≤ A * n := by rw [← Nat.mul_add]; exact Nat.mul_le_mul_left _ x1
  have e2 : fl * (K2 + 2) = fl * K2 + 2 * fl := by rw [Nat.mul_add, Nat.mul_comm fl 2]
  have e3 : fl * K2 ≤ (n / 500000 + F) * K2 := Nat.mul_le_mul_right _ hfl
  have e4 : (A + 6) * n = A * n + 6 * n := Nat.add_mul ..
  have e5 : (n / 500000 + F + 3) * K2 = (n / 500000 + F) * K2 + 3 * K2 := Nat.add_mul ..
  have e6 : n / 500000 ≤ n := Nat.div_le_self _ _
  rw [e4, e5]
  rw [e2] at x5
  generalize (n / 500000 + F) * K2 = u1 at *
  generalize fl * K2 = u2 at *
  generalize A * n = u3 at *
  generalize A * m = u4 at *
  generalize A * h1 = u5 at *
  generalize A * p1 = u6 at *
  omega

omit hK hA in
/-- The total in any case. -/
theorem Handed.total {m n fl F c p1 t1 t2 : Nat} (hF : F ≤ c) (x1 : m + p1 ≤ n) (x3 : 1000000 * fl ≤ 2 * m + p1 + 1000000 * F)
    (x4 : t1 ≤ A * m + fl * (K2 + 2) + 2 * (K2 + 2) + 5 * n + 2 * c) (y : t2 ≤ 4 * (A * n) + 4 * n + 4 * K2 + 2) (hK2 : 32768 ≤ K2) :
    10 + (t1 + t2) ≤ (5 * A + 10) * n + 4 * c + (n / 500000 + F + 7) * K2 := by
  have hfl : fl ≤ n / 500000 + F := by omega
  have e1 : A * m ≤ A * n := Nat.mul_le_mul_left _ (by omega)
  have e2 : fl * (K2 + 2) = fl * K2 + 2 * fl := by rw [Nat.mul_add, Nat.mul_comm fl 2]
  have e3 : fl * K2 ≤ (n / 500000 + F) * K2 := Nat.mul_le_mul_right _ hfl
  have e4 : (5 * A + 10) * n = 5 * (A * n) + 10 * n := by rw [Nat.add_mul, Nat.mul_assoc]
  have e5 : (n / 500000 + F + 7) * K2 = (n / 500000 + F) * K2 + 7 * K2 := Nat.add_mul ..
  have e6 : n / 500000 ≤ n := Nat.div_le_self _ _
  rw [e4, e5]
  rw [e2] at x4
  generalize (n / 500000 + F) * K2 = u1 at *
  generalize fl * K2 = u2 at *
  generalize A * n = u3 at *
  generalize A * m = u4 at *
  omega

theorem bufDrop_cost (b : BufEncoder σ) (hg : Ready L.lim b.inner) (hb : b.buf.length ≤ 1000000) (N : Nat) (hN : heldBy b.inner + b.buf.length ≤ N) :
    Cost (bufDrop E env b) (b.drop env) fun _ t => t ≤ 4 * (A * N) + 4 * N + 4 * K2 + 2 :=
  (dropBuffered_cost E env L A K K2 hK hA b.inner hg b.buf hb N (by omega) (by omega)).mono fun _ t _ p => by
    generalize A * N = y at *
    omega

omit hK hA in
theorem bufNew_ready (fmt : Format) {sink s : σ} {b : BufEncoder σ} (h : BufEncoder.new env fmt sink = some (.ok b, s)) {lim : Nat} (hl : 0 < lim) :
    Ready lim b.inner ∧ heldBy b.inner = 0 ∧ b.buf = [] := by
  unfold BufEncoder.new at h
  rw [Option.bind_eq_bind, Option.bind_eq_some_iff] at h
  obtain ⟨⟨r, s1⟩, h1, h⟩ := h
  cases r with
  | error k => cases h
  | ok e =>
    cases h
    obtain ⟨g1, g2⟩ := new_ready env fmt h1 hl
    exact ⟨g1, g2, rfl⟩

theorem bufferedSession_cost (fmt : Format) (calls : List Call) (ending : Ending) (sink : σ) (hw : ∀ w ∈ writesOf calls, w.length < L.lim) :
    Cost (bufferedSession E env fmt calls ending sink) (Zopfli.bufferedSession env fmt calls ending sink) fun x t =>
      t ≤ (5 * A + 10) * (writesOf calls).flatten.length + 4 * calls.length + ((writesOf calls).flatten.length / 500000 + flushesOf calls + 7) * K2 ∧
      (x.1 = .ok () → ending = .finish →
        t ≤ (A + 6) * (writesOf calls).flatten.length + 4 * calls.length + ((writesOf calls).flatten.length / 500000 + flushesOf calls + 3) * K2) := by
  unfold bufferedSession Zopfli.bufferedSession
  have hF := flushesOf_le calls
  have hK2 : 32768 ≤ K2 := by omega
  refine Cost.tick (Cost.liftBind fun x hx => ?_)
  obtain ⟨q, s1⟩ := x
  cases q with
  | error k =>
    refine Cost.pure ⟨?_, nofun⟩
    rw [Nat.add_mul _ 7 K2]
    omega
  | ok b =>
    obtain ⟨hr, h0, h1⟩ := bufNew_ready env fmt hx L.lim_pos
    refine Cost.bind (bufRun_cost E env L A K K2 hK hA calls b hw hr (by rw [h1]; exact Nat.zero_le _)) fun y t1 _ p => ?_
    obtain ⟨q, b1⟩ := y
    obtain ⟨p0, p1, fl, m, p2, p3, p4, p5, p6⟩ := p
    rw [h0, h1] at *
    simp only [List.length_nil, Nat.zero_add, Nat.add_zero, Nat.mul_zero] at p2 p3 p4 p5 p6
    dsimp only at p0 p1 p2 p3 p4 p5 p6 ⊢
    have hN : heldBy b1.inner + b1.buf.length ≤ (writesOf calls).flatten.length := by omega
    cases q with
    | error k =>
      refine Cost.bind (bufDrop_cost E env L A K K2 hK hA b1 p0 p1 _ hN) fun s t2 _ y => Cost.pure ⟨?_, nofun⟩
      exact Handed.total A K2 hF p2 p4 p5 y hK2
    | ok u =>
      cases ending with
      | finish =>
        refine (intoInnerFinish_cost E env L A K K2 hK hA b1 p0 p1 _ hN).mono fun x t2 _ y => ?_
        exact ⟨Handed.total A K2 hF p2 p4 p5 y.1 hK2, fun h _ => Handed.total_ok A K2 hF p2 p4 (p6 rfl) (y.2 h) hK2⟩
      | drop =>
        refine Cost.bind (bufDrop_cost E env L A K K2 hK hA b1 p0 p1 _ hN) fun s t2 _ y => Cost.pure ⟨?_, nofun⟩
        exact Handed.total A K2 hF p2 p4 p5 y hK2

omit hK hA in
theorem Handed.mono_c {h p h' p' t bytes F c c' : Nat} {ok : Prop} (x : Handed A K2 h p h' p' t bytes F c ok) (hc : c ≤ c') :
    Handed A K2 h p h' p' t bytes F c' ok := by
  obtain ⟨x0, fl, m, x1, x2, x3, x4, x5⟩ := x
  refine ⟨x0, fl, m, x1, x2, x3, Nat.le_trans x4 (by omega), fun h => Nat.le_trans (x5 h) (by omega)⟩

theorem copyTo_cost {src : Source ρ} {J : ρ → Prop} {data : ρ → List UInt8} {res : Except ErrKind Unit} {ν : ρ → Nat} (hR : Supplies src J data res ν)
    (hlim : 2 ^ 47 ≤ L.lim) :
    ∀ (n m : Nat) (r : ρ) (b : BufEncoder σ), (data r).length = n → ν r = m → J r → Ready L.lim b.inner → b.buf.length ≤ 1000000 →
      Cost (copyTo E env src r b) (Zopfli.copyTo env src r b) fun x t =>
        HandedB A K2 L.lim b x.2 t (data r).length 0 ((data r).length + 1) (x.1 = .ok ()) := by
  intro n
  induction n using Nat.strong_induction_on with
  | _ n ihn =>
    intro m
    induction m using Nat.strong_induction_on with
    | _ m ihm =>
      intro r b hn hm hr hg hb
      refine ⟨fun x hx => ?_⟩
      have hunf : ∀ (v : Option ((Except ErrKind Unit × BufEncoder σ) × Nat)), copyToO E env src r b = v → copyTo E env src r b = v := fun v h => h
      rw [Zopfli.copyTo] at hx
      rcases hR.next r hr with ⟨l, r', h1, h2, h3, h4, h5⟩ | ⟨r', h1, h2, h3, h4⟩ | ⟨r', h1, h2⟩
      · rw [h1] at hx
        cases l with
        | nil => exact absurd rfl h2
        | cons y ys =>
          dsimp only at hx
          have hlen : (data r).length = (y :: ys).length + (data r').length := by rw [h4, List.length_append]
          have hl : 0 < (y :: ys).length := List.length_pos_iff.mpr h2
          cases hw : b.writeAll env (y :: ys) with
          | none => rw [hw] at hx; cases hx
          | some z =>
            obtain ⟨t, ht, p⟩ := (bufWriteAll_cost E env L A K K2 hK hA b hg hb (y :: ys) (by omega)).get z hw
            rw [hw] at hx
            obtain ⟨q, b1⟩ := z
            cases q with
            | error k =>
              cases hx
              refine ⟨t, hunf _ ?_, p.1, ?_⟩
              · rw [copyToO, h1]
                dsimp only
                rw [ht]
              · obtain ⟨p0, fl, m, p1, p2, p3, p4, -⟩ := p.2
                refine ⟨p0, fl, m, by omega, p2, p3, ?_, nofun⟩
                refine Nat.le_trans p4 ?_
                omega
            | ok u =>
              dsimp only at hx
              obtain ⟨t', ht', p'⟩ := (ihn (data r').length (by omega) (ν r') r' b1 rfl rfl h5 p.1 p.buf_le).get x hx
              refine ⟨t + t', hunf _ ?_, p'.1, ?_⟩
              · rw [copyToO, h1]
                dsimp only
                rw [ht]
                dsimp only
                rw [show copyToO E env src r' b1 = some (x, t') from ht']
                rfl
              · rw [hlen]
                exact (Handed.trans rfl p.2 p'.2).mono_c A K2 (by omega)
      · rw [h1] at hx
        dsimp only at hx
        obtain ⟨t, ht, p⟩ := (ihm (ν r') (by omega) r' b (by rw [h2]; exact hn) rfl h4 hg hb).get x hx
        refine ⟨t, hunf _ ?_, by rw [h2] at p; exact p⟩
        rw [copyToO, h1]
        exact ht
      · have hni := hR.not_interrupted
        have hfin : ∀ q : Except ErrKind Unit, HandedB A K2 L.lim b b 1 (data r).length 0 ((data r).length + 1) (q = .ok ()) := by
          intro q
          refine ⟨hg, Handed.ofOk 0 0 hb (by omega) (by omega) (by omega) ?_⟩
          simp only [Nat.add_zero, Nat.zero_mul]
          omega
        rw [h1] at hx
        cases res with
        | ok u =>
          cases hx
          refine ⟨1, hunf _ ?_, hfin _⟩
          rw [copyToO, h1]
          rfl
        | error k =>
          cases k with
          | interrupted => exact absurd rfl hni
          | writeZero =>
            cases hx
            refine ⟨1, hunf _ ?_, hfin _⟩
            rw [copyToO, h1]
            rfl
          | other j =>
            cases hx
            refine ⟨1, hunf _ ?_, hfin _⟩
            rw [copyToO, h1]
            rfl

end

/-- The whole of `compress` with a reader that lends its buffer. -/
theorem compressFrom_cost (E : Nat) {F : FloatOps} (L : FloatLaws F) (hlim : 2 ^ 47 ≤ L.lim) (S : Sink σ) (o : Options) (A K K2 : Nat) (hK : K2 = K + 32768)
    (hA : ∀ n, stepsFor o E n = A * n + K) (fmt : Format) {src : Source ρ} {J : ρ → Prop} {data : ρ → List UInt8} {res : Except ErrKind Unit} {ν : ρ → Nat}
    (hR : Supplies src J data res ν) (r : ρ) (hr : J r) (s : σ) :
    Cost (compressFrom E F S src o fmt r s) (Zopfli.compressFrom F S src o fmt r s) fun x t =>
      t ≤ (5 * A + 14) * (data r).length + ((data r).length / 500000 + 8) * K2 ∧
      (x.1 = .ok () → t ≤ (A + 10) * (data r).length + ((data r).length / 500000 + 4) * K2) := by
  unfold compressFrom Zopfli.compressFrom
  dsimp only
  generalize henv : (⟨F, S, o, .dynamic⟩ : Env σ) = env
  have hF : F = env.F := by rw [← henv]
  have ho : o = env.options := by rw [← henv]
  subst hF ho
  generalize hn : (data r).length = n
  have hK2 : 32768 ≤ K2 := by omega
  have f1 : ∀ t, t ≤ (5 * A + 10) * n + 4 * (n + 1) + (n / 500000 + 0 + 7) * K2 → t ≤ (5 * A + 14) * n + (n / 500000 + 8) * K2 := by
    intro t ht
    have e1 : (5 * A + 14) * n = (5 * A + 10) * n + 4 * n := Nat.add_mul (5 * A + 10) 4 n
    have e2 : (n / 500000 + 8) * K2 = (n / 500000 + 0 + 7) * K2 + K2 := by rw [Nat.add_zero, ← Nat.succ_mul]
    rw [e1, e2]
    generalize (5 * A + 10) * n = u at *
    generalize (n / 500000 + 0 + 7) * K2 = v at *
    omega
  have f2 : ∀ t, t ≤ (A + 6) * n + 4 * (n + 1) + (n / 500000 + 0 + 3) * K2 → t ≤ (A + 10) * n + (n / 500000 + 4) * K2 := by
    intro t ht
    have e1 : (A + 10) * n = (A + 6) * n + 4 * n := Nat.add_mul (A + 6) 4 n
    have e2 : (n / 500000 + 4) * K2 = (n / 500000 + 0 + 3) * K2 + K2 := by rw [Nat.add_zero, ← Nat.succ_mul]
    rw [e1, e2]
    generalize (A + 6) * n = u at *
    generalize (n / 500000 + 0 + 3) * K2 = v at *
    omega
  refine Cost.tick (Cost.liftBind fun x hx => ?_)
  obtain ⟨q, s1⟩ := x
  cases q with
  | error k =>
    refine Cost.pure ⟨?_, nofun⟩
    rw [Nat.add_mul _ 8 K2]
    omega
  | ok b =>
    obtain ⟨hr', h0, h1⟩ := bufNew_ready env fmt hx L.lim_pos
    refine Cost.bind (copyTo_cost E env L A K K2 hK hA hR hlim n (ν r) r b hn rfl hr hr' (by rw [h1]; exact Nat.zero_le _)) fun y t1 _ p => ?_
    obtain ⟨q, b1⟩ := y
    obtain ⟨p0, p1, fl, m, p2, p3, p4, p5, p6⟩ := p
    rw [hn] at *
    rw [h0, h1] at *
    simp only [List.length_nil, Nat.zero_add, Nat.add_zero, Nat.mul_zero] at p2 p3 p4 p5 p6
    dsimp only at p0 p1 p2 p3 p4 p5 p6 ⊢
    have hN : heldBy b1.inner + b1.buf.length ≤ n := by omega
    cases q with
    | error k =>
      refine Cost.bind (bufDrop_cost E env L A K K2 hK hA b1 p0 p1 _ hN) fun s t2 _ y => Cost.pure ⟨f1 _ ?_, nofun⟩
      exact Handed.total A K2 (F := 0) (Nat.zero_le _) p2 p4 p5 y hK2
    | ok u =>
      refine (intoInnerFinish_cost E env L A K K2 hK hA b1 p0 p1 _ hN).mono fun x t2 _ y => ?_
      exact ⟨f1 _ (Handed.total A K2 (F := 0) (Nat.zero_le _) p2 p4 p5 y.1 hK2),
        fun h => f2 _ (Handed.total_ok A K2 (F := 0) (Nat.zero_le _) p2 p4 (p6 rfl) (y.2 h) hK2)⟩

end Work
end Zopfli
