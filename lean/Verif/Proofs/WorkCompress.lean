import Verif.Model.WorkCompress
import Verif.Proofs.WorkEncoder
import Verif.Proofs.Buffered
/-!
# The steps of `compress`
-/

namespace Zopfli
namespace Work

variable {σ ρ : Type}

theorem flushBuf_cost (E : Nat) (env : Env σ) (L : FloatLaws env.F) (e : Encoder σ) (hg : Ready L.lim e) (buf : List UInt8)
    (hb : buf.length < L.lim) :
    Cost (flushBuf E env e buf) (Zopfli.flushBuf env e buf) fun x t => Ready L.lim x.2.1 ∧
      t ≤ stepsFor env.options E (heldBy e) + 32768 + 2 * buf.length + 2 ∧
      (x.1 = .ok () → x.2.2 = [] ∧ (buf = [] → heldBy x.2.1 = heldBy e ∧ t = 1) ∧ (buf ≠ [] → heldBy x.2.1 = buf.length)) ∧
      (∀ k, x.1 = .error k → x.2.2 = buf ∧ heldBy x.2.1 = heldBy e) := by
  refine ⟨fun x hx => ?_⟩
  by_cases hp : buf = []
  · rw [Zopfli.flushBuf, if_pos hp] at hx
    cases hx
    refine ⟨1, ?_, hg, by omega, fun _ => ⟨rfl, fun _ => ⟨rfl, rfl⟩, fun h => absurd hp h⟩, nofun⟩
    show flushBufO E env e buf = _
    rw [flushBufO, if_pos hp]
  · rw [flushBuf_once env e hp] at hx
    cases hw : e.write env buf with
    | none => rw [hw] at hx; cases hx
    | some y =>
      obtain ⟨t, ht, p1, p2, p3, p4⟩ := (write_cost E env L e hg buf hb).get y hw
      have hres := Encoder.write_result env hw
      obtain ⟨r, e'⟩ := y
      rw [hw, some_bind] at hx
      dsimp only at hres p1 p2 p3 p4
      have hl : buf.length ≠ 0 := by simpa using hp
      obtain ⟨n, hn⟩ : ∃ n, buf.length = n + 1 := ⟨buf.length - 1, by omega⟩
      rcases hres with rfl | ⟨k, hk, rfl⟩
      · cases hx
        refine ⟨1 + t + 1, ?_, p1, by omega, fun _ => ⟨rfl, fun h => absurd h hp, fun _ => p3 _ rfl⟩, nofun⟩
        show flushBufO E env e buf = _
        rw [flushBufO, if_neg hp, ht, hn]
        dsimp only
        rw [← hn, List.drop_length, flushBufO, if_pos rfl]
        rfl
      · cases hx
        refine ⟨1 + t, ?_, p1, by omega, nofun, fun k' _ => ⟨rfl, p4 k rfl⟩⟩
        show flushBufO E env e buf = _
        rw [flushBufO, if_neg hp, ht]
        cases k with
        | interrupted => exact absurd rfl hk
        | writeZero => rfl
        | other j => rfl

/-- What copying leaves behind: `m` bytes were given to the encoder, in `fl` writes. -/
def Copied (E A K2 : Nat) (env : Env σ) (lim N : Nat) (e : Encoder σ) (x : Except ErrKind Unit × Encoder σ × List UInt8) (t rest : Nat) : Prop :=
  Ready lim x.2.1 ∧ x.2.2.length ≤ MASTER_BLOCK_SIZE ∧ ∃ fl m, m + x.2.2.length ≤ N ∧ 991809 * fl ≤ m ∧ heldBy x.2.1 ≤ heldBy e + m ∧
    t ≤ A * (heldBy e + m) + rest + 2 * N + 2 + fl * (K2 + 2) + (K2 + 2) ∧
    (x.1 = .ok () → t + A * heldBy x.2.1 ≤ A * (heldBy e + m) + rest + 2 * m + 1 + fl * (K2 + 2))

theorem copyLoop_cost (E : Nat) (env : Env σ) (L : FloatLaws env.F) (A K K2 : Nat) (hK : K2 = K + 32768) (hA : ∀ n, stepsFor env.options E n = A * n + K)
    {R : Reader ρ} {J : ρ → Prop} {data : ρ → List UInt8} {res : Except ErrKind Unit} {ν : ρ → Nat} (hR : Delivers R J data res ν) :
    ∀ (n m k : Nat) (r : ρ) (e : Encoder σ) (buf : List UInt8), (data r).length = n → ν r = m → buf.length = k → J r →
      buf.length ≤ MASTER_BLOCK_SIZE → Ready L.lim e →
      Cost (copyLoop E env R r e buf) (Zopfli.copyLoop env R r e buf) fun x t =>
        Copied E A K2 env L.lim (buf.length + (data r).length) e x t (data r).length := by
  intro n
  induction n using Nat.strong_induction_on with
  | _ n ihn =>
    intro m
    induction m using Nat.strong_induction_on with
    | _ m ihm =>
      intro k
      induction k using Nat.strong_induction_on with
      | _ k ihk =>
        intro r e buf hn hm hk hr hb he
        refine ⟨fun x hx => ?_⟩
        have hunf : ∀ (v : Option ((Except ErrKind Unit × Encoder σ × List UInt8) × Nat)), copyLoopO E env R r e buf = v → copyLoop E env R r e buf = v := fun v h => h
        rw [Zopfli.copyLoop] at hx
        by_cases hroom : DEFAULT_BUF_SIZE ≤ MASTER_BLOCK_SIZE - buf.length
        · rw [if_pos hroom] at hx
          have h0 : 0 < MASTER_BLOCK_SIZE - buf.length := Nat.lt_of_lt_of_le (by decide) hroom
          rcases hR.read r _ hr h0 with ⟨l, r', h1, h2, h3, h4, h5⟩ | ⟨r', h1, h2, h3, h4⟩ | ⟨r', h1, h2⟩
          · rw [h1] at hx
            cases l with
            | nil => exact absurd rfl h2
            | cons b bs =>
              dsimp only at hx
              rw [if_pos h3] at hx
              have hlen : (data r).length = (b :: bs).length + (data r').length := by rw [h4, List.length_append]
              have hl : 0 < (b :: bs).length := List.length_pos_iff.mpr h2
              obtain ⟨t, ht, p⟩ := (ihn (data r').length (by omega) (ν r') _ r' e (buf ++ b :: bs) rfl rfl rfl h5 (by
                rw [List.length_append]; omega) he).get x hx
              refine ⟨(b :: bs).length + t, hunf _ ?_, ?_⟩
              · rw [copyLoopO]
                dsimp only
                rw [if_pos hroom, h1]
                dsimp only
                rw [if_pos h3, show copyLoopO E env R r' e (buf ++ b :: bs) = some (x, t) from ht]
                rfl
              · have e1 : (buf ++ b :: bs).length = buf.length + (b :: bs).length := List.length_append
                generalize (b :: bs).length = lb at *
                obtain ⟨p1, p2, fl, m, p3, p4, p5, p6, p7⟩ := p
                refine ⟨p1, p2, fl, m, by omega, p4, p5, by omega, fun h => ?_⟩
                have := p7 h
                omega
          · rw [h1] at hx
            dsimp only at hx
            obtain ⟨t, ht, p⟩ := (ihm (ν r') (by omega) _ r' e buf (by rw [h2]; exact hn) rfl rfl h4 hb he).get x hx
            refine ⟨t, hunf _ ?_, by rw [h2] at p; exact p⟩
            rw [copyLoopO]
            dsimp only
            rw [if_pos hroom, h1]
            exact ht
          · have hni := hR.not_interrupted
            have hfin : ∀ q : Except ErrKind Unit, Copied E A K2 env L.lim (buf.length + (data r).length) e (q, e, buf) 1 (data r).length := by
              intro q
              refine ⟨he, hb, 0, 0, by dsimp only; omega, by omega, Nat.le_refl _, by omega, fun _ => ?_⟩
              simp only [Nat.add_zero]
              omega
            rw [h1] at hx
            cases res with
            | ok u =>
              cases hx
              refine ⟨1, hunf _ ?_, hfin _⟩
              rw [copyLoopO]
              dsimp only
              rw [if_pos hroom, h1]
              rfl
            | error k =>
              cases k with
              | interrupted => exact absurd rfl hni
              | writeZero =>
                cases hx
                refine ⟨1, hunf _ ?_, hfin _⟩
                rw [copyLoopO]
                dsimp only
                rw [if_pos hroom, h1]
                rfl
              | other j =>
                cases hx
                refine ⟨1, hunf _ ?_, hfin _⟩
                rw [copyLoopO]
                dsimp only
                rw [if_pos hroom, h1]
                rfl
        · rw [if_neg hroom] at hx
          have hbig : 991809 ≤ buf.length := by
            simp only [DEFAULT_BUF_SIZE, MASTER_BLOCK_SIZE] at hroom hb
            omega
          have hlim : buf.length < L.lim := by
            have := L.lim_ge
            simp only [MASTER_BLOCK_SIZE] at hb
            omega
          have hne : buf ≠ [] := by rintro rfl; simp at hbig
          cases hf : Zopfli.flushBuf env e buf with
          | none => rw [hf] at hx; cases hx
          | some y =>
            obtain ⟨t, ht, p1, p2, p3, p4⟩ := (flushBuf_cost E env L e he buf hlim).get y hf
            rw [hA] at p2
            obtain ⟨q, e', buf'⟩ := y
            rw [hf] at hx
            dsimp only at hx p1 p2 p3 p4
            cases q with
            | error k =>
              cases hx
              obtain ⟨rfl, p5⟩ := p4 k rfl
              refine ⟨t, hunf _ ?_, p1, hb, 0, 0, by dsimp only; omega, by omega, by dsimp only; omega, ?_, nofun⟩
              · rw [copyLoopO]
                dsimp only
                rw [if_neg hroom, ht]
              · simp only [Nat.add_zero]
                omega
            | ok u =>
              obtain ⟨rfl, -, p5⟩ := p3 rfl
              have p5 := p5 hne
              dsimp only at hx
              obtain ⟨t', ht', q1, q2, fl, m, q3, q4, q5, q6, q7⟩ := (ihk 0 (by omega) r e' [] hn hm rfl hr (Nat.zero_le _) p1).get x hx
              rw [p5] at q5 q6 q7
              rw [List.length_nil, Nat.zero_add] at q3 q6
              have e1 : A * (heldBy e + (buf.length + m)) = A * heldBy e + A * (buf.length + m) := Nat.mul_add ..
              have e2 : (fl + 1) * (K2 + 2) = fl * (K2 + 2) + (K2 + 2) := by rw [Nat.add_mul, Nat.one_mul]
              refine ⟨t + t', hunf _ ?_, q1, q2, fl + 1, buf.length + m, by omega, by omega, by omega, ?_, fun h => ?_⟩
              · rw [copyLoopO]
                dsimp only
                rw [if_neg hroom, ht]
                dsimp only
                rw [show copyLoopO E env R r e' [] = some (x, t') from ht']
                rfl
              · rw [e1, e2]
                omega
              · have := q7 h
                rw [e1, e2]
                omega

theorem dropBuffered_cost (E : Nat) (env : Env σ) (L : FloatLaws env.F) (A K K2 : Nat) (hK : K2 = K + 32768) (hA : ∀ n, stepsFor env.options E n = A * n + K)
    (e : Encoder σ) (hg : Ready L.lim e) (buf : List UInt8) (hb : buf.length ≤ MASTER_BLOCK_SIZE) (N : Nat) (hN : heldBy e ≤ N) (hN' : buf.length ≤ N) :
    Cost (dropBuffered E env e buf) (Zopfli.dropBuffered env e buf) fun _ t => t ≤ 3 * (A * N) + 2 * N + 3 * K2 := by
  have hlim : buf.length < L.lim := by
    have := L.lim_ge
    simp only [MASTER_BLOCK_SIZE] at hb
    omega
  unfold dropBuffered Zopfli.dropBuffered
  refine Cost.bind (flushBuf_cost E env L e hg buf hlim) fun x t _ p => ?_
  obtain ⟨q, e', buf'⟩ := x
  dsimp only at p ⊢
  obtain ⟨p1, p2, p3, p4⟩ := p
  have hh : heldBy e' ≤ N := by
    cases q with
    | ok u =>
      obtain ⟨-, p5, p6⟩ := p3 rfl
      by_cases hp : buf = []
      · rw [(p5 hp).1]; exact hN
      · rw [p6 hp]; exact hN'
    | error k => rw [(p4 k rfl).2]; exact hN
  refine (drop_cost E env L e' p1).mono fun s t' _ q' => ?_
  rw [hA] at p2 q'
  have h1 : A * heldBy e ≤ A * N := Nat.mul_le_mul_left _ hN
  have h2 : A * heldBy e' ≤ A * N := Nat.mul_le_mul_left _ hh
  omega

/-- The whole of `compress`. -/
theorem compress_cost (E : Nat) {F : FloatOps} (L : FloatLaws F) (S : Sink σ) (o : Options) (A K K2 : Nat) (hK : K2 = K + 32768)
    (hA : ∀ n, stepsFor o E n = A * n + K) (fmt : Format) {R : Reader ρ} {J : ρ → Prop} {data : ρ → List UInt8} {res : Except ErrKind Unit} {ν : ρ → Nat}
    (hR : Delivers R J data res ν) (r : ρ) (hr : J r) (s : σ) :
    Cost (compress E F S R o fmt r s) (Zopfli.compress F S R o fmt r s) fun x t =>
      t ≤ (4 * A + 8) * (data r).length + ((data r).length / 991809 + 6) * K2 ∧
      (x.1 = .ok () → t ≤ (A + 4) * (data r).length + ((data r).length / 991809 + 2) * K2) := by
  unfold compress Zopfli.compress
  dsimp only
  generalize henv : (⟨F, S, o, .dynamic⟩ : Env σ) = env
  have hF : F = env.F := by rw [← henv]
  have ho : o = env.options := by rw [← henv]
  subst hF ho
  generalize hn : (data r).length = n
  refine Cost.tick (Cost.liftBind fun x hx => ?_)
  obtain ⟨q, s1⟩ := x
  dsimp only
  have e1 : (4 * A + 8) * n = 4 * (A * n) + 8 * n := by rw [Nat.add_mul, Nat.mul_assoc]
  have e2 : (A + 4) * n = A * n + 4 * n := Nat.add_mul ..
  have e3 : (n / 991809 + 6) * K2 = n / 991809 * K2 + 6 * K2 := Nat.add_mul ..
  have e4 : (n / 991809 + 2) * K2 = n / 991809 * K2 + 2 * K2 := Nat.add_mul ..
  cases q with
  | error k => exact Cost.pure ⟨by omega, nofun⟩
  | ok e =>
    obtain ⟨hrdy, h0⟩ := new_ready env fmt hx L.lim_pos
    dsimp only
    refine Cost.bind (copyLoop_cost E env L A K K2 hK hA hR n (ν r) 0 r e [] hn rfl rfl hr (Nat.zero_le _) hrdy) fun y t1 _ p => ?_
    obtain ⟨q, e', buf⟩ := y
    rw [List.length_nil, Nat.zero_add, hn] at p
    obtain ⟨p1, p2, fl, m, p3, p4, p5, p6, p7⟩ := p
    dsimp only at p1 p2 p3 p5 p6 p7 ⊢
    rw [h0, Nat.zero_add] at p5 p6 p7
    have hfl : fl ≤ n / 991809 := by
      rw [Nat.le_div_iff_mul_le (by norm_num), Nat.mul_comm]
      omega
    have hfl2 : 2 * fl ≤ n := by omega
    have hflK : fl * K2 ≤ n / 991809 * K2 := Nat.mul_le_mul_right _ hfl
    have hflK' : fl * (K2 + 2) = fl * K2 + 2 * fl := by rw [Nat.mul_add, Nat.mul_comm fl 2]
    have hm : A * m ≤ A * n := Nat.mul_le_mul_left _ (by omega)
    have hAe : A * heldBy e' ≤ A * m := Nat.mul_le_mul_left _ p5
    have hAmb : A * m + A * buf.length ≤ A * n := by rw [← Nat.mul_add]; exact Nat.mul_le_mul_left _ p3
    have hlim : buf.length < L.lim := by
      have := L.lim_ge
      simp only [MASTER_BLOCK_SIZE] at p2
      omega
    cases q with
    | error k =>
      refine Cost.bind (dropBuffered_cost E env L A K K2 hK hA e' p1 buf p2 n (by omega) (by omega)) fun s2 t2 _ q => Cost.pure ⟨?_, nofun⟩
      omega
    | ok u =>
      have p7 := p7 rfl
      dsimp only
      refine Cost.bind (flushBuf_cost E env L e' p1 buf hlim) fun z t2 _ q => ?_
      obtain ⟨w, e2', buf2⟩ := z
      obtain ⟨q1, q2, q3, q4⟩ := q
      dsimp only at q1 q2 q3 q4 ⊢
      rw [hA] at q2
      cases w with
      | error k =>
        obtain ⟨rfl, q5⟩ := q4 k rfl
        refine Cost.bind (dropBuffered_cost E env L A K K2 hK hA e2' q1 buf2 p2 n (by omega) (by omega)) fun s2 t3 _ q => Cost.pure ⟨?_, nofun⟩
        omega
      | ok u =>
        obtain ⟨-, q5, q6⟩ := q3 rfl
        dsimp only
        refine (finish_cost E env L e2' q1).mono fun z t3 _ q => ?_
        rw [hA] at q
        by_cases hp : buf = []
        · obtain ⟨q7, q8⟩ := q5 hp
          rw [q7] at q
          exact ⟨by omega, fun h => by have := q.2 h; omega⟩
        · have q6 := q6 hp
          rw [q6] at q
          exact ⟨by omega, fun h => by have := q.2 h; omega⟩

end Work
end Zopfli
