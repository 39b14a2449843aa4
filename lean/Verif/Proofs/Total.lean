import Verif.Proofs.CompressMain
/-! # With an honest sink every call returns -/

namespace Zopfli
open Rfc

variable {σ ρ : Type}

theorem Honest.inv {S : Sink σ} {I : σ → Prop} {μ : σ → Nat} (hS : Honest S I μ) : SinkInv S I := ⟨hS.write, hS.flush⟩

theorem Honest.writeAll {S : Sink σ} {I : σ → Prop} {μ : σ → Nat} (hS : Honest S I μ) :
    ∀ (n m : Nat) (s : σ) (buf : List UInt8), buf.length = n → μ s = m → I s →
      Ret (S.writeAll s buf) fun r => I r.2 ∧ r.1 ≠ .error .interrupted := by
  intro n
  induction n using Nat.strong_induction_on with
  | _ n ihn =>
    intro m
    induction m using Nat.strong_induction_on with
    | _ m ihm =>
      intro s buf hn hm hI
      rw [Sink.writeAll]
      by_cases hb : buf = []
      · rw [if_pos hb]
        exact ⟨_, rfl, hI, by simp⟩
      · rw [if_neg hb]
        have h1 := hS.write s buf hI
        have h2 := hS.count s buf
        have h3 := hS.interrupt s buf hI
        rcases hw : S.write s buf with ⟨r, s'⟩
        rw [hw] at h1 h2 h3
        dsimp only at h1 h2 h3
        rcases r with k | k
        · cases k with
          | interrupted => exact ihm (μ s') (by have := h3 rfl; omega) s' buf hn rfl h1
          | writeZero => exact ⟨_, rfl, h1, by simp⟩
          | other j => exact ⟨_, rfl, h1, by simp⟩
        · have hk := h2 k hI rfl
          cases k with
          | zero => exact ⟨_, rfl, h1, by simp⟩
          | succ k =>
            dsimp only
            rw [if_pos hk]
            exact ihn (n - (k + 1)) (by omega) _ s' (buf.drop (k + 1)) (by simp; omega) rfl h1

theorem Honest.addBytes {S : Sink σ} {I : σ → Prop} {μ : σ → Nat} (hS : Honest S I μ) {w : BitwiseWriter σ} (l : List UInt8) (hI : I w.out) :
    Ret (w.addBytes S l) fun r => I r.2.out ∧ r.1 ≠ .error .interrupted := by
  unfold BitwiseWriter.addBytes
  refine Ret.bind' (hS.writeAll _ _ w.out l rfl rfl hI) ?_
  rintro ⟨r, s⟩ h
  exact ⟨_, rfl, h⟩

theorem Honest.finishPartialBits {S : Sink σ} {I : σ → Prop} {μ : σ → Nat} (hS : Honest S I μ) {w : BitwiseWriter σ} (hI : I w.out) :
    Ret (w.finishPartialBits S) fun r => I r.2.out ∧ r.1 ≠ .error .interrupted := by
  unfold BitwiseWriter.finishPartialBits
  split
  · refine Ret.bind' (hS.addBytes [w.bit] hI) ?_
    rintro ⟨r, w'⟩ ⟨h1, h2⟩
    cases r with
    | ok u => exact ⟨_, rfl, h1, by simp⟩
    | error k => exact ⟨_, rfl, h1, h2⟩
  · exact ⟨_, rfl, hI, by simp⟩

theorem Honest.exec {S : Sink σ} {I : σ → Prop} {μ : σ → Nat} (hS : Honest S I μ) {w : BitwiseWriter σ} (op : WOp) (hI : I w.out) :
    Ret (w.exec S op) fun r => I r.2.out ∧ r.1 ≠ .error .interrupted := by
  cases op with
  | bit b =>
    show Ret (w.addBit S b) _
    rw [addBit_release]
    split
    · exact hS.finishPartialBits hI
    · exact ⟨_, rfl, hI, by simp⟩
  | align => exact hS.finishPartialBits hI
  | bytes l => exact hS.addBytes l hI

theorem Honest.execAll {S : Sink σ} {I : σ → Prop} {μ : σ → Nat} (hS : Honest S I μ) : ∀ (ops : List WOp) {w : BitwiseWriter σ}, I w.out →
    Ret (w.execAll S ops) fun r => I r.2.out ∧ r.1 ≠ .error .interrupted
  | [], w, hI => ⟨_, rfl, hI, by simp⟩
  | op :: ops, w, hI => by
    rw [BitwiseWriter.execAll]
    refine Ret.bind' (hS.exec op hI) ?_
    rintro ⟨r, w'⟩ ⟨h1, h2⟩
    cases r with
    | ok u => exact hS.execAll ops h1
    | error k => exact ⟨_, rfl, h1, h2⟩

/-- An encoder that still has its sink, in any state. -/
structure Sane (lim : Nat) (I : σ → Prop) (e : DeflateEncoder σ) : Prop where
  sink : ∃ w, e.bitwiseWriter = some w ∧ I w.out
  start : e.chunkStart ≤ e.windowAndChunk.size
  size : e.windowAndChunk.size < 2 * lim

theorem Sane.compressChunk {env : Env σ} (L : FloatLaws env.F) {I : σ → Prop} {μ : σ → Nat} (hS : Honest env.S I μ) {e : DeflateEncoder σ} (h : Sane L.lim I e)
    (last : Bool) : Ret (e.compressChunk env last) fun r => Sane L.lim I r.2 ∧ r.1 ≠ .error .interrupted := by
  unfold DeflateEncoder.compressChunk
  obtain ⟨w, hw, hI⟩ := h.sink
  rw [hw, some_bind]
  refine Ret.bind' (deflatePart_spec L env.options env.btype last h.start (Nat.le_refl _) h.size) ?_
  rintro ops -
  refine Ret.bind' (hS.execAll ops hI) ?_
  rintro ⟨r, w'⟩ ⟨h1, h2⟩
  exact ⟨_, rfl, ⟨⟨_, rfl, h1⟩, h.start, h.size⟩, h2⟩

theorem Sane.finishInner {env : Env σ} (L : FloatLaws env.F) {I : σ → Prop} {μ : σ → Nat} (hS : Honest env.S I μ) {e : DeflateEncoder σ} (h : Sane L.lim I e) :
    Ret (e.finishInner env) fun r => ∃ s, r.2.2 = some s ∧ I s ∧ (r.1 = .ok (some s) ∧ r.2.1.bitwiseWriter = none ∨
      ∃ k, r.1 = .error k ∧ k ≠ .interrupted ∧ (Sane L.lim I r.2.1 ∨ r.2.1.bitwiseWriter = none)) := by
  unfold DeflateEncoder.finishInner
  obtain ⟨w, hw, hI⟩ := h.sink
  rw [hw]
  dsimp only
  refine Ret.bind' (h.compressChunk L hS true) ?_
  rintro ⟨r, e'⟩ ⟨h1, h2⟩
  dsimp only at h1 h2
  obtain ⟨w', hw', hI'⟩ := h1.sink
  cases r with
  | error k =>
    refine ⟨_, rfl, w'.out, ?_, hI', .inr ⟨k, rfl, by rintro rfl; exact h2 rfl, .inl h1⟩⟩
    show e'.bitwiseWriter.map _ = _
    rw [hw']; rfl
  | ok u =>
    dsimp only
    rw [hw', some_bind]
    refine Ret.bind' (hS.finishPartialBits hI') ?_
    rintro ⟨r, w2⟩ ⟨g1, g2⟩
    cases r with
    | error k => exact ⟨_, rfl, w2.out, rfl, g1, .inr ⟨k, rfl, by rintro rfl; exact g2 rfl, .inr rfl⟩⟩
    | ok u => exact ⟨_, rfl, w2.out, rfl, g1, .inl ⟨rfl, rfl⟩⟩

theorem Sane.dropWith {env : Env σ} (L : FloatLaws env.F) {I : σ → Prop} {μ : σ → Nat} (hS : Honest env.S I μ) {e : DeflateEncoder σ} {s : σ}
    (h : Sane L.lim I e ∨ e.bitwiseWriter = none) (hI : I s) : Ret (e.dropWith env s) fun s' => I s' := by
  unfold DeflateEncoder.dropWith
  rcases h with h | h
  · refine Ret.bind' (h.finishInner L hS) ?_
    rintro ⟨r, e', so⟩ ⟨s', h1, h2, -⟩
    dsimp only at h1
    subst h1
    exact ⟨_, rfl, h2⟩
  · unfold DeflateEncoder.finishInner
    rw [h]
    exact ⟨_, rfl, hI⟩

theorem Sane.finish {env : Env σ} (L : FloatLaws env.F) {I : σ → Prop} {μ : σ → Nat} (hS : Honest env.S I μ) {e : DeflateEncoder σ} (h : Sane L.lim I e) :
    Ret (e.finish env) fun r => I r.2 ∧ r.1 ≠ .error .interrupted := by
  unfold DeflateEncoder.finish
  refine Ret.bind' (h.finishInner L hS) ?_
  rintro ⟨r, e', so⟩ ⟨s, h1, h2, h3⟩
  dsimp only at h1 h3
  subst h1
  rcases h3 with ⟨rfl, h3⟩ | ⟨k, rfl, h3, h4⟩
  · dsimp only
    rw [some_bind]
    refine Ret.bind' (Sane.dropWith L hS (.inr h3) h2) ?_
    intro s' hs'
    exact ⟨_, rfl, hs', by simp⟩
  · dsimp only
    rw [some_bind]
    refine Ret.bind' (Sane.dropWith L hS h4 h2) ?_
    intro s' hs'
    exact ⟨_, rfl, hs', by simpa using h3⟩

theorem Sane.drop {env : Env σ} (L : FloatLaws env.F) {I : σ → Prop} {μ : σ → Nat} (hS : Honest env.S I μ) {e : DeflateEncoder σ} (h : Sane L.lim I e) :
    Ret (e.drop env) fun s => I s := by
  unfold DeflateEncoder.drop
  obtain ⟨w, hw, hI⟩ := h.sink
  rw [hw, some_bind]
  exact Sane.dropWith L hS (.inl h) hI

theorem Sane.write {env : Env σ} (L : FloatLaws env.F) {I : σ → Prop} {μ : σ → Nat} (hS : Honest env.S I μ) {e : DeflateEncoder σ} (h : Sane L.lim I e)
    {buf : List UInt8} (hb : buf.length < L.lim) :
    Ret (e.write env buf) fun r => Sane L.lim I r.2 ∧ (r.1 = .ok buf.length ∨ ∃ k, r.1 = .error k ∧ k ≠ .interrupted) := by
  have key : ∀ {e : DeflateEncoder σ}, Sane L.lim I e → Sane L.lim I (e.setChunk buf) := by
    intro e h
    refine ⟨h.sink, ?_, ?_⟩
    · simp only [DeflateEncoder.setChunk, Array.size_append]
      omega
    · simp only [DeflateEncoder.setChunk, Array.size_append, Array.size_extract, List.size_toArray, WINDOW_SIZE]
      have := L.lim_ge; omega
  unfold DeflateEncoder.write
  by_cases hc : e.haveChunk = true
  · rw [if_pos hc]
    refine Ret.bind' (h.compressChunk L hS false) ?_
    rintro ⟨r, e'⟩ ⟨h1, h2⟩
    cases r with
    | error k => exact ⟨_, rfl, h1, .inr ⟨k, rfl, by rintro rfl; exact h2 rfl⟩⟩
    | ok u => exact ⟨_, rfl, key h1, .inl rfl⟩
  · rw [if_neg hc, some_bind]
    exact ⟨_, rfl, key h, .inl rfl⟩

theorem Sane.flush {lim : Nat} {env : Env σ} {I : σ → Prop} {μ : σ → Nat} (hS : Honest env.S I μ) {e : DeflateEncoder σ} (h : Sane lim I e) :
    Ret (e.flush env) fun r => Sane lim I r.2 := by
  unfold DeflateEncoder.flush
  obtain ⟨w, hw, hI⟩ := h.sink
  rw [hw, some_bind]
  exact ⟨_, rfl, ⟨_, rfl, hS.flush _ hI⟩, h.start, h.size⟩

theorem Sane.new {lim : Nat} (hlim : 2 ^ 21 ≤ lim) {I : σ → Prop} {s : σ} (h : I s) : Sane lim I (DeflateEncoder.new s) :=
  ⟨⟨_, rfl, h⟩, Nat.le_refl _, by simp [DeflateEncoder.new]; omega⟩

/-- An encoder of any format that still has its sink. -/
def ESane (lim : Nat) (I : σ → Prop) : Encoder σ → Prop
  | .gzip e => ∃ d, e.deflate = some d ∧ Sane lim I d
  | .zlib e => ∃ d, e.deflate = some d ∧ Sane lim I d
  | .deflate d => Sane lim I d

theorem ESane.new {lim : Nat} (hlim : 2 ^ 21 ≤ lim) {env : Env σ} {I : σ → Prop} {μ : σ → Nat} (hS : Honest env.S I μ) (fmt : Format) {s : σ} (hI : I s) :
    Ret (Encoder.new env fmt s) fun r => I r.2 ∧ ∀ e, r.1 = .ok e → ESane lim I e := by
  cases fmt with
  | deflate => exact ⟨_, rfl, hI, by intro e he; cases he; exact Sane.new hlim hI⟩
  | gzip =>
    unfold Encoder.new GzipEncoder.new
    dsimp only
    obtain ⟨⟨r, s'⟩, e, h1, h2⟩ := hS.writeAll _ _ s gzipHeader rfl rfl hI
    rw [e, some_bind]
    cases r with
    | error k => exact ⟨_, rfl, h1, by intro e he; cases he⟩
    | ok u => exact ⟨_, rfl, h1, by intro e he; cases he; exact ⟨_, rfl, Sane.new hlim h1⟩⟩
  | zlib =>
    unfold Encoder.new ZlibEncoder.new
    dsimp only
    obtain ⟨⟨r, s'⟩, e, h1, h2⟩ := hS.writeAll _ _ s zlibHeader rfl rfl hI
    rw [e, some_bind]
    cases r with
    | error k => exact ⟨_, rfl, h1, by intro e he; cases he⟩
    | ok u => exact ⟨_, rfl, h1, by intro e he; cases he; exact ⟨_, rfl, Sane.new hlim h1⟩⟩

theorem ESane.write {env : Env σ} (L : FloatLaws env.F) {I : σ → Prop} {μ : σ → Nat} (hS : Honest env.S I μ) {e : Encoder σ} (h : ESane L.lim I e)
    {buf : List UInt8} (hb : buf.length < L.lim) :
    Ret (e.write env buf) fun r => ESane L.lim I r.2 ∧ (r.1 = .ok buf.length ∨ ∃ k, r.1 = .error k ∧ k ≠ .interrupted) := by
  cases e with
  | deflate d =>
    unfold Encoder.write
    dsimp only
    exact Ret.bind' (Sane.write L hS h hb) fun r hr => ⟨_, rfl, hr⟩
  | gzip g =>
    obtain ⟨d, crc, sz⟩ := g
    obtain ⟨d', rfl, h⟩ := h
    unfold Encoder.write GzipEncoder.write
    dsimp only
    rw [some_bind]
    obtain ⟨⟨r, d2⟩, e, h1, h2⟩ := Sane.write L hS h hb
    rw [e, some_bind]
    cases r with
    | error k => exact ⟨_, rfl, ⟨_, rfl, h1⟩, h2⟩
    | ok n => exact ⟨_, rfl, ⟨_, rfl, h1⟩, h2⟩
  | zlib g =>
    obtain ⟨d, ad⟩ := g
    obtain ⟨d', rfl, h⟩ := h
    unfold Encoder.write ZlibEncoder.write
    dsimp only
    rw [some_bind]
    obtain ⟨⟨r, d2⟩, e, h1, h2⟩ := Sane.write L hS h hb
    rw [e, some_bind]
    cases r with
    | error k => exact ⟨_, rfl, ⟨_, rfl, h1⟩, h2⟩
    | ok n => exact ⟨_, rfl, ⟨_, rfl, h1⟩, h2⟩

theorem ESane.flush {lim : Nat} {env : Env σ} {I : σ → Prop} {μ : σ → Nat} (hS : Honest env.S I μ) {e : Encoder σ} (h : ESane lim I e) :
    Ret (e.flush env) fun r => ESane lim I r.2 := by
  cases e with
  | deflate d =>
    unfold Encoder.flush
    dsimp only
    exact Ret.bind' (Sane.flush hS h) fun r hr => ⟨_, rfl, hr⟩
  | gzip g =>
    obtain ⟨d, crc, sz⟩ := g
    obtain ⟨d', rfl, h⟩ := h
    unfold Encoder.flush GzipEncoder.flush
    dsimp only
    rw [some_bind]
    obtain ⟨⟨r, d2⟩, e, h1⟩ := Sane.flush hS h
    rw [e, some_bind]
    exact ⟨_, rfl, ⟨_, rfl, h1⟩⟩
  | zlib g =>
    obtain ⟨d, ad⟩ := g
    obtain ⟨d', rfl, h⟩ := h
    unfold Encoder.flush ZlibEncoder.flush
    dsimp only
    rw [some_bind]
    obtain ⟨⟨r, d2⟩, e, h1⟩ := Sane.flush hS h
    rw [e, some_bind]
    exact ⟨_, rfl, ⟨_, rfl, h1⟩⟩

theorem ESane.finish_drop {env : Env σ} (L : FloatLaws env.F) {I : σ → Prop} {μ : σ → Nat} (hS : Honest env.S I μ) {e : Encoder σ} (h : ESane L.lim I e) :
    Ret (e.finish env) (fun r => I r.2) ∧ Ret (e.drop env) I := by
  cases e with
  | deflate d =>
    unfold Encoder.finish Encoder.drop
    exact ⟨Ret.mono (Sane.finish L hS h) fun r hr => hr.1, Sane.drop L hS h⟩
  | gzip g =>
    obtain ⟨d, crc, sz⟩ := g
    obtain ⟨d', rfl, h⟩ := h
    have key : Ret (GzipEncoder.finishInner env ⟨some d', crc, sz⟩ d') fun r => I r.2 := by
      unfold GzipEncoder.finishInner
      obtain ⟨⟨r, s'⟩, e, h1, h2⟩ := Sane.finish L hS h
      rw [e, some_bind]
      cases r with
      | error k => exact ⟨_, rfl, h1⟩
      | ok u =>
        dsimp only
        obtain ⟨⟨r, s2⟩, e, h1, h2⟩ := hS.writeAll _ _ s' (toLeBytes (crcFinalize crc)) rfl rfl h1
        rw [e, some_bind]
        cases r with
        | error k => exact ⟨_, rfl, h1⟩
        | ok u =>
          dsimp only
          obtain ⟨⟨r, s3⟩, e, h1, h2⟩ := hS.writeAll _ _ s2 (toLeBytes sz) rfl rfl h1
          exact ⟨_, e, h1⟩
    unfold Encoder.finish Encoder.drop GzipEncoder.finish GzipEncoder.drop
    dsimp only
    rw [some_bind]
    refine ⟨key, ?_⟩
    rw [some_bind]
    exact Ret.bind' key fun r hr => ⟨_, rfl, hr⟩
  | zlib g =>
    obtain ⟨d, ad⟩ := g
    obtain ⟨d', rfl, h⟩ := h
    have key : Ret (ZlibEncoder.finishInner env ⟨some d', ad⟩ d') fun r => I r.2 := by
      unfold ZlibEncoder.finishInner
      obtain ⟨⟨r, s'⟩, e, h1, h2⟩ := Sane.finish L hS h
      rw [e, some_bind]
      cases r with
      | error k => exact ⟨_, rfl, h1⟩
      | ok u =>
        dsimp only
        obtain ⟨⟨r, s2⟩, e, h1, h2⟩ := hS.writeAll _ _ s' (toBeBytes ad.finish) rfl rfl h1
        exact ⟨_, e, h1⟩
    unfold Encoder.finish Encoder.drop ZlibEncoder.finish ZlibEncoder.drop
    dsimp only
    rw [some_bind]
    refine ⟨key, ?_⟩
    rw [some_bind]
    exact Ret.bind' key fun r hr => ⟨_, rfl, hr⟩

theorem ESane.run {env : Env σ} (L : FloatLaws env.F) {I : σ → Prop} {μ : σ → Nat} (hS : Honest env.S I μ) : ∀ (calls : List Call) {e : Encoder σ}, ESane L.lim I e →
    (∀ w ∈ writesOf calls, w.length < L.lim) → Ret (e.run env calls) fun r => ESane L.lim I r.2
  | [], e, h, _ => ⟨_, rfl, h⟩
  | .flush :: l, e, h, hw => by
    rw [Encoder.run]
    refine Ret.bind' (h.flush hS) ?_
    rintro ⟨r, e'⟩ h1
    cases r with
    | ok u => exact ESane.run L hS l h1 hw
    | error k => exact ⟨_, rfl, h1⟩
  | .write buf :: l, e, h, hw => by
    rw [Encoder.run]
    refine Ret.bind' (h.write L hS (hw buf (by simp [writesOf]))) ?_
    rintro ⟨r, e'⟩ ⟨h1, -⟩
    cases r with
    | ok u => exact ESane.run L hS l h1 fun w hw' => hw w (by simp [writesOf, hw'])
    | error k => exact ⟨_, rfl, h1⟩

theorem session_total (env : Env σ) (L : FloatLaws env.F) {I : σ → Prop} {μ : σ → Nat} (hS : Honest env.S I μ) (fmt : Format)
    (calls : List Call) (ending : Ending) {s : σ} (hI : I s) (hw : ∀ w ∈ writesOf calls, w.length < L.lim) :
    Ret (session env fmt calls ending s) fun r => I r.2 := by
  unfold session
  refine Ret.bind' (ESane.new L.lim_ge hS fmt hI) ?_
  rintro ⟨r, s'⟩ ⟨h1, h2⟩
  cases r with
  | error k => exact ⟨_, rfl, h1⟩
  | ok e =>
    dsimp only
    refine Ret.bind' (ESane.run L hS calls (h2 e rfl) hw) ?_
    rintro ⟨r, e'⟩ h3
    cases r with
    | error k => exact Ret.bind' (h3.finish_drop L hS).2 fun s hs => ⟨_, rfl, hs⟩
    | ok u =>
      dsimp only
      cases ending with
      | finish => exact (h3.finish_drop L hS).1
      | drop => exact Ret.bind' (h3.finish_drop L hS).2 fun s hs => ⟨_, rfl, hs⟩

/-! ## `compress` -/

theorem flushBuf_total (env : Env σ) (L : FloatLaws env.F) {I : σ → Prop} {μ : σ → Nat} (hS : Honest env.S I μ) {e : Encoder σ} (h : ESane L.lim I e)
    {buf : List UInt8} (hb : buf.length < L.lim) :
    Ret (flushBuf env e buf) fun r => ESane L.lim I r.2.1 ∧ (r.1 = .ok () ∧ r.2.2 = [] ∨ ∃ k, r.1 = .error k ∧ r.2.2 = buf) := by
  by_cases h0 : buf = []
  · subst h0
    exact ⟨_, flushBuf_nil env e, h, .inl ⟨rfl, rfl⟩⟩
  · rw [flushBuf, if_neg h0]
    refine Ret.bind' (h.write L hS hb) ?_
    rintro ⟨r, e'⟩ ⟨h1, h2⟩
    have hl : buf.length ≠ 0 := by simpa using h0
    obtain ⟨n, hn⟩ : ∃ n, buf.length = n + 1 := ⟨buf.length - 1, by omega⟩
    rcases h2 with h2 | ⟨k, h2, h3⟩
    · dsimp only at h2
      subst h2
      dsimp only
      rw [hn]
      dsimp only
      rw [← hn, List.drop_length]
      exact ⟨_, flushBuf_nil env e', h1, .inl ⟨rfl, rfl⟩⟩
    · dsimp only at h2
      subst h2
      cases k with
      | interrupted => exact absurd rfl h3
      | writeZero => exact ⟨_, rfl, h1, .inr ⟨_, rfl, rfl⟩⟩
      | other j => exact ⟨_, rfl, h1, .inr ⟨_, rfl, rfl⟩⟩

theorem copyLoop_total (env : Env σ) (L : FloatLaws env.F) {I : σ → Prop} {μ : σ → Nat} (hS : Honest env.S I μ)
    {R : Reader ρ} {J : ρ → Prop} {rest : ρ → List UInt8} {res : Except ErrKind Unit} {ν : ρ → Nat} (hR : Delivers R J rest res ν) :
    ∀ (n m k : Nat) (r : ρ) (e : Encoder σ) (buf : List UInt8), (rest r).length = n → ν r = m → buf.length = k → J r →
      buf.length ≤ MASTER_BLOCK_SIZE → ESane L.lim I e →
      Ret (copyLoop env R r e buf) fun x => ESane L.lim I x.2.1 ∧ x.2.2.length ≤ MASTER_BLOCK_SIZE := by
  intro n
  induction n using Nat.strong_induction_on with
  | _ n ihn =>
    intro m
    induction m using Nat.strong_induction_on with
    | _ m ihm =>
      intro k
      induction k using Nat.strong_induction_on with
      | _ k ihk =>
        intro r e buf hn hm hk hJ hlen hC
        rw [copyLoop]
        by_cases hroom : DEFAULT_BUF_SIZE ≤ MASTER_BLOCK_SIZE - buf.length
        · dsimp only [DEFAULT_BUF_SIZE, MASTER_BLOCK_SIZE] at hroom hlen ⊢
          rw [if_pos hroom]
          rcases hR.read r (1000000 - buf.length) hJ (by omega) with ⟨l, r', e1, h1, h2, h3, h4⟩ | ⟨r', e1, h1, h2, h3⟩ | ⟨r', e1, h1⟩
          · rw [e1]
            cases l with
            | nil => exact absurd rfl h1
            | cons b bs =>
              dsimp only
              rw [if_pos h2]
              have hl : (rest r).length = (b :: bs).length + (rest r').length := by rw [h3, List.length_append]
              rw [List.length_cons] at hl
              refine ihn (rest r').length (by omega) _ _ r' e (buf ++ b :: bs) rfl rfl rfl h4 ?_ hC
              dsimp only [MASTER_BLOCK_SIZE]
              rw [List.length_append]
              omega
          · rw [e1]
            dsimp only
            exact ihm (ν r') (by omega) _ r' e buf (by rw [h1, hn]) rfl rfl h3 hlen hC
          · rw [e1]
            cases res with
            | ok u => exact ⟨_, rfl, hC, hlen⟩
            | error kd =>
              cases kd with
              | interrupted => exact absurd rfl hR.not_interrupted
              | writeZero => exact ⟨_, rfl, hC, hlen⟩
              | other n => exact ⟨_, rfl, hC, hlen⟩
        · dsimp only [DEFAULT_BUF_SIZE, MASTER_BLOCK_SIZE] at hroom hlen ⊢
          rw [if_neg hroom]
          obtain ⟨⟨q, e', buf'⟩, g1, g2, g3⟩ := flushBuf_total env L hS hC (buf := buf) (by have := L.lim_ge; omega)
          rw [g1]
          rcases g3 with ⟨g3, g4⟩ | ⟨k, g3, g4⟩
          · dsimp only at g3 g4
            subst g3 g4
            dsimp only
            exact ihk 0 (by omega) r e' [] hn hm rfl hJ (by dsimp only [MASTER_BLOCK_SIZE]; simp) g2
          · dsimp only at g3 g4
            subst g3 g4
            exact ⟨_, rfl, g2, hlen⟩

theorem compress_total {F : FloatOps} (L : FloatLaws F) (S : Sink σ) {I : σ → Prop} {μ : σ → Nat} (hS : Honest S I μ)
    (R : Reader ρ) {J : ρ → Prop} {rest : ρ → List UInt8} {res : Except ErrKind Unit} {ν : ρ → Nat} (hR : Delivers R J rest res ν)
    (o : Options) (fmt : Format) {r : ρ} {s : σ} (hJ : J r) (hI : I s) : Ret (compress F S R o fmt r s) fun x => I x.2 := by
  unfold compress
  dsimp only
  refine Ret.bind' (ESane.new L.lim_ge (env := ⟨F, S, o, .dynamic⟩) hS fmt hI) ?_
  rintro ⟨q, s'⟩ ⟨h1, h2⟩
  have hdrop : ∀ {e : Encoder σ} {buf : List UInt8}, ESane L.lim I e → buf.length < L.lim → Ret (dropBuffered ⟨F, S, o, .dynamic⟩ e buf) I := by
    intro e buf he hb
    unfold dropBuffered
    refine Ret.bind' (flushBuf_total ⟨F, S, o, .dynamic⟩ L hS he hb) ?_
    rintro ⟨q, e', b'⟩ ⟨g1, -⟩
    exact (g1.finish_drop (env := ⟨F, S, o, .dynamic⟩) L hS).2
  cases q with
  | error k => exact ⟨_, rfl, h1⟩
  | ok e =>
    dsimp only
    refine Ret.bind' (copyLoop_total ⟨F, S, o, .dynamic⟩ L hS hR _ _ _ r e [] rfl rfl rfl hJ (by simp) (h2 e rfl)) ?_
    rintro ⟨q, e', buf⟩ ⟨h3, h4⟩
    dsimp only [MASTER_BLOCK_SIZE] at h4
    cases q with
    | error k => exact Ret.bind' (hdrop h3 (by dsimp only; have := L.lim_ge; omega)) fun s hs => ⟨_, rfl, hs⟩
    | ok u =>
      dsimp only
      refine Ret.bind' (flushBuf_total ⟨F, S, o, .dynamic⟩ L hS h3 (buf := buf) (by have := L.lim_ge; omega)) ?_
      rintro ⟨q, e2, b2⟩ ⟨g1, g2⟩
      cases q with
      | error k =>
        refine Ret.bind' (hdrop g1 ?_) fun s hs => ⟨_, rfl, hs⟩
        rcases g2 with ⟨g2, -⟩ | ⟨k, -, g2⟩
        · cases g2
        · dsimp only at g2
          subst g2
          dsimp only
          have := L.lim_ge; omega
      | ok u => exact (g1.finish_drop (env := ⟨F, S, o, .dynamic⟩) L hS).1

end Zopfli
