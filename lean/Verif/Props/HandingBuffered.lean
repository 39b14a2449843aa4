import Verif.Proofs.HandingBuffered
import Verif.Props.Lending
import Verif.Props.Handing
/-!
# C74: all ways of handing data to a buffered encoder; `compress` with a `VecDeque<u8>`
-/

namespace Zopfli

variable {log2 : Fp → Fp} {σ : Type} {S : Sink σ} {I : σ → Prop} {log : σ → List UInt8} {patience : σ → Nat}

/-- **C74** (`write_vectored`) On any sink and in any build, `write_vectored` on a buffered encoder (whose buffer holds at most 1,000,000 bytes, as
it always does) takes some of the buffers it is given, in order and each of them as a whole, as if they were written one by one; if the buffers are not
all empty it takes at least one that is not.  If it succeeds, it returns the number of bytes taken. -/
theorem C74_write_vectored [Checks] (env : Env σ) (b : BufEncoder σ) (hb : b.buf.length ≤ 1000000) (bufs : List (List UInt8)) :
    ∃ taken left, bufs = taken ++ left ∧ (taken.flatten = [] → bufs.flatten = []) ∧
      b.writeVectored env bufs = do
        let (r, b) ← b.run env (taken.map .write)
        match r with
        | .ok () => return (.ok taken.flatten.length, b)
        | .error k => return (.error k, b) := by
  obtain ⟨taken, left, h1, h2, h3⟩ := BufEncoder.writeVectored_eq env b hb bufs
  refine ⟨taken, left, h1, fun h => ?_, ?_⟩
  · rw [h1, List.flatten_append, h, h2 h]
    rfl
  · rw [h3]
    cases b.run env (taken.map .write) with
    | none => rfl
    | some x =>
      obtain ⟨r, b'⟩ := x
      cases r <;> rfl

/-- The buffer never holds more than 1,000,000 bytes. -/
theorem BufEncoder.flush_buf [Checks] (env : Env σ) {b b' : BufEncoder σ} {r : Except ErrKind Unit} (hb : b.buf.length ≤ MASTER_BLOCK_SIZE)
    (h : b.flush env = some (r, b')) : b'.buf.length ≤ MASTER_BLOCK_SIZE := by
  unfold BufEncoder.flush at h
  cases hf : flushBuf env b.inner b.buf with
  | none => rw [hf] at h; cases h
  | some x =>
    obtain ⟨q, e1, p1⟩ := x
    rw [hf, some_bind] at h
    rcases flushBuf_result env hf with ⟨rfl, rfl⟩ | ⟨k, hk, rfl, rfl⟩
    · dsimp only at h
      cases he : e1.flush env with
      | none => rw [he] at h; cases h
      | some y =>
        obtain ⟨q, e2⟩ := y
        rw [he, some_bind] at h
        cases h
        exact Nat.zero_le _
    · cases h
      exact hb

theorem BufEncoder.run_buf [Checks] (env : Env σ) : ∀ (calls : List Call) {b b' : BufEncoder σ} {r : Except ErrKind Unit},
    b.buf.length ≤ MASTER_BLOCK_SIZE → b.run env calls = some (r, b') → b'.buf.length ≤ MASTER_BLOCK_SIZE
  | [], b, b', r, hb, h => by
    cases h
    exact hb
  | .write d :: l, b, b', r, hb, h => by
    rw [BufEncoder.run] at h
    cases hw : b.write env d with
    | none => rw [hw] at h; cases h
    | some x =>
      obtain ⟨q, b1⟩ := x
      have h1 := (BufEncoder.write_result env hb hw).1
      rw [hw, some_bind] at h
      cases q with
      | ok n => exact BufEncoder.run_buf env l h1 h
      | error k => cases h; exact h1
  | .flush :: l, b, b', r, hb, h => by
    rw [BufEncoder.run] at h
    cases hw : b.flush env with
    | none => rw [hw] at h; cases h
    | some x =>
      obtain ⟨q, b1⟩ := x
      have h1 := BufEncoder.flush_buf env hb hw
      rw [hw, some_bind] at h
      cases q with
      | ok n => exact BufEncoder.run_buf env l h1 h
      | error k => cases h; exact h1

theorem BufEncoder.writeAll_plain [Checks] (env : Env σ) (b : BufEncoder σ) (buf : List UInt8) : b.writeAll env buf = b.run env (Hand.writeAll buf).plain := by
  unfold Hand.plain
  dsimp only
  by_cases h : buf = []
  · rw [if_pos h, h]
    unfold BufEncoder.writeAll
    dsimp only
    rw [List.length_nil, List.append_nil]
    split
    · rfl
    · rw [if_neg (Nat.not_lt_zero _), some_bind]
      dsimp only
      rw [if_neg (by decide), List.append_nil]
      rfl
  · rw [if_neg h, BufEncoder.writeAll_eq env b h, BufEncoder.run_one]

theorem BufEncoder.writeFmt_eq [Checks] (env : Env σ) : ∀ (pieces : List (List UInt8)) (b : BufEncoder σ),
    BufEncoder.writeFmt env pieces b = b.run env (Hand.writeFmt pieces).plain
  | [], b => rfl
  | p :: l, b => by
    have hpl : (Hand.writeFmt (p :: l)).plain = (Hand.writeAll p).plain ++ (Hand.writeFmt l).plain := by
      unfold Hand.plain
      dsimp only
      cases p <;> simp
    rw [hpl, BufEncoder.run_append, ← BufEncoder.writeAll_plain]
    rw [BufEncoder.writeFmt]
    cases b.writeAll env p with
    | none => rfl
    | some x =>
      obtain ⟨r, b'⟩ := x
      cases r with
      | ok u => exact BufEncoder.writeFmt_eq env l b'
      | error k => rfl

/-- **C74** (one call) On any sink and in any build, `write_all`, `write_all_vectored` and `write!` on a buffered encoder do exactly what one `write`
per non-empty buffer does. -/
theorem C74_plain_calls [Checks] (env : Env σ) (b : BufEncoder σ) (hb : b.buf.length ≤ 1000000) (h : Hand) (hv : ∀ bufs, h ≠ .writeVectored bufs) :
    b.hand env h = b.run env h.plain := by
  cases h with
  | write buf =>
    show (do let (r, b) ← b.write env buf; return (r.map fun _ => (), b)) = b.run env [.write buf]
    rw [BufEncoder.run_one]
    cases b.write env buf <;> rfl
  | writeAll buf => exact BufEncoder.writeAll_plain env b buf
  | writeVectored bufs => exact absurd rfl (hv bufs)
  | writeAllVectored bufs =>
    show b.writeAllVectored env bufs = b.run env ((bufs.filter fun d => !d.isEmpty).map .write)
    rw [BufEncoder.writeAllVectored_eq env b hb, BufEncoder.run_filter]
  | writeFmt pieces => exact BufEncoder.writeFmt_eq env pieces b
  | flush =>
    show b.flush env = b.run env [.flush]
    rw [BufEncoder.run]
    cases b.flush env with
    | none => rfl
    | some x =>
      obtain ⟨r, b'⟩ := x
      cases r <;> rfl

theorem BufEncoder.hands_eq [Checks] (env : Env σ) : ∀ (hs : List Hand), (∀ h ∈ hs, ∀ bufs, h ≠ .writeVectored bufs) → ∀ (b : BufEncoder σ),
    b.buf.length ≤ MASTER_BLOCK_SIZE → BufEncoder.hands env hs b = b.run env (hs.flatMap Hand.plain)
  | [], _, b, _ => rfl
  | h :: hs, hv, b, hb => by
    rw [List.flatMap_cons, BufEncoder.run_append, BufEncoder.hands, C74_plain_calls env b hb h (hv h (by simp))]
    cases hr : b.run env h.plain with
    | none => rfl
    | some x =>
      obtain ⟨r, b'⟩ := x
      cases r with
      | ok u => exact BufEncoder.hands_eq env hs (fun h hh => hv h (by simp [hh])) b' (BufEncoder.run_buf env _ hb hr)
      | error k => rfl

theorem BufEncoder.new_buf (env : Env σ) (fmt : Format) {s s1 : σ} {b : BufEncoder σ} (h : BufEncoder.new env fmt s = some (.ok b, s1)) :
    b.buf = [] := by
  unfold BufEncoder.new at h
  cases hn : Encoder.new env fmt s with
  | none => rw [hn] at h; cases h
  | some x =>
    obtain ⟨r, s2⟩ := x
    rw [hn, some_bind] at h
    cases r with
    | ok e => cases h; rfl
    | error k => cases h

/-- **C74** (sessions) So a whole session with a buffered encoder that hands its data over in these ways is a session of plain calls with the same data,
on any sink and in any build. -/
theorem C74_plain_session [Checks] (env : Env σ) (fmt : Format) (calls : List Hand) (hv : ∀ h ∈ calls, ∀ bufs, h ≠ .writeVectored bufs)
    (ending : Ending) (s : σ) :
    bufHandSession env fmt calls ending s = bufferedSession env fmt (calls.flatMap Hand.plain) ending s ∧
      (writesOf (calls.flatMap Hand.plain)).flatten = (calls.map Hand.data).flatten := by
  refine ⟨?_, plain_data calls⟩
  unfold bufHandSession bufferedSession
  cases hn : BufEncoder.new env fmt s with
  | none => rfl
  | some x =>
    obtain ⟨q, s1⟩ := x
    rw [some_bind, some_bind]
    cases q with
    | error k => rfl
    | ok b =>
      dsimp only
      rw [BufEncoder.hands_eq env calls hv b (by rw [BufEncoder.new_buf env fmt hn]; exact Nat.zero_le _)]
      rfl

theorem plain_fits {calls : List Hand} (hfit : ∀ h ∈ calls, h.data.length < 2 ^ 47) : Fits (writesOf (calls.flatMap Hand.plain)) := by
  induction calls with
  | nil => intro w hw; cases hw
  | cons h l ih =>
    intro w hw
    rw [List.flatMap_cons, writesOf_append] at hw
    rcases List.mem_append.mp hw with hw | hw
    · have h1 := hfit h (by simp)
      rw [← Hand.plain_data] at h1
      exact Nat.lt_of_le_of_lt (List.sublist_flatten_of_mem hw).length_le h1
    · exact ih (fun h hh => hfit h (List.mem_cons_of_mem _ hh)) w hw

/-- **C74** (round trip) And on a sink that does not fail, the stream decodes to the data handed over. -/
theorem C74_roundtrip (hlog : Log2Ok log2) (hS : Reliable S I log patience) (o : Options) (bt : BlockType) (fmt : Format) (calls : List Hand)
    (hv : ∀ h ∈ calls, ∀ bufs, h ≠ .writeVectored bufs) (ending : Ending) (hfit : ∀ h ∈ calls, h.data.length < 2 ^ 47) (s : σ) (hs : I s) :
    ∃ s' stream, bufHandSession ⟨ieee log2, S, o, bt⟩ fmt calls ending s = some (.ok (), s') ∧ log s' = log s ++ stream ∧
      decode fmt stream = some (calls.map Hand.data).flatten := by
  obtain ⟨stream, h1, h2⟩ := C43_buffered_stream hlog o bt fmt (calls.flatMap Hand.plain) (plain_fits hfit)
  obtain ⟨⟨s', h3, h4⟩, -⟩ := h2 σ S I log patience hS ending s hs
  exact ⟨s', stream, by rw [(C74_plain_session _ fmt calls hv ending s).1]; exact h3, h4, by rw [h1, plain_data]⟩

/-! ## `compress` with a `VecDeque<u8>` -/

/-- `compress` with a `VecDeque<u8>` is a session with two writes. -/
theorem compressDeque_eq [Checks] (F : FloatOps) (S : Sink σ) (o : Options) (fmt : Format) (front back : List UInt8) (s : σ) :
    compressDeque F S o fmt front back s = bufferedSession ⟨F, S, o, .dynamic⟩ fmt ([front, back].map .write) .finish s := by
  unfold compressDeque bufferedSession
  dsimp only
  cases hn : BufEncoder.new ⟨F, S, o, .dynamic⟩ fmt s with
  | none => rfl
  | some x =>
    obtain ⟨q, s1⟩ := x
    rw [some_bind, some_bind]
    cases q with
    | error k => rfl
    | ok b =>
      dsimp only
      rw [BufEncoder.writeAllVectored_eq _ b (by rw [BufEncoder.new_buf _ fmt hn]; exact Nat.zero_le _)]
      rfl

/-- **C74** (`compress`) `compress` with a `VecDeque<u8>`, wherever its ring buffer wraps around: there is a stream for its contents such that on every
sink that does not fail, `compress` succeeds and adds that stream.  If the contents are at most 1,000,000 bytes, it is the stream `compress` writes
for a slice with the same bytes. -/
theorem C74_compress_deque (hlog : Log2Ok log2) (o : Options) (fmt : Format) (front back : List UInt8)
    (h1 : front.length < 2 ^ 47) (h2 : back.length < 2 ^ 47) :
    ∃ stream, decode fmt stream = some (front ++ back) ∧
      ∀ (σ : Type) (S : Sink σ) (I : σ → Prop) (log : σ → List UInt8) (patience : σ → Nat), Reliable S I log patience → ∀ s, I s →
        (∃ s', compressDeque (ieee log2) S o fmt front back s = some (.ok (), s') ∧ log s' = log s ++ stream) ∧
        ((front ++ back).length ≤ 1000000 →
          ∃ s', compressFrom (ieee log2) S sliceSource o fmt (front ++ back) s = some (.ok (), s') ∧ log s' = log s ++ stream) := by
  by_cases hlen : (front ++ back).length ≤ 1000000
  · obtain ⟨stream, g1, g2⟩ := C43_cuts_do_not_matter hlog o .dynamic fmt (front ++ back) hlen
    refine ⟨stream, g1, fun σ S I log patience hS s hs => ⟨?_, fun _ => ?_⟩⟩
    · rw [compressDeque_eq]
      exact (g2 σ S I log patience hS s hs).1 [front, back] .finish (by simp)
    · obtain ⟨fs, k1, k2, k3⟩ := compressFrom_eq sliceSource_supplies (front ++ back) (show (front ++ back).length < 2 ^ 47 by omega)
      obtain ⟨s', k4, k5⟩ := (g2 σ S I log patience hS s hs).1 fs .finish k1
      refine ⟨s', ?_, k5⟩
      rw [k3]
      show Option.map _ (bufferedSession ⟨ieee log2, S, o, .dynamic⟩ fmt (fs.map .write) .finish s) = _
      rw [k4]
      rfl
  · obtain ⟨stream, g1, g2⟩ := C43_buffered_stream hlog o .dynamic fmt ([front, back].map .write) (by
      rw [writesOf_map]
      intro w hw
      simp only [List.mem_cons, List.not_mem_nil, or_false] at hw
      rcases hw with rfl | rfl <;> assumption)
    refine ⟨stream, by rw [g1, writesOf_map]; simp, fun σ S I log patience hS s hs => ⟨?_, fun h => absurd h hlen⟩⟩
    rw [compressDeque_eq]
    exact (g2 σ S I log patience hS .finish s hs).1

/-- **C74** (`compress`, any sink) If the sink does not fail it receives exactly one stream and `compress` succeeds; if it fails, `compress` returns its
first error, and what the sink had accepted by then is a proper prefix of the stream. -/
theorem C74_compress_deque_errors (hlog : Log2Ok log2) (o : Options) (fmt : Format) (front back : List UInt8)
    (h1 : front.length < 2 ^ 47) (h2 : back.length < 2 ^ 47) :
    ∃ stream, decode fmt stream = some (front ++ back) ∧
      ∀ (σ : Type) (S : Sink σ) (s s' : σ) (x : Except ErrKind Unit), compressDeque (ieee log2) S o fmt front back s = some (x, s') →
        ∃ accepted failed, compressDeque (ieee log2) (spy S) o fmt front back ⟨s, [], none⟩ = some (x, ⟨s', accepted, failed⟩) ∧
          (failed = none → x = .ok () ∧ accepted = stream) ∧
          ∀ k, failed = some k → x = .error k ∧ accepted <+: stream ∧ accepted.length < stream.length := by
  obtain ⟨stream, g1, -, g2⟩ := C43_sink_errors hlog o .dynamic fmt ([front, back].map .write) (by
    rw [writesOf_map]
    intro w hw
    simp only [List.mem_cons, List.not_mem_nil, or_false] at hw
    rcases hw with rfl | rfl <;> assumption)
  refine ⟨stream, by rw [g1, writesOf_map]; simp, fun σ S s s' x hx => ?_⟩
  rw [compressDeque_eq, ← bufferedSession_neverFlush] at hx
  obtain ⟨accepted, failed, k1, k2, k3⟩ := g2 σ (neverFlush S) .finish s s' x hx
  rw [bufferedSession_spy_neverFlush] at k1
  refine ⟨accepted, failed, by rw [compressDeque_eq]; exact k1, k2, fun k hk => ?_⟩
  obtain ⟨k4, k5, k6⟩ := k3 k hk
  refine ⟨?_, k5, k6 fun t t' h => by cases h⟩
  rcases k4 with k4 | ⟨k4, -⟩
  · exact k4
  · cases k4

/-- **C74** (`compress`, no panic) It neither panics nor hangs, whatever an honest sink does. -/
theorem C74_compress_deque_no_panic (hlog : Log2Ok log2) (hS : Honest S I patience) (o : Options) (fmt : Format) (front back : List UInt8)
    (h1 : front.length < 2 ^ 47) (h2 : back.length < 2 ^ 47) (s : σ) (hs : I s) :
    ∃ x s', compressDeque (ieee log2) S o fmt front back s = some (x, s') := by
  rw [compressDeque_eq]
  refine C43_no_panic hlog hS o .dynamic fmt ([front, back].map .write) .finish ?_ s hs
  rw [writesOf_map]
  intro w hw
  simp only [List.mem_cons, List.not_mem_nil, or_false] at hw
  rcases hw with rfl | rfl <;> assumption

/-! ## The hypotheses are met -/

/-- Calls of several kinds. -/
def exampleBufHands : List Hand :=
  [.writeAll [1, 2], .writeAllVectored [[], [3], [], [4, 5]], .flush, .writeFmt [[6], []], .write [7]]

example : ∃ s' stream, bufHandSession ⟨ieee floorLog2, stutterSink, Options.default, .dynamic⟩ .gzip exampleBufHands .drop ([9], 1) = some (.ok (), s') ∧
    s'.1 = [9] ++ stream ∧ Rfc.gunzip stream = some [1, 2, 3, 4, 5, 6, 7] :=
  C74_roundtrip floorLog2_ok stutterSink_reliable Options.default .dynamic .gzip exampleBufHands (by simp [exampleBufHands]) .drop
    (by simp [exampleBufHands, Hand.data]) ([9], 1) trivial

example : ∃ s' stream, compressDeque (ieee floorLog2) vecSink Options.default .zlib [1, 2] [3] [] = some (.ok (), s') ∧
    s' = [] ++ stream ∧ Rfc.zlibDecode stream = some [1, 2, 3] := by
  obtain ⟨stream, h1, h2⟩ := C74_compress_deque floorLog2_ok Options.default .zlib [1, 2] [3] (by decide) (by decide)
  obtain ⟨⟨s', h3, h4⟩, -⟩ := h2 _ vecSink _ _ _ vecSink_reliable [] trivial
  exact ⟨s', stream, h3, h4, h1⟩

/-- `write_vectored` stops at a buffer that does not fit: with 999,997 bytes waiting it takes two bytes, not the two after them, and not the last one. -/
example (env : Env σ) (e : Encoder σ) (p : List UInt8) (hp : p.length = 999997) :
    BufEncoder.writeVectored env ⟨e, p⟩ [[], [1, 2], [3, 4], [5]] = some (.ok 2, ⟨e, p ++ [1, 2]⟩) := by
  unfold BufEncoder.writeVectored
  simp [appendMore, MASTER_BLOCK_SIZE, hp]

end Zopfli
