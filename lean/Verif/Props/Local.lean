import Verif.Props.RoundTrip
import Verif.Proofs.Buffered
/-!
# C51: on what the compressed form of a buffer depends

On the buffer, the 32768 bytes before it, the options and whether it is the last — nothing else.
-/

namespace Zopfli
open Rfc

variable {log2 : Fp → Fp} {F : FloatOps}

/-- The blocks of a stream that is made buffer by buffer: `enc window buffer last` are the blocks for a buffer that follows
the given window of at most 32768 bytes; `before` is what comes before all the buffers.  If there is no buffer at all, the
stream ends with an empty one. -/
def streamBlocks (enc : List UInt8 → List UInt8 → Bool → List Block) : (before : List UInt8) → List (List UInt8) → List Block
  | before, [] => enc (lastN 32768 before) [] true
  | before, [w] => enc (lastN 32768 before) w true
  | before, w :: w' :: l => enc (lastN 32768 before) w false ++ streamBlocks enc (before ++ w) (w' :: l)

/-- `enc` describes what the encoder emits. -/
def EncOk (F : FloatOps) (o : Options) (bt : BlockType) (lim : Nat) (enc : List UInt8 → List UInt8 → Bool → List Block) : Prop :=
  ∀ window chunk last, window.length ≤ 32768 → chunk.length < lim →
    ∃ ops, deflatePart F o bt last (window ++ chunk).toArray window.length (window ++ chunk).length = some ops ∧
      Emits (window ++ chunk).toArray window.length (window ++ chunk).length last ops (enc window chunk last)

theorem encOk_exists (L : FloatLaws F) (o : Options) (bt : BlockType) : ∃ enc, EncOk F o bt L.lim enc := by
  have h : ∀ (window chunk : List UInt8) (last : Bool), ∃ blocks, window.length ≤ 32768 → chunk.length < L.lim →
      ∃ ops, deflatePart F o bt last (window ++ chunk).toArray window.length (window ++ chunk).length = some ops ∧
        Emits (window ++ chunk).toArray window.length (window ++ chunk).length last ops blocks := by
    intro window chunk last
    by_cases hh : window.length ≤ 32768 ∧ chunk.length < L.lim
    · have := L.lim_ge
      obtain ⟨ops, e, blocks, he⟩ := deflatePart_spec L o bt last (data := (window ++ chunk).toArray) (instart := window.length)
        (inend := (window ++ chunk).length) (by simp) (by simp) (by simp; omega)
      exact ⟨blocks, fun _ _ => ⟨ops, e, he⟩⟩
    · exact ⟨[], fun h1 h2 => absurd ⟨h1, h2⟩ hh⟩
  choose enc henc using h
  exact ⟨enc, henc⟩

/-- The state of an encoder that has compressed `prev` into `blocks` and holds `chunk`. -/
structure DInvB (c : DCore) (prev chunk out : List UInt8) (blocks : List Block) : Prop where
  wac : c.wac.toList = lastN 32768 prev ++ chunk
  start : c.chunkStart = (lastN 32768 prev).length
  written : ∃ pb, Written c.acc out blocks prev false pb

theorem DInvB.emit {o : Options} {bt : BlockType} {lim : Nat} {enc : List UInt8 → List UInt8 → Bool → List Block} (henc : EncOk F o bt lim enc)
    {c : DCore} {prev chunk out : List UInt8} {blocks : List Block} (h : DInvB c prev chunk out blocks) (hsz : chunk.length < lim) (last : Bool) :
    Ret (c.emit F o bt last) fun r => ∃ pb, Written r.2 (out ++ r.1.flatten) (blocks ++ enc (lastN 32768 prev) chunk last) (prev ++ chunk) last pb := by
  have hw : c.wac = (lastN 32768 prev ++ chunk).toArray := by
    apply Array.ext'
    rw [h.wac]
  have hsize : c.wac.size = (lastN 32768 prev ++ chunk).length := by rw [hw, List.size_toArray]
  obtain ⟨ops, e1, he⟩ := henc (lastN 32768 prev) chunk last (by rw [lastN_length]; omega) hsz
  unfold DCore.emit
  rw [hsize, h.start, hw, e1, some_bind]
  obtain ⟨pb, hwr⟩ := h.written
  obtain ⟨bits, hr, hrd⟩ := he.read (bytesBits out ++ pb).length
  obtain ⟨pb', hp1, hp2⟩ := pall_bits ops c.acc pb (bytesBits out ++ pb).length bits hwr.pend (by
    rw [List.length_append, bytesBits_length]
    have := hwr.pend.lt
    omega) hr
  refine ⟨_, rfl, pb', ⟨hp1, ?_, ?_, hwr.fin.append he.fin, ?_⟩⟩
  · intro rest
    have e : bytesBits (out ++ (pall c.acc ops).1.flatten) ++ pb' = (bytesBits out ++ pb) ++ bits := by
      rw [bytesBits_append, List.append_assoc, hp2, List.append_assoc]
    rw [e, List.append_assoc, List.length_append]
    exact (hwr.reads (bits ++ rest)).append (hrd rest)
  · rw [expand_append, hwr.exp]
    have hH := he.exp (prev.take (prev.length - 32768)).toArray
    have e1 : (prev.take (prev.length - 32768)).toArray ++ (lastN 32768 prev ++ chunk).toArray.extract 0 (lastN 32768 prev).length = prev.toArray := by
      apply Array.ext'
      rw [Array.toList_append, Array.toList_extract, List.extract_eq_take_drop, List.drop_zero, Nat.sub_zero, List.take_left, take_lastN]
    have e2 : (prev.take (prev.length - 32768)).toArray ++ (lastN 32768 prev ++ chunk).toArray.extract 0 (lastN 32768 prev ++ chunk).length =
        (prev ++ chunk).toArray := by
      apply Array.ext'
      rw [Array.toList_append, Array.toList_extract, List.extract_eq_take_drop, List.drop_zero, Nat.sub_zero, List.take_length, ← List.append_assoc,
        take_lastN]
    rw [e1, e2] at hH
    exact hH
  · intro b hb
    rw [List.mem_append] at hb
    exact hb.elim (hwr.refs b) (he.refs b)

theorem DInvB.set {c : DCore} {prev chunk out : List UInt8} {blocks : List Block} (h : DInvB c prev chunk out blocks) (buf : List UInt8)
    {acc : UInt8 × UInt8} {out' : List UInt8} {blocks' : List Block} (hw : ∃ pb, Written acc out' blocks' (prev ++ chunk) false pb) :
    DInvB ({ c with acc := acc }.setChunk buf) (prev ++ chunk) buf out' blocks' := by
  have hwin : (c.wac.extract (c.wac.size - WINDOW_SIZE) c.wac.size).toList = lastN 32768 (prev ++ chunk) := by
    rw [← lastN_lastN, ← h.wac, Array.toList_extract, List.extract_eq_take_drop, List.take_of_length_le (by simp)]
    unfold lastN
    rw [Array.length_toList]
  refine ⟨?_, ?_, hw⟩
  · rw [← hwin]
    simp only [DCore.setChunk, Array.toList_append]
  · rw [← hwin, Array.length_toList]
    simp only [DCore.setChunk]

/-- From a state that holds a buffer to the end of the stream. -/
theorem coreWrites_blocks {o : Options} {bt : BlockType} {lim : Nat} {enc : List UInt8 → List UInt8 → Bool → List Block} (henc : EncOk F o bt lim enc) :
    ∀ (writes : List (List UInt8)) {c : DCore} {prev chunk out : List UInt8} {blocks : List Block}, c.haveChunk = true →
      DInvB c prev chunk out blocks → chunk.length < lim → (∀ w ∈ writes, w.length < lim) →
      ∃ cs c' prev' chunk' blocks', coreWrites F o bt c writes = some (cs, c') ∧ DInvB c' prev' chunk' (out ++ cs.flatten) blocks' ∧ chunk'.length < lim ∧
        prev' ++ chunk' = prev ++ chunk ++ writes.flatten ∧
        blocks' ++ enc (lastN 32768 prev') chunk' true = blocks ++ streamBlocks enc prev (chunk :: writes)
  | [], c, prev, chunk, out, blocks, hc, h, hsz, hw => by
    refine ⟨[], c, prev, chunk, blocks, rfl, by simpa using h, hsz, by simp, rfl⟩
  | w :: l, c, prev, chunk, out, blocks, hc, h, hsz, hw => by
    obtain ⟨⟨cs1, acc⟩, e1, hwr⟩ := h.emit henc hsz false
    have hs := h.set w hwr
    obtain ⟨cs2, c', prev', chunk', blocks', e2, g1, g2, g3, g4⟩ := coreWrites_blocks henc l (c := { c with acc := acc }.setChunk w) rfl hs (hw w (by simp))
      (fun v hv => hw v (by simp [hv]))
    refine ⟨cs1 ++ cs2, c', prev', chunk', blocks', ?_, ?_, g2, ?_, ?_⟩
    · rw [coreWrites, DCore.write, if_pos hc, e1, some_bind]
      dsimp only [pure]
      rw [some_bind]
      dsimp only
      rw [e2]
      rfl
    · simpa [List.append_assoc] using g1
    · rw [g3, List.flatten_cons, List.append_assoc (prev ++ chunk)]
    · rw [g4, streamBlocks, List.append_assoc]

/-- The blocks of a whole stream. -/
theorem streamOf_blocks (L : FloatLaws F) {o : Options} {bt : BlockType} {enc : List UInt8 → List UInt8 → Bool → List Block} (henc : EncOk F o bt L.lim enc)
    (writes : List (List UInt8)) (hw : ∀ w ∈ writes, w.length < L.lim) :
    ∃ body, (∀ fmt, StreamOf F o bt fmt writes (header fmt ++ body ++ (trailer fmt writes.flatten).flatten)) ∧ parse body = some (streamBlocks enc [] writes, []) := by
  have fin : ∀ (c : DCore) (prev chunk out : List UInt8) (blocks : List Block) (cs : List (List UInt8)), DInvB c prev chunk out blocks → chunk.length < L.lim →
      coreWrites F o bt DCore.new writes = some (cs, c) → out = cs.flatten → blocks ++ enc (lastN 32768 prev) chunk true = streamBlocks enc [] writes →
      ∃ body, (∀ fmt, StreamOf F o bt fmt writes (header fmt ++ body ++ (trailer fmt writes.flatten).flatten)) ∧ parse body = some (streamBlocks enc [] writes, []) := by
    intro c prev chunk out blocks cs h hsz hcs hout hb
    obtain ⟨⟨cs', acc⟩, e1, pb, hwr⟩ := h.emit henc hsz true
    obtain ⟨pb', hp1, hp2⟩ := pall_bits [.align] acc pb pb.length (List.replicate (padLen pb.length) false) hwr.pend (by
      have := hwr.pend.lt; omega) (by simp [render])
    have hlen := congrArg List.length hp2
    rw [List.length_append, bytesBits_length, List.length_append, List.length_replicate] at hlen
    have hmod := padLen_mod pb.length
    have hlt := hp1.lt
    have hpb' : pb' = [] := by rw [← List.length_eq_zero_iff]; omega
    subst hpb'
    rw [List.append_nil] at hp2
    have hpall : (pall acc [.align]).1 = (pstep acc .align).1 := by
      show (pstep acc .align).1 ++ [] = _
      rw [List.append_nil]
    rw [hpall] at hp2
    have hvs : ValidStream (out ++ (cs' ++ (pstep acc .align).1).flatten) (blocks ++ enc (lastN 32768 prev) chunk true) (prev ++ chunk) := by
      refine ⟨⟨bytesBits (out ++ cs'.flatten) ++ pb, padLen pb.length, ?_, padLen_lt _, hwr.reads⟩, hwr.exp, hwr.fin, hwr.refs⟩
      rw [List.flatten_append, ← List.append_assoc, bytesBits_append, hp2, List.append_assoc]
    refine ⟨out ++ (cs' ++ (pstep acc .align).1).flatten, fun fmt => ⟨cs, c, cs' ++ (pstep acc .align).1, hcs, ?_, ?_⟩, ?_⟩
    · unfold DCore.finish
      rw [e1]
      rfl
    · rw [hout]
      simp [List.append_assoc]
    · have := hvs.parse []
      rw [List.append_nil] at this
      rw [this, hb]
  cases writes with
  | nil =>
    refine fin DCore.new [] [] [] [] [] ⟨rfl, rfl, [], ⟨Pend.zero, fun rest => .nil _, rfl, by simp [FinalOk], by simp⟩⟩ L.lim_pos rfl rfl ?_
    rw [List.nil_append, streamBlocks]
  | cons w l =>
    have h0 : DInvB (DCore.new.setChunk w) [] w [] [] :=
      DInvB.set (c := DCore.new) (prev := []) (chunk := []) (out := []) (blocks := []) (acc := DCore.new.acc)
        ⟨rfl, rfl, [], ⟨Pend.zero, fun rest => .nil _, rfl, by simp [FinalOk], by simp⟩⟩ w
        ⟨[], ⟨Pend.zero, fun rest => .nil _, rfl, by simp [FinalOk], by simp⟩⟩
    obtain ⟨cs, c', prev', chunk', blocks', e1, g1, g2, g3, g4⟩ := coreWrites_blocks henc l (c := DCore.new.setChunk w) rfl h0 (hw w (by simp)) (fun v hv => hw v (by simp [hv]))
    refine fin c' prev' chunk' cs.flatten blocks' cs (by simpa using g1) g2 ?_ rfl (by rw [g4, List.nil_append])
    rw [coreWrites, DCore.write, if_neg (by simp [DCore.new]), some_bind]
    dsimp only [pure]
    rw [some_bind]
    dsimp only
    rw [show ({ DCore.new with acc := DCore.new.acc } : DCore) = DCore.new from rfl, e1]
    rfl

/-- **C51** For given options there is one function `enc` of a window of at most 32768 bytes, a buffer and a flag, such that
every stream consists of the blocks `enc` gives for each written buffer, after the last 32768 bytes written before it — in
all three formats, which differ only in a header and a trailer.  The blocks for a buffer expand to the buffer, after any data that ends with
the window. -/
theorem C51_local (hlog : Log2Ok log2) (o : Options) (bt : BlockType) : ∃ enc : List UInt8 → List UInt8 → Bool → List Block,
    (∀ before buf last, buf.length < 2 ^ 47 → expand before.toArray (enc (lastN 32768 before) buf last) = some (before ++ buf).toArray) ∧
    ∀ (writes : List (List UInt8)), Fits writes → ∃ body, parse body = some (streamBlocks enc [] writes, []) ∧
      ∀ fmt, ∃ pre post : List UInt8, (pre.length, post.length) = (match fmt with | .gzip => (10, 8) | .zlib => (2, 4) | .deflate => (0, 0)) ∧
        ∀ (σ : Type) (S : Sink σ) (I : σ → Prop) (log : σ → List UInt8) (patience : σ → Nat), Reliable S I log patience →
        ∀ (calls : List Call) (ending : Ending) (s : σ), writesOf calls = writes → I s →
          ∃ s', session ⟨ieee log2, S, o, bt⟩ fmt calls ending s = some (.ok (), s') ∧ log s' = log s ++ (pre ++ body ++ post) := by
  obtain ⟨enc, henc⟩ := encOk_exists (ieeeLaws hlog) o bt
  refine ⟨enc, ?_, ?_⟩
  · intro before buf last h2
    obtain ⟨ops, -, he⟩ := henc (lastN 32768 before) buf last (by rw [lastN_length]; omega) h2
    have := he.exp (before.take (before.length - 32768)).toArray
    have e1 : (before.take (before.length - 32768)).toArray ++ (lastN 32768 before ++ buf).toArray.extract 0 (lastN 32768 before).length = before.toArray := by
      apply Array.ext'
      rw [Array.toList_append, Array.toList_extract, List.extract_eq_take_drop, List.drop_zero, Nat.sub_zero, List.take_left, take_lastN]
    have e2 : (before.take (before.length - 32768)).toArray ++ (lastN 32768 before ++ buf).toArray.extract 0 (lastN 32768 before ++ buf).length =
        (before ++ buf).toArray := by
      apply Array.ext'
      rw [Array.toList_append, Array.toList_extract, List.extract_eq_take_drop, List.drop_zero, Nat.sub_zero, List.take_length, ← List.append_assoc,
        take_lastN]
    rw [e1, e2] at this
    exact this
  · intro writes hfit
    obtain ⟨body, h1, h2⟩ := streamOf_blocks (ieeeLaws hlog) henc writes hfit
    refine ⟨body, h2, fun fmt => ⟨header fmt, (trailer fmt writes.flatten).flatten, ?_, ?_⟩⟩
    · cases fmt <;> simp [header, trailer, gzipHeader, zlibHeader, toLeBytes, toBeBytes]
    · intro σ S I log patience hS calls ending s hc hs
      subst hc
      obtain ⟨s', g1, g2, -⟩ := session_reliable ⟨ieee log2, S, o, bt⟩ hS fmt calls ending hs (h1 fmt)
      exact ⟨s', g1, g2⟩

theorem streamBlocks_append {enc : List UInt8 → List UInt8 → Bool → List Block} (henc : ∀ before buf last, buf.length < 2 ^ 47 →
      expand before.toArray (enc (lastN 32768 before) buf last) = some (before ++ buf).toArray) (r : List UInt8) (rest : List (List UInt8)) :
    ∀ (first : List (List UInt8)) (before : List UInt8), Fits first → ∃ blocks, expand before.toArray blocks = some (before ++ first.flatten).toArray ∧
      streamBlocks enc before (first ++ r :: rest) = blocks ++ streamBlocks enc (before ++ first.flatten) (r :: rest)
  | [], before, _ => ⟨[], by simp [expand], by simp⟩
  | w :: l, before, h => by
    obtain ⟨blocks, h1, h2⟩ := streamBlocks_append henc r rest l (before ++ w) (fun v hv => h v (by simp [hv]))
    refine ⟨enc (lastN 32768 before) w false ++ blocks, ?_, ?_⟩
    · rw [expand_append, henc before w false (h w (by simp))]
      simp only [Option.bind_some]
      rw [h1, List.flatten_cons, List.append_assoc]
    · have e : (w :: l) ++ r :: rest = w :: (l ++ r :: rest) := rfl
      rw [e]
      cases hl : l ++ r :: rest with
      | nil => simp at hl
      | cons x y =>
        rw [streamBlocks, ← hl, h2, List.flatten_cons, ← List.append_assoc before, ← List.append_assoc (enc _ _ _)]

theorem streamBlocks_window (enc : List UInt8 → List UInt8 → Bool → List Block) (rest : List (List UInt8)) (b1 b2 : List UInt8)
    (h : lastN 32768 b1 = lastN 32768 b2) : streamBlocks enc b1 rest = streamBlocks enc b2 rest := by
  induction rest generalizing b1 b2 with
  | nil => rw [streamBlocks, streamBlocks, h]
  | cons w l ih =>
    cases l with
    | nil => rw [streamBlocks, streamBlocks, h]
    | cons w' l => rw [streamBlocks, streamBlocks, h, ih (b1 ++ w) (b2 ++ w) (by rw [← lastN_lastN, h, lastN_lastN])]

/-- **C51** Two sessions that have written different data ending with the same 32768 bytes, and then write the same buffers:
from there on their streams consist of the same blocks. -/
theorem C51_same_blocks (hlog : Log2Ok log2) (o : Options) (bt : BlockType) (first1 first2 rest : List (List UInt8)) (hrest : rest ≠ [])
    (hfit1 : Fits (first1 ++ rest)) (hfit2 : Fits (first2 ++ rest)) (hwin : lastN 32768 first1.flatten = lastN 32768 first2.flatten) :
    ∃ stream1 stream2 blocks1 blocks2 blocks,
      parse stream1 = some (blocks1 ++ blocks, []) ∧ expand #[] blocks1 = some first1.flatten.toArray ∧
      parse stream2 = some (blocks2 ++ blocks, []) ∧ expand #[] blocks2 = some first2.flatten.toArray ∧
      ∀ (σ : Type) (S : Sink σ) (I : σ → Prop) (log : σ → List UInt8) (patience : σ → Nat), Reliable S I log patience →
      ∀ (calls : List Call) (ending : Ending) (s : σ), I s →
        (writesOf calls = first1 ++ rest → ∃ s', session ⟨ieee log2, S, o, bt⟩ .deflate calls ending s = some (.ok (), s') ∧ log s' = log s ++ stream1) ∧
        (writesOf calls = first2 ++ rest → ∃ s', session ⟨ieee log2, S, o, bt⟩ .deflate calls ending s = some (.ok (), s') ∧ log s' = log s ++ stream2) := by
  obtain ⟨enc, henc, h⟩ := C51_local hlog o bt
  obtain ⟨body1, a1, a2⟩ := h _ hfit1
  obtain ⟨body2, b1, b2⟩ := h _ hfit2
  obtain ⟨pre1, post1, a3, a4⟩ := a2 .deflate
  obtain ⟨pre2, post2, b3, b4⟩ := b2 .deflate
  simp only [Prod.mk.injEq, List.length_eq_zero_iff] at a3 b3
  obtain ⟨rfl, rfl⟩ := a3
  obtain ⟨rfl, rfl⟩ := b3
  cases rest with
  | nil => exact absurd rfl hrest
  | cons r rest =>
    obtain ⟨X1, c1, c2⟩ := streamBlocks_append henc r rest first1 [] (fun w hw => hfit1 w (by simp [hw]))
    obtain ⟨X2, d1, d2⟩ := streamBlocks_append henc r rest first2 [] (fun w hw => hfit2 w (by simp [hw]))
    refine ⟨body1, body2, X1, X2, streamBlocks enc first1.flatten (r :: rest), by rw [a1, c2, List.nil_append], by simpa using c1,
      by rw [b1, d2, List.nil_append, streamBlocks_window enc _ _ _ hwin], by simpa using d1, ?_⟩
    intro σ S I log patience hS calls ending s hs
    refine ⟨fun hc => ?_, fun hc => ?_⟩
    · obtain ⟨s', g1, g2⟩ := a4 σ S I log patience hS calls ending s hc hs
      exact ⟨s', g1, by simpa using g2⟩
    · obtain ⟨s', g1, g2⟩ := b4 σ S I log patience hS calls ending s hc hs
      exact ⟨s', g1, by simpa using g2⟩

/-! ## The hypotheses are met -/

/-- A short message before 40000 zeros, and nothing before 32768 zeros: the streams go on in the same way. -/
example : ∃ blocks1 blocks2 blocks stream1 stream2, parse stream1 = some (blocks1 ++ blocks, []) ∧ parse stream2 = some (blocks2 ++ blocks, []) ∧
    Rfc.inflate stream1 = some ([1, 2, 3] ++ List.replicate 40000 0 ++ [7, 8]) ∧ Rfc.inflate stream2 = some (List.replicate 32768 0 ++ [7, 8]) := by
  have hl : lastN 32768 ([[1, 2, 3], List.replicate 40000 0] : List (List UInt8)).flatten = lastN 32768 ([List.replicate 32768 0] : List (List UInt8)).flatten := by
    have : ∀ n k : Nat, k ≤ n → lastN k ([[1, 2, 3], List.replicate n 0] : List (List UInt8)).flatten = lastN k ([List.replicate k 0] : List (List UInt8)).flatten := by
      intro n k h
      simp only [List.flatten_cons, List.flatten_nil, List.append_nil]
      rw [lastN_append_le _ _ _ (by simpa using h)]
      simp only [lastN, List.length_replicate, List.drop_replicate]
      congr 1
      omega
    exact this _ _ (by norm_num)
  have hf : ∀ (n : Nat), n < 2 ^ 47 → (List.replicate n (0 : UInt8)).length < 2 ^ 47 := fun n h => by simpa using h
  have f1 : Fits ([[1, 2, 3], List.replicate 40000 0] ++ [[7, 8]]) := by
    intro w hw
    simp only [List.cons_append, List.nil_append, List.mem_cons, List.not_mem_nil, or_false] at hw
    rcases hw with rfl | rfl | rfl
    · decide
    · exact hf _ (by norm_num)
    · decide
  have f2 : Fits ([List.replicate 32768 0] ++ [[7, 8]]) := by
    intro w hw
    simp only [List.cons_append, List.nil_append, List.mem_cons, List.not_mem_nil, or_false] at hw
    rcases hw with rfl | rfl
    · exact hf _ (by norm_num)
    · decide
  obtain ⟨stream1, stream2, blocks1, blocks2, blocks, h1, h2, h3, h4, h5⟩ := C51_same_blocks (log2 := floorLog2) floorLog2_ok Options.default .dynamic
    [[1, 2, 3], List.replicate 40000 0] [List.replicate 32768 0] [[7, 8]] (by simp) f1 f2 hl
  refine ⟨blocks1, blocks2, blocks, stream1, stream2, h1, h3, ?_, ?_⟩
  · obtain ⟨s', g1, g2⟩ := (h5 _ _ _ _ _ vecSink_reliable [.write [1, 2, 3], .write (List.replicate 40000 0), .write [7, 8]] .finish [] trivial).1 rfl
    obtain ⟨s'', st, k1, k2, k3⟩ := C01_deflate_roundtrip floorLog2_ok vecSink_reliable Options.default .dynamic
      [.write [1, 2, 3], .write (List.replicate 40000 0), .write [7, 8]] f1 [] trivial
    rw [g1] at k1
    cases k1
    have : stream1 = st := by rw [g2] at k2; simpa using k2
    rw [this, k3]
    simp only [writesOf, List.flatten_cons, List.flatten_nil, List.append_nil, List.append_assoc]
  · obtain ⟨s', g1, g2⟩ := (h5 _ _ _ _ _ vecSink_reliable [.write (List.replicate 32768 0), .write [7, 8]] .finish [] trivial).2 rfl
    obtain ⟨s'', st, k1, k2, k3⟩ := C01_deflate_roundtrip floorLog2_ok vecSink_reliable Options.default .dynamic
      [.write (List.replicate 32768 0), .write [7, 8]] f2 [] trivial
    rw [g1] at k1
    cases k1
    have : stream2 = st := by rw [g2] at k2; simpa using k2
    rw [this, k3]
    simp only [writesOf, List.flatten_cons, List.flatten_nil, List.append_nil, List.append_assoc]

end Zopfli
