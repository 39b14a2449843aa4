import Verif.Props.Stored
/-!
# C31: bit packing, and C29: the sliding window
-/

namespace Zopfli
open Rfc

theorem foldr_bits_lt : ∀ (l : List Bool), l.foldr (fun b v => b.toNat + 2 * v) 0 < 2 ^ l.length
  | [] => by simp
  | b :: l => by
    have := foldr_bits_lt l
    rw [List.foldr_cons, List.length_cons, Nat.pow_succ]
    cases b <;> simp <;> omega

theorem foldr_bits_testBit : ∀ (l : List Bool) (i : Nat), (l.foldr (fun (b : Bool) v => b.toNat + 2 * v) 0).testBit i = l.getD i false
  | [], i => by simp
  | b :: l, 0 => by
    rw [List.foldr_cons, Nat.testBit_zero]
    cases b <;> simp <;> omega
  | b :: l, i + 1 => by
    rw [List.foldr_cons, Nat.testBit_succ, List.getD_cons_succ, ← foldr_bits_testBit l i]
    congr 1
    cases b <;> simp <;> omega

theorem packByte_bits (l : List Bool) (h : l.length ≤ 8) : byteBits (packByte l) = l ++ List.replicate (8 - l.length) false := by
  have hlt : l.foldr (fun b v => b.toNat + 2 * v) 0 < 256 := Nat.lt_of_lt_of_le (foldr_bits_lt l) (Nat.pow_le_pow_right (by omega) h : _ ≤ 2 ^ 8)
  apply List.ext_getElem?
  intro i
  by_cases hi : i < 8
  · simp only [byteBits, List.getElem?_map, List.getElem?_range hi, Option.map_some, packByte, UInt8.toNat_ofNat', Nat.mod_eq_of_lt hlt,
      foldr_bits_testBit]
    by_cases hl : i < l.length
    · rw [List.getElem?_append_left hl, List.getD_eq_getElem?_getD, List.getElem?_eq_getElem hl]
      rfl
    · rw [List.getElem?_append_right (by omega), List.getElem?_replicate, if_pos (by omega), List.getD_eq_getElem?_getD,
        List.getElem?_eq_none (by omega)]
      rfl
  · rw [List.getElem?_eq_none (by rw [byteBits_length]; omega), List.getElem?_eq_none (by simp; omega)]

theorem packBits_bits (l : List Bool) : bytesBits (packBits l) = l ++ List.replicate ((8 - l.length % 8) % 8) false := by
  generalize hk : l.length = k
  induction k using Nat.strongRecOn generalizing l with
  | ind k ih =>
    cases l with
    | nil => subst hk; rw [packBits]; rfl
    | cons b l =>
      rw [packBits, bytesBits_cons, packByte_bits _ (by rw [List.length_take]; omega)]
      have hpos : 0 < k := by rw [← hk]; simp
      have hi := ih (k - 8) (by omega) ((b :: l).drop 8) (by rw [List.length_drop, hk])
      rw [hi]
      by_cases h8 : 8 ≤ k
      · rw [List.length_take, Nat.min_eq_left (by omega), Nat.sub_self, List.replicate_zero, List.append_nil, ← List.append_assoc, List.take_append_drop]
        congr 2
        omega
      · rw [List.drop_of_length_le (by omega), List.take_of_length_le (by omega), List.nil_append, List.append_assoc, ← List.replicate_add, hk]
        congr 2
        omega

/-- Packing is the inverse of reading bytes bit by bit. -/
theorem packBits_bytesBits (l : List UInt8) : packBits (bytesBits l) = l := by
  apply bytesBits_inj
  rw [packBits_bits, bytesBits_length]
  simp

theorem bitSequence_render : ∀ (ops : List WOp) (sofar : List Bool), bitSequence sofar ops = (render sofar.length ops).map (sofar ++ ·)
  | [], sofar => by simp [bitSequence, render]
  | .bit b :: ops, sofar => by
    rw [bitSequence, render, bitSequence_render ops, Option.map_map, List.length_append]
    congr 1
    funext x
    simp
  | .align :: ops, sofar => by
    rw [bitSequence, render, bitSequence_render ops, Option.map_map, List.length_append, List.length_replicate]
    congr 1
    funext x
    simp [padLen]
  | .bytes l :: ops, sofar => by
    rw [bitSequence, render]
    split
    · rw [bitSequence_render ops, Option.map_map, List.length_append, bytesBits_length]
      congr 1
      funext x
      simp
    · rfl

variable {σ : Type} {S : Sink σ} {I : σ → Prop} {log : σ → List UInt8} {patience : σ → Nat}

/-- **C31** Operations on a fresh bit writer that stand for the bits `bits` deliver to the sink the bytes that pack these
bits, the first bit of each byte least significant: at once, all the complete bytes; after `finish_partial_bits`, also
the last byte padded with zeros.  The reported number of bytes is that of the packed bits at both moments. -/
theorem C31_bit_packing (hS : Reliable S I log patience) (ops : List WOp) (bits : List Bool) (hb : bitSequence [] ops = some bits) (s : σ) (hs : I s) :
    ∃ w w', (BitwiseWriter.new s).execAll S ops = some (.ok (), w) ∧
      log w.out = log s ++ packBits (bits.take (bits.length / 8 * 8)) ∧ w.bytesWritten = (packBits bits).length ∧
      w.finishPartialBits S = some (.ok (), w') ∧
      log w'.out = log s ++ packBits bits ∧ w'.bytesWritten = (packBits bits).length := by
  rw [bitSequence_render] at hb
  simp only [List.length_nil, List.nil_append, Option.map_id_fun', id] at hb
  obtain ⟨pb, hp1, hp2⟩ := pall_bits ops (0, 0) [] 0 bits Pend.zero rfl hb
  rw [List.nil_append] at hp2
  obtain ⟨s1, a1, a2, a3⟩ := hS.writeMany (pall (0, 0) ops).1 s hs
  have h1 := execAll_rel S ops (BitwiseWriter.new s)
  dsimp only [BitwiseWriter.new] at h1
  rw [a1] at h1
  have hlen := congrArg List.length hp2
  rw [List.length_append, bytesBits_length] at hlen
  have hlt := hp1.lt
  have hlen2 : (pall (0, 0) ops).1.flatten.length = bits.length / 8 := by omega
  have htake : packBits (bits.take (bits.length / 8 * 8)) = (pall (0, 0) ops).1.flatten := by
    conv_lhs => rw [← hp2]
    rw [List.take_left', packBits_bytesBits]
    rw [bytesBits_length, List.length_append, bytesBits_length]
    omega
  have hpk : (packBits bits).length = bits.length / 8 + if bits.length % 8 = 0 then 0 else 1 := by
    have := congrArg List.length (packBits_bits bits)
    rw [bytesBits_length, List.length_append, List.length_replicate] at this
    split <;> omega
  have hbp : ∀ n < 8, (UInt8.ofNat n > 0) ↔ n ≠ 0 := by decide
  have hbp' := hbp pb.length hlt
  have hbw : (⟨(pall (0, 0) ops).2.1, (pall (0, 0) ops).2.2, 0 + (pall (0, 0) ops).1.flatten.length, s1⟩ : BitwiseWriter σ).bytesWritten = (packBits bits).length := by
    unfold BitwiseWriter.bytesWritten
    dsimp only
    rw [hp1.bp, hlen2, hpk, Nat.zero_add]
    congr 1
    by_cases h0 : pb.length = 0
    · rw [if_neg (fun h => (hbp'.1 h) h0), if_pos (by omega)]
    · rw [if_pos (hbp'.2 h0), if_neg (by omega)]
  obtain ⟨s2, b1, b2, b3⟩ := hS.writeMany (pstep (pall (0, 0) ops).2 .align).1 s1 a3
  have h2 := exec_rel S (⟨(pall (0, 0) ops).2.1, (pall (0, 0) ops).2.2, 0 + (pall (0, 0) ops).1.flatten.length, s1⟩ : BitwiseWriter σ) .align
  dsimp only at h2
  rw [b1] at h2
  refine ⟨_, _, h1, by rw [htake]; exact a2, hbw, h2, ?_, ?_⟩
  · dsimp only
    rw [b2, a2, List.append_assoc]
    congr 1
    apply bytesBits_inj
    rw [packBits_bits, bytesBits_append]
    by_cases h0 : pb.length = 0
    · have hz : pb = [] := List.length_eq_zero_iff.1 h0
      subst hz
      rw [hp1.nil, ← hp2, List.append_nil, bytesBits_length, Nat.mul_mod_right]
      rfl
    · have hne : (pall (0, 0) ops).2.2 ≠ 0 := by
        rw [hp1.bp]
        exact fun h => by
          have h' := hbp'.2 h0
          rw [h] at h'
          exact absurd h' (by decide)
      have e : (pstep (pall (0, 0) ops).2 .align).1 = [[(pall (0, 0) ops).2.1]] := by
        generalize (pall (0, 0) ops).2 = st at hne ⊢
        obtain ⟨x, y⟩ := st
        show (if y ≠ 0 then _ else _ : List (List UInt8) × _).1 = _
        rw [if_pos hne]
      rw [e]
      show _ ++ (byteBits _ ++ []) = _
      rw [hp1.bit, List.append_nil, ← List.append_assoc, hp2]
      congr 2
      omega
  · unfold BitwiseWriter.bytesWritten
    dsimp only
    by_cases h0 : pb.length = 0
    · have hz : pb = [] := List.length_eq_zero_iff.1 h0
      subst hz
      have hm : bits.length % 8 = 0 := by rw [List.length_nil] at hlen; omega
      rw [hp1.nil, hpk, hlen2, show (if bits.length % 8 = 0 then 0 else 1) = 0 from if_pos hm, Nat.zero_add]
      rfl
    · have hne : (pall (0, 0) ops).2.2 ≠ 0 := by
        rw [hp1.bp]
        exact fun h => by
          have h' := hbp'.2 h0
          rw [h] at h'
          exact absurd h' (by decide)
      have e : pstep (pall (0, 0) ops).2 .align = ([[(pall (0, 0) ops).2.1]], (0, 0)) := by
        generalize (pall (0, 0) ops).2 = st at hne ⊢
        obtain ⟨x, y⟩ := st
        show (if y ≠ 0 then _ else _ : List (List UInt8) × _) = _
        rw [if_pos hne]
      have hm : bits.length % 8 ≠ 0 := by omega
      rw [e, hpk, hlen2, show (if bits.length % 8 = 0 then 0 else 1) = 1 from if_neg hm, Nat.zero_add]
      rfl

/-- **C31** `add_bits` writes the low `n` bits of a value starting with the least significant, `add_huffman_bits` starting
with the most significant. -/
theorem C31_bit_order (v n : Nat) (sofar : List Bool) :
    bitSequence sofar (addBits v n) = some (sofar ++ (List.range n).map fun i => v.testBit i) ∧
    bitSequence sofar (addHuffmanBits v n) = some (sofar ++ ((List.range n).map fun i => v.testBit i).reverse) := by
  rw [bitSequence_render, bitSequence_render]
  constructor
  · rw [addBits_eq, render_bitOps]
    rfl
  · have : addHuffmanBits v n = bitOps ((List.range n).map fun i => v.testBit i).reverse := by
      unfold addHuffmanBits bitOps
      apply List.ext_getElem
      · simp
      · intro i h1 h2
        simp
        congr 1
        omega
    rw [this, render_bitOps]
    rfl

/-- Three bits, alignment, a byte, two bits. -/
example : bitSequence [] [.bit true, .bit false, .bit true, .align, .bytes [200], .bit false, .bit true] =
    some ([true, false, true] ++ List.replicate 5 false ++ byteBits 200 ++ [false, true]) := by decide

example : packBits ([true, false, true] ++ List.replicate 5 false ++ byteBits 200 ++ [false, true]) = [5, 200, 2] := by
  simp [packBits, byteBits, packByte, List.range, List.range.loop]; decide

/-! ## The window -/

/-- What is retained after the writes `done`: the last 32768 bytes before the last of them, and the last of them. -/
def retainedAfter : List (List UInt8) → List UInt8 × Nat
  | [] => ([], 0)
  | w :: l => (((w :: l).dropLast.flatten.drop ((w :: l).dropLast.flatten.length - 32768)) ++ (w :: l).getLast (by simp),
      min 32768 (w :: l).dropLast.flatten.length)

theorem retainedAfter_snoc (init : List (List UInt8)) (w : List UInt8) :
    retainedAfter (init ++ [w]) = (init.flatten.drop (init.flatten.length - 32768) ++ w, min 32768 init.flatten.length) := by
  cases init with
  | nil => rfl
  | cons v l =>
    have e1 : List.dropLast (v :: l ++ [w]) = v :: l := List.dropLast_concat
    have e2 : List.getLast (v :: l ++ [w]) (by simp) = w := List.getLast_append_singleton _
    show ((List.dropLast (v :: l ++ [w])).flatten.drop ((List.dropLast (v :: l ++ [w])).flatten.length - 32768) ++ List.getLast (v :: l ++ [w]) _,
      min 32768 (List.dropLast (v :: l ++ [w])).flatten.length) = _
    rw [e2, e1]

/-- Writing once more: the new history is the end of what was retained. -/
theorem retainedAfter_step (done : List (List UInt8)) (w : List UInt8) :
    retainedAfter (done ++ [w]) = ((retainedAfter done).1.drop ((retainedAfter done).1.length - 32768) ++ w, min 32768 (retainedAfter done).1.length) := by
  rcases List.eq_nil_or_concat done with rfl | ⟨init, v, rfl⟩
  · rfl
  · rw [retainedAfter_snoc, List.concat_eq_append, retainedAfter_snoc]
    have h := lastN_lastN 32768 init.flatten v
    unfold lastN at h
    dsimp only
    rw [h, List.flatten_append, List.flatten_cons, List.flatten_nil, List.append_nil]
    refine Prod.ext rfl ?_
    dsimp only
    simp only [List.length_append, List.length_drop]
    omega

theorem DeflateEncoder.compressChunk_retained {env : Env σ} {e e' : DeflateEncoder σ} {last : Bool} {r : Except ErrKind Unit}
    (h : e.compressChunk env last = some (r, e')) : e'.windowAndChunk = e.windowAndChunk ∧ e'.chunkStart = e.chunkStart := by
  unfold DeflateEncoder.compressChunk at h
  simp only [Option.bind_eq_bind, Option.bind_eq_some_iff] at h
  obtain ⟨w, -, ops, -, ⟨r', w'⟩, -, h⟩ := h
  cases h
  exact ⟨rfl, rfl⟩

theorem DeflateEncoder.write_retained {env : Env σ} {e e' : DeflateEncoder σ} {buf : List UInt8} {r : Except ErrKind Nat}
    (h : e.write env buf = some (r, e')) :
    (∀ n, r = .ok n → e'.windowAndChunk.toList = e.windowAndChunk.toList.drop (e.windowAndChunk.toList.length - 32768) ++ buf ∧
      e'.chunkStart = min 32768 e.windowAndChunk.toList.length) ∧
    (∀ k, r = .error k → e'.windowAndChunk = e.windowAndChunk ∧ e'.chunkStart = e.chunkStart) := by
  unfold DeflateEncoder.write at h
  simp only [Option.bind_eq_bind, Option.bind_eq_some_iff] at h
  obtain ⟨⟨r1, e1⟩, h1, h⟩ := h
  have hk : e1.windowAndChunk = e.windowAndChunk ∧ e1.chunkStart = e.chunkStart := by
    split at h1
    · exact DeflateEncoder.compressChunk_retained h1
    · cases h1; exact ⟨rfl, rfl⟩
  cases r1 with
  | error k =>
    cases h
    exact ⟨fun n hn => (by cases hn), fun _ _ => hk⟩
  | ok u =>
    cases h
    refine ⟨fun n _ => ?_, fun k hk => by cases hk⟩
    unfold DeflateEncoder.setChunk
    dsimp only
    rw [hk.1]
    constructor
    · rw [Array.toList_append, Array.toList_extract, List.extract_eq_take_drop, List.take_of_length_le (by simp), Array.length_toList]
    · simp only [Array.size_extract, Array.length_toList]
      dsimp only [WINDOW_SIZE]
      omega

theorem DeflateEncoder.flush_retained {env : Env σ} {e e' : DeflateEncoder σ} {r : Except ErrKind Unit}
    (h : e.flush env = some (r, e')) : e'.windowAndChunk = e.windowAndChunk ∧ e'.chunkStart = e.chunkStart := by
  unfold DeflateEncoder.flush at h
  simp only [Option.bind_eq_bind, Option.bind_eq_some_iff] at h
  obtain ⟨w, -, h⟩ := h
  cases h
  exact ⟨rfl, rfl⟩

theorem Encoder.write_retained {env : Env σ} {e e' : Encoder σ} {buf : List UInt8} {r : Except ErrKind Nat} {data : List UInt8} {start : Nat}
    (h : e.write env buf = some (r, e')) (hr : e.retained = some (data, start)) :
    (∀ n, r = .ok n → e'.retained = some (data.drop (data.length - 32768) ++ buf, min 32768 data.length)) ∧
    (∀ k, r = .error k → e'.retained = some (data, start)) := by
  cases e with
  | deflate d =>
    simp only [Encoder.write, Option.bind_eq_bind, Option.bind_eq_some_iff] at h
    obtain ⟨⟨r1, d1⟩, h1, h⟩ := h
    cases h
    obtain ⟨k1, k2⟩ := DeflateEncoder.write_retained h1
    cases hr
    exact ⟨fun n hn => by rw [Encoder.retained, (k1 n hn).1, (k1 n hn).2], fun n hn => by rw [Encoder.retained, (k2 n hn).1, (k2 n hn).2]⟩
  | gzip g =>
    simp only [Encoder.write, GzipEncoder.write, Option.bind_eq_bind, Option.bind_eq_some_iff] at h
    obtain ⟨⟨r1, g1⟩, ⟨d, hd, ⟨r2, d1⟩, h1, h2⟩, h⟩ := h
    obtain ⟨k1, k2⟩ := DeflateEncoder.write_retained h1
    simp only [Encoder.retained, hd, Option.map_some] at hr
    cases hr
    cases r2 with
    | error k =>
      cases h2
      cases h
      refine ⟨fun n hn => (by cases hn), fun k' hn => ?_⟩
      simp only [Encoder.retained, Option.map_some, (k2 k rfl).1, (k2 k rfl).2]
    | ok n =>
      cases h2
      cases h
      refine ⟨fun n' hn => ?_, fun k hn => by cases hn⟩
      simp only [Encoder.retained, Option.map_some, (k1 n rfl).1, (k1 n rfl).2]
  | zlib g =>
    simp only [Encoder.write, ZlibEncoder.write, Option.bind_eq_bind, Option.bind_eq_some_iff] at h
    obtain ⟨⟨r1, g1⟩, ⟨d, hd, ⟨r2, d1⟩, h1, h2⟩, h⟩ := h
    obtain ⟨k1, k2⟩ := DeflateEncoder.write_retained h1
    simp only [Encoder.retained, hd, Option.map_some] at hr
    cases hr
    cases r2 with
    | error k =>
      cases h2
      cases h
      refine ⟨fun n hn => (by cases hn), fun k' hn => ?_⟩
      simp only [Encoder.retained, Option.map_some, (k2 k rfl).1, (k2 k rfl).2]
    | ok n =>
      cases h2
      cases h
      refine ⟨fun n' hn => ?_, fun k hn => by cases hn⟩
      simp only [Encoder.retained, Option.map_some, (k1 n rfl).1, (k1 n rfl).2]

theorem Encoder.flush_retained {env : Env σ} {e e' : Encoder σ} {r : Except ErrKind Unit}
    (h : e.flush env = some (r, e')) : e'.retained = e.retained := by
  cases e with
  | deflate d =>
    simp only [Encoder.flush, Option.bind_eq_bind, Option.bind_eq_some_iff] at h
    obtain ⟨⟨r1, d1⟩, h1, h⟩ := h
    cases h
    obtain ⟨k1, k2⟩ := DeflateEncoder.flush_retained h1
    rw [Encoder.retained, Encoder.retained, k1, k2]
  | gzip g =>
    simp only [Encoder.flush, GzipEncoder.flush, Option.bind_eq_bind, Option.bind_eq_some_iff] at h
    obtain ⟨⟨r1, g1⟩, ⟨d, hd, ⟨r2, d1⟩, h1, h2⟩, h⟩ := h
    obtain ⟨k1, k2⟩ := DeflateEncoder.flush_retained h1
    cases h2
    cases h
    simp only [Encoder.retained, hd, Option.map_some, k1, k2]
  | zlib g =>
    simp only [Encoder.flush, ZlibEncoder.flush, Option.bind_eq_bind, Option.bind_eq_some_iff] at h
    obtain ⟨⟨r1, g1⟩, ⟨d, hd, ⟨r2, d1⟩, h1, h2⟩, h⟩ := h
    obtain ⟨k1, k2⟩ := DeflateEncoder.flush_retained h1
    cases h2
    cases h
    simp only [Encoder.retained, hd, Option.map_some, k1, k2]

theorem run_retained {env : Env σ} : ∀ (calls : List Call) {e e' : Encoder σ} {r : Except ErrKind Unit} {done : List (List UInt8)},
    e.retained = some (retainedAfter done) → e.run env calls = some (r, e') →
    ∃ more, more <+: writesOf calls ∧ (r = .ok () → more = writesOf calls) ∧ e'.retained = some (retainedAfter (done ++ more))
  | [], e, e', r, done, h, hr => by
    cases hr
    exact ⟨[], List.prefix_refl _, fun _ => rfl, by rw [List.append_nil]; exact h⟩
  | .write buf :: l, e, e', r, done, h, hr => by
    rw [Encoder.run, Option.bind_eq_bind, Option.bind_eq_some_iff] at hr
    obtain ⟨⟨r1, e1⟩, h1, hr⟩ := hr
    obtain ⟨k1, k2⟩ := Encoder.write_retained (data := (retainedAfter done).1) (start := (retainedAfter done).2) h1 h
    cases r1 with
    | error k =>
      cases hr
      exact ⟨[], List.nil_prefix, fun h => (by cases h), by rw [List.append_nil]; exact k2 k rfl⟩
    | ok n =>
      have h2 : e1.retained = some (retainedAfter (done ++ [buf])) := by
        rw [retainedAfter_step]
        exact k1 n rfl
      obtain ⟨more, a1, a2, a3⟩ := run_retained l h2 hr
      refine ⟨buf :: more, ?_, fun hk => ?_, by rw [a3, List.append_assoc]; rfl⟩
      · rw [writesOf]; exact (List.prefix_cons_inj _).2 a1
      · rw [writesOf, a2 hk]
  | .flush :: l, e, e', r, done, h, hr => by
    rw [Encoder.run, Option.bind_eq_bind, Option.bind_eq_some_iff] at hr
    obtain ⟨⟨r1, e1⟩, h1, hr⟩ := hr
    have k := Encoder.flush_retained h1
    cases r1 with
    | error k' =>
      cases hr
      exact ⟨[], List.nil_prefix, fun h => (by cases h), by rw [List.append_nil, k]; exact h⟩
    | ok u => exact run_retained l (by rw [k]; exact h) hr

theorem new_retained {env : Env σ} {fmt : Format} {s s' : σ} {e : Encoder σ} (h : Encoder.new env fmt s = some (.ok e, s')) :
    e.retained = some ([], 0) := by
  cases fmt with
  | deflate => cases h; rfl
  | gzip =>
    simp only [Encoder.new, GzipEncoder.new, Option.bind_eq_bind, Option.bind_eq_some_iff] at h
    obtain ⟨⟨r1, s1⟩, ⟨⟨r2, s2⟩, -, h2⟩, h⟩ := h
    cases r2 <;> cases h2 <;> cases h
    rfl
  | zlib =>
    simp only [Encoder.new, ZlibEncoder.new, Option.bind_eq_bind, Option.bind_eq_some_iff] at h
    obtain ⟨⟨r1, s1⟩, ⟨⟨r2, s2⟩, -, h2⟩, h⟩ := h
    cases r2 <;> cases h2 <;> cases h
    rfl

/-- **C29** With any sink, after any calls that all succeeded, the encoder holds the last buffer written and, before it,
exactly the last 32768 bytes written before it (all of them if there are fewer), nothing else. -/
theorem C29_window (env : Env σ) (fmt : Format) (s s' : σ) (e e' : Encoder σ) (calls : List Call) (init : List (List UInt8)) (w : List UInt8)
    (hnew : Encoder.new env fmt s = some (.ok e, s')) (hrun : e.run env calls = some (.ok (), e')) (hw : writesOf calls = init ++ [w]) :
    e'.retained = some (init.flatten.drop (init.flatten.length - 32768) ++ w, min 32768 init.flatten.length) := by
  obtain ⟨more, -, h2, h3⟩ := run_retained (done := []) calls (new_retained hnew) hrun
  rw [h3, List.nil_append, h2 rfl, hw, retainedAfter_snoc]

/-- **C29** Also when some call failed, memory is bounded: at most 32768 bytes and one of the written buffers. -/
theorem C29_memory (env : Env σ) (fmt : Format) (s s' : σ) (e e' : Encoder σ) (calls : List Call) (r : Except ErrKind Unit)
    (hnew : Encoder.new env fmt s = some (.ok e, s')) (hrun : e.run env calls = some (r, e')) :
    ∃ data start, e'.retained = some (data, start) ∧ start ≤ 32768 ∧ (data = [] ∨ data.drop start ∈ writesOf calls) := by
  obtain ⟨more, h1, -, h3⟩ := run_retained (done := []) calls (new_retained hnew) hrun
  rw [List.nil_append] at h3
  rcases List.eq_nil_or_concat more with rfl | ⟨init, w, rfl⟩
  · exact ⟨_, _, h3, by simp [retainedAfter], .inl rfl⟩
  · rw [List.concat_eq_append] at h1 h3
    rw [retainedAfter_snoc] at h3
    refine ⟨_, _, h3, Nat.min_le_left _ _, .inr ?_⟩
    rw [List.drop_left' (by rw [List.length_drop]; omega)]
    obtain ⟨t, ht⟩ := h1
    rw [← ht]
    simp

example : retainedAfter [[1, 2], [3], [], [4, 5]] = ([1, 2, 3, 4, 5], 3) := by decide

end Zopfli
