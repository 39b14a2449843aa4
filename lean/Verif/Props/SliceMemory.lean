import Verif.Model.SliceMemory
import Verif.Proofs.Hom
import Verif.Props.Faults
import Verif.Props.Checked
import Verif.Props.Lending
/-!
# C79: compressing into a part of a memory

A caller hands a byte slice, which may be a part of a larger array, to an encoder or to `compress`.  What happens to the array?
-/

namespace Zopfli
open Rfc

variable {ρ : Type} {log2 : Fp → Fp}

/-- Put `bytes` at position `start` of a memory. -/
def overwritten (mem : List UInt8) (start : Nat) (bytes : List UInt8) : List UInt8 := mem.take start ++ bytes ++ mem.drop (start + bytes.length)

theorem overwritten_length {mem : List UInt8} {start : Nat} {bytes : List UInt8} (h : start + bytes.length ≤ mem.length) : (overwritten mem start bytes).length = mem.length := by
  simp [overwritten]
  omega

theorem overwritten_getElem? {mem : List UInt8} {start : Nat} {bytes : List UInt8} (h : start + bytes.length ≤ mem.length) (i : Nat) :
    (overwritten mem start bytes)[i]? = if i < start then mem[i]? else if i < start + bytes.length then bytes[i - start]? else mem[i]? := by
  have hl : (mem.take start).length = start := by simp; omega
  unfold overwritten
  by_cases h1 : i < start
  · rw [if_pos h1, List.append_assoc, List.getElem?_append_left (by omega), List.getElem?_take_of_lt h1]
  · rw [if_neg h1, List.append_assoc, List.getElem?_append_right (by omega), hl]
    by_cases h2 : i < start + bytes.length
    · rw [if_pos h2, List.getElem?_append_left (by omega)]
    · rw [if_neg h2, List.getElem?_append_right (by omega), List.getElem?_drop]
      congr 1
      omega

/-- **C79** (one write) `write` on a slice does not panic; it copies as much of the data as fits to the start of the slice and makes the slice the rest. -/
theorem C79_write (mem : List UInt8) (start len : Nat) (data : List UInt8) :
    memSliceWrite ⟨mem, start, len⟩ data =
      some (min data.length len, ⟨overwritten mem start (data.take len), start + min data.length len, len - min data.length len⟩) := by
  have h : data.take (min data.length len) = data.take len := by
    rcases Nat.le_total data.length len with h | h
    · rw [Nat.min_eq_left h, List.take_length, List.take_of_length_le h]
    · rw [Nat.min_eq_right h]
  unfold memSliceWrite splitAtMut
  dsimp only
  rw [if_pos (Nat.min_le_right _ _)]
  simp only [Option.bind_eq_bind, Option.bind_some, copyFromSlice, List.length_take]
  rw [if_pos (by omega), h]
  simp [overwritten, Nat.min_comm]

/-- The slice state in memory: the written bytes are at `base`. -/
def inMemory (mem : List UInt8) (base : Nat) (s : SliceState) : MemSlice := ⟨overwritten mem base s.written, base + s.written.length, s.room⟩

theorem inMemory_hom {mem : List UInt8} {base : Nat} (hb : base ≤ mem.length) : Hom sliceSink memSliceSink (inMemory mem base) where
  wr t b := by
    obtain ⟨w, room⟩ := t
    simp only [memSliceSink, inMemory, sliceSink, C79_write]
    have hl : (mem.take base).length = base := by simp; omega
    congr 2
    · have h : b.take (min b.length room) = b.take room := by
        rcases Nat.le_total b.length room with h | h
        · rw [Nat.min_eq_left h, List.take_length, List.take_of_length_le h]
        · rw [Nat.min_eq_right h]
      rw [h]
      have e1 : (mem.take base ++ w).length = base + w.length := by rw [List.length_append, hl]
      simp only [overwritten]
      rw [List.take_left' e1, ← List.append_assoc (mem.take base) w, ← List.drop_drop, List.drop_left' e1, List.drop_drop, List.length_append, Nat.add_assoc]
    · simp [Nat.min_comm]
      omega
  fl t := rfl

/-- A slice whose written and remaining bytes are `cap` bytes. -/
abbrev SliceOf (cap : Nat) : Type := { s : SliceState // s.written.length + s.room = cap }

/-- `sliceSink`, with the invariant. -/
def sliceOfSink (cap : Nat) : Sink (SliceOf cap) where
  write s buf := ((sliceSink.write s.1 buf).1, ⟨(sliceSink.write s.1 buf).2, by
    have := s.2
    simp [sliceSink]
    omega⟩)
  flush s := (.ok (), s)

theorem sliceOf_hom (cap : Nat) : Hom (sliceOfSink cap) sliceSink Subtype.val := ⟨⟨fun _ _ => rfl⟩, fun _ => rfl⟩

/-- What a caller may rely on: between `old`, with a slice of `cap` bytes at `base`, and `new`, only bytes of the slice have changed, and only those that are
no longer in the slice. -/
def OnlyTheSlice (old : List UInt8) (base cap : Nat) (new : MemSlice) : Prop :=
  new.mem.length = old.length ∧ base ≤ new.start ∧ new.start + new.len = base + cap ∧ ∀ i, i < base ∨ new.start ≤ i → new.mem[i]? = old[i]?

theorem sliceOf_only {mem : List UInt8} {base cap : Nat} (h : base + cap ≤ mem.length) (s : SliceOf cap) : OnlyTheSlice mem base cap (inMemory mem base s.1) := by
  obtain ⟨⟨w, room⟩, hs⟩ := s
  dsimp only at hs
  refine ⟨overwritten_length (show base + w.length ≤ mem.length by omega), Nat.le_add_right _ _, by simp only [inMemory]; omega, fun i hi => ?_⟩
  simp only [inMemory] at hi ⊢
  rw [overwritten_getElem? (by omega)]
  split
  · rfl
  · rw [if_neg (by omega)]

theorem inMemory_start {mem : List UInt8} {base cap : Nat} : inMemory mem base ⟨[], cap⟩ = ⟨mem, base, cap⟩ := by simp [inMemory, overwritten]

/-- **C79** (sessions) Whatever a session does and however it ends, in every build: if the sink is a slice of `cap` bytes at position `base` of a larger memory, the
session changes nothing outside the slice, and within the slice nothing behind the place up to which it has written. -/
theorem C79_session [Checks] (F : FloatOps) (o : Options) (bt : BlockType) (fmt : Format) (calls : List Call) (ending : Ending) (mem : List UInt8) (base cap : Nat)
    (h : base + cap ≤ mem.length) (r : Except ErrKind Unit) (s' : MemSlice)
    (hs : session ⟨F, memSliceSink, o, bt⟩ fmt calls ending ⟨mem, base, cap⟩ = some (r, s')) : OnlyTheSlice mem base cap s' := by
  have h1 := (inMemory_hom (mem := mem) (base := base) (by omega)).session (F := F) (o := o) (bt := bt) fmt calls ending ⟨[], cap⟩
  have h2 := (sliceOf_hom cap).session (F := F) (o := o) (bt := bt) fmt calls ending ⟨⟨[], cap⟩, by simp⟩
  rw [inMemory_start, hs, h2] at h1
  cases hx : session ⟨F, sliceOfSink cap, o, bt⟩ fmt calls ending ⟨⟨[], cap⟩, by simp⟩ with
  | none => rw [hx] at h1; cases h1
  | some p =>
    rw [hx] at h1
    cases h1
    exact sliceOf_only h p.2

/-- **C79** (`compress`) The same for `compress` with any reader. -/
theorem C79_compress [Checks] (F : FloatOps) (o : Options) (fmt : Format) (R : Reader ρ) (rd : ρ) (mem : List UInt8) (base cap : Nat)
    (h : base + cap ≤ mem.length) (r : Except ErrKind Unit) (s' : MemSlice)
    (hs : compress F memSliceSink R o fmt rd ⟨mem, base, cap⟩ = some (r, s')) : OnlyTheSlice mem base cap s' := by
  have h1 := (inMemory_hom (mem := mem) (base := base) (by omega)).toWHom.compress (F := F) (o := o) R fmt rd ⟨[], cap⟩
  have h2 := (sliceOf_hom cap).toWHom.compress (F := F) (o := o) R fmt rd ⟨⟨[], cap⟩, by simp⟩
  rw [inMemory_start, hs, h2] at h1
  cases hx : compress F (sliceOfSink cap) R o fmt rd ⟨⟨[], cap⟩, by simp⟩ with
  | none => rw [hx] at h1; cases h1
  | some p =>
    rw [hx] at h1
    cases h1
    exact sliceOf_only h p.2

/-- **C79** (what is in the slice) For the calls of a session there is a stream that decodes to the data, and whatever the slice contained before: if the stream fits,
the session succeeds, the memory is as before except that the stream is at the place of the slice, and the slice has become what is left behind it; otherwise
the session fails with `WriteZero`, and the slice is full of the beginning of the stream. -/
theorem C79_contents (hlog : Log2Ok log2) (o : Options) (bt : BlockType) (fmt : Format) (calls : List Call) (hfit : Fits (writesOf calls)) :
    ∃ stream, decode fmt stream = some (writesOf calls).flatten ∧ ∀ (mem : List UInt8) (base cap : Nat), base + cap ≤ mem.length →
      session ⟨ieee log2, memSliceSink, o, bt⟩ fmt calls .finish ⟨mem, base, cap⟩ =
        if stream.length ≤ cap then
          some (.ok (), ⟨mem.take base ++ stream ++ mem.drop (base + stream.length), base + stream.length, cap - stream.length⟩)
        else some (.error .writeZero, ⟨mem.take base ++ stream.take cap ++ mem.drop (base + cap), base + cap, 0⟩) := by
  obtain ⟨stream, h1, h2⟩ := C33_slice_session hlog o bt fmt calls hfit
  refine ⟨stream, h1, fun mem base cap h => ?_⟩
  have h3 := (inMemory_hom (mem := mem) (base := base) (by omega)).session (F := ieee log2) (o := o) (bt := bt) fmt calls .finish ⟨[], cap⟩
  rw [inMemory_start, h2] at h3
  rw [h3]
  split
  · rfl
  · rename_i hc
    have : (stream.take cap).length = cap := by rw [List.length_take]; omega
    simp [onSnd, inMemory, overwritten, Nat.min_eq_left (Nat.le_of_not_le hc)]

/-- **C79** (`write_all`) The slice's own `write_all` does what the provided loop over `write` does. -/
theorem C79_write_all (s : MemSlice) (data : List UInt8) : memSliceSink.writeAll s data = memSliceWriteAll s data := by
  obtain ⟨mem, start, len⟩ := s
  unfold memSliceWriteAll
  rw [C79_write, Sink.writeAll]
  by_cases h0 : data = []
  · subst h0
    simp [overwritten]
  · have hl : 0 < data.length := List.length_pos_iff.2 h0
    rw [if_neg h0]
    simp only [memSliceSink, C79_write]
    rcases Nat.lt_or_ge 0 len with hp | hp
    · obtain ⟨n, hn⟩ : ∃ n, min data.length len = n + 1 := ⟨min data.length len - 1, by omega⟩
      rw [hn]
      dsimp only
      rw [if_pos (by omega), Sink.writeAll]
      by_cases hd : data.length ≤ len
      · rw [if_pos (by rw [List.drop_eq_nil_iff]; omega)]
        simp
        omega
      · rw [if_neg (by rw [List.drop_eq_nil_iff]; omega)]
        simp only [C79_write]
        have e : len - (n + 1) = 0 := by omega
        rw [e, Nat.min_zero]
        simp [overwritten]
        omega
    · have : len = 0 := by omega
      subst this
      simp
      omega

/-! ## Buffered encoders, and slice to slice -/

theorem memSlice_honest {mem : List UInt8} {base cap : Nat} (h : base + cap ≤ mem.length) : Honest memSliceSink (OnlyTheSlice mem base cap) (fun _ => 0) where
  write s buf hs := by
    obtain ⟨m, start, len⟩ := s
    obtain ⟨h1, h2, h3, h4⟩ := hs
    dsimp only at h1 h2 h3 h4
    simp only [memSliceSink, C79_write]
    have hl : (buf.take len).length = min buf.length len := by rw [List.length_take, Nat.min_comm]
    refine ⟨by rw [overwritten_length (by omega), h1], by dsimp only; omega, by dsimp only; omega, fun i hi => ?_⟩
    dsimp only at hi ⊢
    rw [overwritten_getElem? (by omega)]
    split
    · exact h4 i (by omega)
    · rw [if_neg (by omega)]
      exact h4 i (by omega)
  flush s hs := hs
  count s buf n _ e := by
    obtain ⟨m, start, len⟩ := s
    simp only [memSliceSink, C79_write] at e
    cases e
    exact Nat.min_le_left _ _
  interrupt s buf _ e := by
    obtain ⟨m, start, len⟩ := s
    simp only [memSliceSink, C79_write] at e
    cases e

/-- **C79** (buffered encoders) The same with an encoder made by `new_buffered`: the session comes to an end and changes nothing outside the slice and nothing
behind what it has written.  There is a stream that decodes to the data; if it fits, the session succeeds and the stream is at the place of the slice, and if it
does not, a session that ends with `finish` fails. -/
theorem C79_buffered (hlog : Log2Ok log2) (o : Options) (bt : BlockType) (fmt : Format) (calls : List Call) (hfit : Fits (writesOf calls)) :
    ∃ stream, decode fmt stream = some (writesOf calls).flatten ∧ ∀ (mem : List UInt8) (base cap : Nat), base + cap ≤ mem.length →
      (∀ ending, ∃ r s', bufferedSession ⟨ieee log2, memSliceSink, o, bt⟩ fmt calls ending ⟨mem, base, cap⟩ = some (r, s') ∧ OnlyTheSlice mem base cap s') ∧
      (stream.length ≤ cap → bufferedSession ⟨ieee log2, memSliceSink, o, bt⟩ fmt calls .finish ⟨mem, base, cap⟩ =
        some (.ok (), ⟨mem.take base ++ stream ++ mem.drop (base + stream.length), base + stream.length, cap - stream.length⟩)) ∧
      (cap < stream.length → ∃ k s', bufferedSession ⟨ieee log2, memSliceSink, o, bt⟩ fmt calls .finish ⟨mem, base, cap⟩ = some (.error k, s')) := by
  obtain ⟨stream, h1, h2⟩ := C79_contents hlog o bt fmt (coalesce MASTER_BLOCK_SIZE [] calls)
    (coalesce_fits MASTER_BLOCK_SIZE (by norm_num [MASTER_BLOCK_SIZE]) calls hfit)
  rw [coalesce_flatten, List.nil_append] at h1
  refine ⟨stream, h1, fun mem base cap h => ?_⟩
  have h2 := h2 mem base cap h
  have key : ∀ ending, ∃ r s', bufferedSession ⟨ieee log2, memSliceSink, o, bt⟩ fmt calls ending ⟨mem, base, cap⟩ = some (r, s') ∧ OnlyTheSlice mem base cap s' := by
    intro ending
    obtain ⟨⟨r, s'⟩, e1, e2⟩ := bufferedSession_total ⟨ieee log2, memSliceSink, o, bt⟩ (ieeeLaws hlog) (memSlice_honest h) fmt calls ending
      (s := ⟨mem, base, cap⟩) ⟨rfl, Nat.le_refl _, rfl, fun _ _ => rfl⟩ hfit
    exact ⟨r, s', e1, e2⟩
  refine ⟨key, fun hc => ?_, fun hc => ?_⟩
  · rw [if_pos hc] at h2
    exact bufferedSession_ok _ fmt calls .finish h2
  · rw [if_neg (by omega)] at h2
    obtain ⟨r, s', e1, -⟩ := key .finish
    rcases bufferedSession_cases _ fmt calls .finish e1 with e2 | ⟨-, -, k, -, -, -, e3 | ⟨e3, -⟩, -⟩
    · rw [h2] at e2
      cases e2
      exact ⟨_, _, e1⟩
    · subst e3
      exact ⟨_, _, e1⟩
    · cases e3

/-- **C79** (slice to slice) `compress` from a byte slice to a byte slice that is a part of a larger memory: it comes to an end and changes nothing outside the slice and
nothing behind what it has written; there is a stream that decodes to the data, `compress` succeeds if and only if it fits, and then it is at the place of the slice. -/
theorem C79_slice_to_slice (hlog : Log2Ok log2) (o : Options) (fmt : Format) (data : List UInt8) (hfit : data.length < 2 ^ 47) :
    ∃ stream, decode fmt stream = some data ∧ ∀ (mem : List UInt8) (base cap : Nat), base + cap ≤ mem.length →
      ∃ r s', compressFrom (ieee log2) memSliceSink sliceSource o fmt data ⟨mem, base, cap⟩ = some (r, s') ∧ OnlyTheSlice mem base cap s' ∧
        (r = .ok () ↔ stream.length ≤ cap) ∧
        (stream.length ≤ cap → s' = ⟨mem.take base ++ stream ++ mem.drop (base + stream.length), base + stream.length, cap - stream.length⟩) := by
  obtain ⟨fs, g1, g2, g3⟩ := compressFrom_eq sliceSource_supplies data hfit
  obtain ⟨stream, h1, h2⟩ := C79_buffered hlog o .dynamic fmt (fs.map .write) (by rw [writesOf_map]; exact g2)
  rw [writesOf_map, g1] at h1
  refine ⟨stream, h1, fun mem base cap h => ?_⟩
  obtain ⟨e1, e2, e3⟩ := h2 mem base cap h
  obtain ⟨r, s', e4, e5⟩ := e1 .finish
  rw [g3 releaseBuild]
  show ∃ r s', Option.map _ (bufferedSession _ fmt (fs.map .write) .finish _) = _ ∧ _
  rw [e4]
  refine ⟨_, s', rfl, e5, ?_⟩
  rcases Nat.lt_or_ge cap stream.length with hc | hc
  · obtain ⟨k, s2, e6⟩ := e3 hc
    rw [e4] at e6
    cases e6
    exact ⟨⟨(fun h => nomatch h), fun h => absurd h (by omega)⟩, fun h => absurd h (by omega)⟩
  · have e6 := e2 hc
    rw [e4] at e6
    cases e6
    exact ⟨⟨fun _ => hc, fun _ => rfl⟩, fun _ => rfl⟩

/-! ## Examples -/

/-- A slice in the middle of six bytes. -/
example : memSliceWrite ⟨[10, 11, 12, 13, 14, 15], 1, 3⟩ [1, 2] = some (2, ⟨[10, 1, 2, 13, 14, 15], 3, 1⟩) := by decide

/-- More than fits. -/
example : memSliceWriteAll ⟨[10, 11, 12, 13, 14, 15], 1, 3⟩ [1, 2, 3, 4] = some (.error .writeZero, ⟨[10, 1, 2, 3, 14, 15], 4, 0⟩) := by decide

example (o : Options) := C79_contents floorLog2_ok o .dynamic .gzip [.write [1, 2, 3], .flush] (by intro b hb; simp [writesOf] at hb; subst hb; norm_num)

/-- The hypotheses of `C79_session` are met: a session on a slice of seven bytes in the middle of ten. -/
example (o : Options) : ∃ r s', session ⟨ieee floorLog2, memSliceSink, o, .dynamic⟩ .deflate [.write [1, 2, 3]] .finish
    ⟨[9, 9, 9, 9, 9, 9, 9, 9, 9, 9], 2, 7⟩ = some (r, s') ∧ OnlyTheSlice [9, 9, 9, 9, 9, 9, 9, 9, 9, 9] 2 7 s' := by
  obtain ⟨stream, -, h⟩ := C79_contents floorLog2_ok o .dynamic .deflate [.write [1, 2, 3]] (by intro b hb; simp [writesOf] at hb; subst hb; norm_num)
  have h := h [9, 9, 9, 9, 9, 9, 9, 9, 9, 9] 2 7 (by decide)
  split at h
  · exact ⟨_, _, h, C79_session _ o _ _ _ _ _ _ _ (by decide) _ _ h⟩
  · exact ⟨_, _, h, C79_session _ o _ _ _ _ _ _ _ (by decide) _ _ h⟩


example (o : Options) (data : List UInt8) (h : data.length < 2 ^ 47) := C79_slice_to_slice floorLog2_ok o .zlib data h

end Zopfli
