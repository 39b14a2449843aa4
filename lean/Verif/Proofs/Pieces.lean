import Verif.Proofs.Sizes
import Verif.Proofs.SessionMain
/-! # The pieces of a chunk, and the chunks of a stream -/

namespace Zopfli
open Rfc

variable {F : FloatOps}

theorem Layout.append {s1 s2 s3 : Bits} {a b : List Piece} (h1 : Layout s1 a s2) (h2 : Layout s2 b s3) : Layout s1 (a ++ b) s3 := by
  induction h1 with
  | nil s => exact h2
  | cons e1 e2 _ ih => exact .cons e1 e2 (ih h2)

theorem Layout.one {s s1 : Bits} {p : Piece} (h : Reads s p.blocks s1) (h2 : s1.pos = s.pos + p.bits) : Layout s [p] s1 := .cons h h2 (.nil _)

theorem Layout.reads {s s' : Bits} {l : List Piece} (h : Layout s l s') : Reads s (l.flatMap (·.blocks)) s' := by
  induction h with
  | nil s => exact .nil s
  | cons e1 _ _ ih => rw [List.flatMap_cons]; exact e1.append ih

theorem Decodes.append : ∀ {a b : List Piece} {before : List UInt8}, Decodes before a → Decodes (before ++ (a.map (·.data)).flatten) b →
    Decodes before (a ++ b)
  | [], b, before, _, h2 => by simpa using h2
  | p :: a, b, before, h1, h2 => by
    refine ⟨h1.1, Decodes.append h1.2 ?_⟩
    rw [List.map_cons, List.flatten_cons, ← List.append_assoc] at h2
    exact h2

/-- The operations are pieces that describe the data from `a` to `b`. -/
def PiecesOf (Q : Piece → Prop) (data : Array UInt8) (a b : Nat) (final : Bool) (ops : List WOp) (n : Nat) : Prop :=
  ∀ pos, ∃ bits pieces, render pos ops = some bits ∧ (∀ rest, Layout ⟨bits ++ rest, pos⟩ pieces ⟨rest, pos + bits.length⟩) ∧
    pieces.length = n ∧ (pieces.map (·.data)).flatten = (data.extract a b).toList ∧
    (∀ H : List UInt8, Decodes (H ++ (data.extract 0 a).toList) pieces) ∧ FinalOk final (pieces.flatMap (·.blocks)) ∧ ∀ p ∈ pieces, Q p

theorem extract_toList_append {data : Array UInt8} {a b c : Nat} (h1 : a ≤ b) (h2 : b ≤ c) :
    (data.extract a b).toList ++ (data.extract b c).toList = (data.extract a c).toList := by
  rw [← Array.toList_append, Array.extract_append_extract, Nat.min_eq_left h1, Nat.max_eq_right h2]

theorem PiecesOf.append {Q : Piece → Prop} {data : Array UInt8} {a b c : Nat} {f : Bool} {o1 o2 : List WOp} {n1 n2 : Nat} (hab : a ≤ b) (hbc : b ≤ c)
    (h1 : PiecesOf Q data a b false o1 n1) (h2 : PiecesOf Q data b c f o2 n2) : PiecesOf Q data a c f (o1 ++ o2) (n1 + n2) := by
  intro pos
  obtain ⟨x, p1, e1, l1, c1, d1, k1, f1, q1⟩ := h1 pos
  obtain ⟨y, p2, e2, l2, c2, d2, k2, f2, q2⟩ := h2 (pos + x.length)
  refine ⟨x ++ y, p1 ++ p2, render_append e1 e2, fun rest => ?_, by simp [c1, c2], ?_, fun H => ?_, ?_, ?_⟩
  · have := (l1 (y ++ rest)).append (l2 rest)
    rw [List.append_assoc, List.length_append, ← Nat.add_assoc]
    exact this
  · rw [List.map_append, List.flatten_append, d1, d2, extract_toList_append hab hbc]
  · refine (k1 H).append ?_
    rw [d1, List.append_assoc, extract_toList_append (Nat.zero_le _) hab]
    exact k2 H
  · rw [List.flatMap_append]
    exact f1.append f2
  · intro p hp
    rw [List.mem_append] at hp
    exact hp.elim (q1 p) (q2 p)

theorem PiecesOf.one {Q : Piece → Prop} {data : Array UInt8} {a b : Nat} {f : Bool} {ops : List WOp} {blocks : List Block} (hab : a ≤ b)
    (h : Emits data a b f ops blocks) (hq : ∀ pos bits, render pos ops = some bits → Q ⟨(data.extract a b).toList, blocks, bits.length⟩) :
    PiecesOf Q data a b f ops 1 := by
  intro pos
  obtain ⟨bits, e, hr⟩ := h.read pos
  refine ⟨bits, [⟨(data.extract a b).toList, blocks, bits.length⟩], e, fun rest => .one (hr rest) rfl, rfl, by simp, fun H => ⟨?_, trivial⟩, ?_, ?_⟩
  · have := h.exp H.toArray
    rw [List.append_assoc, extract_toList_append (Nat.zero_le _) hab]
    rw [← List.append_toArray, ← List.append_toArray, Array.toArray_toList, Array.toArray_toList]
    exact this
  · simpa using h.fin
  · intro p hp
    rw [List.mem_singleton] at hp
    rw [hp]
    exact hq pos bits e

/-- A piece is one compressed block or stored, and not larger than stored (within two bits). -/
structure Piece.Small (p : Piece) : Prop where
  uniform : p.Uniform
  bits : p.data.length < 2 ^ 28 → p.bits ≤ if p.data = [] then 10 else storedBits p.data.length + 2

theorem bytePos_lt {data : Array UInt8} {start stop : Nat} {s : Lz77Store} (h : StoreOk data start stop s) {k l : Nat} (hkl : k < l) (hl : l ≤ s.size) :
    bytePos start s k < bytePos start s l := by
  have hr := h.rangeOk (Nat.le_of_lt hkl) hl
  have h1 := hr.parses.stop
  have hlen : 0 < ((s.litlens.toList.take l).drop k).length := by
    have : s.size = s.litlens.size := rfl
    simp; omega
  obtain ⟨x, xs, e⟩ := List.exists_cons_of_length_pos hlen
  have hx : x.InRange := h.inv.range x (List.mem_of_mem_take (List.mem_of_mem_drop (by rw [e]; simp)))
  rw [e, List.map_cons, List.sum_cons] at h1
  have : 1 ≤ x.size := by
    cases x with
    | literal _ => exact Nat.le_refl _
    | lengthDist len dist => have := hx.1; simp only [LitLen.size]; omega
  omega

theorem bytePos_le {data : Array UInt8} {start stop : Nat} {s : Lz77Store} (h : StoreOk data start stop s) {k : Nat} (hk : k ≤ s.size) :
    bytePos start s k ≤ stop := by
  have h1 := h.rangeOk hk (Nat.le_refl _)
  have h2 := h1.parses.le
  rw [h.bytePos_size] at h2
  exact h2

/-- One automatically typed block is one piece. -/
theorem autoType_piece (L : FloatLaws F) (X : FloatExact F) {data : Array UInt8} {start stop : Nat} {s : Lz77Store} (h : StoreOk data start stop s)
    (hstop : stop ≤ data.size) {k l : Nat} (hkl : k ≤ l) (hl : l ≤ s.size) (final : Bool) {ne : Prop} (hne : ne → k < l) :
    Ret (addLz77BlockAutoType F final data s k l) fun ops =>
      PiecesOf (fun p => p.Small ∧ (ne → p.data ≠ [])) data (bytePos start s k) (bytePos start s l) final ops 1 := by
  refine Ret.mono (autoType_ok L X h hstop hkl hl final) ?_
  rintro ops ⟨blocks, ho⟩
  have hle := (h.rangeOk hkl hl).parses.le
  have hle2 := bytePos_le h hl
  have hlen : (data.extract (bytePos start s k) (bytePos start s l)).toList.length = bytePos start s l - bytePos start s k := by
    simp; omega
  refine PiecesOf.one hle ho.emits fun pos bits hb => ⟨⟨ho.uniform _, ?_⟩, ?_⟩
  · dsimp only
    intro hsz
    rw [hlen] at hsz ⊢
    rcases Nat.eq_or_lt_of_le hkl with rfl | hlt
    · rw [ho.empty rfl] at hb
      cases render_bitOps_eq hb
      rw [if_pos (by simp)]
      simp
    · have h1 := bytePos_lt h hlt hl
      rw [if_neg (List.length_pos_iff.mp (by omega))]
      exact ho.stored hsz hlt pos bits hb
  · intro hh
    have h1 := bytePos_lt h (hne hh) hl
    dsimp only
    rw [← List.length_pos_iff]
    omega

theorem addSplitBlocks_pieces (L : FloatLaws F) (X : FloatExact F) {data : Array UInt8} {start stop : Nat} {s : Lz77Store} (h : StoreOk data start stop s)
    (hstop : stop ≤ data.size) {ne : Prop} : ∀ (sp : List Nat) (last : Nat), sp.Pairwise (· < ·) → (∀ x ∈ sp, last < x ∧ x < s.size) → last ≤ s.size →
    (ne → last < s.size) →
    Ret (addSplitBlocks F s data sp last) fun r =>
      PiecesOf (fun p => p.Small ∧ (ne → p.data ≠ [])) data (bytePos start s last) (bytePos start s r.2) false r.1 sp.length ∧
      last ≤ r.2 ∧ r.2 ≤ s.size ∧ (ne → r.2 < s.size)
  | [], last, _, _, hl, hn => by
    refine ⟨_, rfl, ?_, Nat.le_refl _, hl, hn⟩
    intro pos
    exact ⟨[], [], rfl, fun rest => .nil _, rfl, by simp, fun H => trivial, by simp [FinalOk], by simp⟩
  | item :: rest, last, h1, h2, hl, hn => by
    have hi := h2 item (by simp)
    rw [List.pairwise_cons] at h1
    rw [addSplitBlocks]
    refine Ret.bind' (autoType_piece L X h hstop (Nat.le_of_lt hi.1) (Nat.le_of_lt hi.2) false (ne := ne) fun _ => hi.1) ?_
    rintro ops g1
    refine Ret.bind' (addSplitBlocks_pieces L X h hstop (ne := ne) rest item h1.2 (fun x hx => ⟨h1.1 x hx, (h2 x (by simp [hx])).2⟩) (Nat.le_of_lt hi.2)
      fun _ => hi.2) ?_
    rintro ⟨ops', last'⟩ ⟨g2, g3, g4, g5⟩
    dsimp only at g2 g3 g4 g5
    refine ⟨_, rfl, ?_, by simp only; omega, g4, g5⟩
    rw [List.length_cons, Nat.add_comm]
    exact g1.append (h.rangeOk (Nat.le_of_lt hi.1) (Nat.le_of_lt hi.2)).parses.le (h.rangeOk g3 g4).parses.le g2

theorem addAllBlocks_pieces (L : FloatLaws F) (X : FloatExact F) {data : Array UInt8} {start stop : Nat} {s : Lz77Store} (h : StoreOk data start stop s)
    (hstop : stop ≤ data.size) {sp : List Nat} (hsp : SplitOk s.size sp) (final : Bool) :
    Ret (addAllBlocks F sp s final data) fun ops =>
      PiecesOf (fun p => p.Small ∧ (start < stop → p.data ≠ [])) data start stop final ops (sp.length + 1) := by
  unfold addAllBlocks
  refine Ret.bind' (addSplitBlocks_pieces L X h hstop (ne := start < stop) sp 0 hsp.1 hsp.2 (Nat.zero_le _) h.size_pos) ?_
  rintro ⟨ops, last⟩ ⟨g1, -, g3, g4⟩
  dsimp only at g1 g3 g4 ⊢
  refine Ret.bind' (autoType_piece L X h hstop g3 (Nat.le_refl _) final g4) ?_
  rintro ops2 g2
  rw [bytePos_zero] at g1
  rw [h.bytePos_size] at g2
  have hle := bytePos_le h g3
  have hle2 : start ≤ bytePos start s last := by unfold bytePos; omega
  exact ⟨_, rfl, g1.append hle2 hle g2⟩

/-! ## What is known of each chunk, by mode -/

/-- A predicate on a chunk, the bytes before it and its pieces, that the mode guarantees. -/
def Guarantees (F : FloatOps) (lim : Nat) (o : Options) (bt : BlockType) (Q : List UInt8 → List UInt8 → List Piece → Prop) : Prop :=
  ∀ (data : Array UInt8) (instart inend : Nat) (final : Bool), instart ≤ inend → inend ≤ data.size → data.size < 2 * lim →
    Ret (deflatePart F o bt final data instart inend) fun ops => ∀ pos, ∃ bits pieces, render pos ops = some bits ∧
      (∀ rest, Layout ⟨bits ++ rest, pos⟩ pieces ⟨rest, pos + bits.length⟩) ∧ FinalOk final (pieces.flatMap (·.blocks)) ∧
      ∀ H : List UInt8, (H ≠ [] → 32768 ≤ instart) → Q (H ++ (data.extract 0 instart).toList) (data.extract instart inend).toList pieces

/-- Dynamic mode: the chunk is partitioned into small pieces. -/
theorem dynamic_guarantees (L : FloatLaws F) (X : FloatExact F) (o : Options) :
    Guarantees F L.lim o .dynamic fun before chunk pieces => Partition o.maximumBlockSplits before chunk pieces ∧ ∀ p ∈ pieces, p.Small := by
  intro data instart inend final h1 h2 hsz
  unfold deflatePart blocksplitAttempt
  dsimp only
  refine Ret.bind' (blocksplitPlan_spec L o h1 h2 hsz) ?_
  rintro ⟨s, sp⟩ ⟨g1, g2, g3⟩
  refine Ret.mono (addAllBlocks_pieces L X g1 h2 g2 final) ?_
  intro ops ho pos
  obtain ⟨bits, pieces, k1, k2, k3, k4, k5, k6, k7⟩ := ho pos
  dsimp only at g3
  refine ⟨bits, pieces, k1, k2, k6, fun H _ => ⟨⟨k4, k5 H, ?_, by rw [k3]; omega, by rw [k3]; exact g3, fun p hp => (k7 p hp).1.uniform⟩, fun p hp => (k7 p hp).1⟩⟩
  intro hne p hp
  refine (k7 p hp).2 ?_
  rw [← List.length_pos_iff] at hne
  simp at hne
  omega

/-- Fixed mode: the chunk is one block with the fixed codes. -/
theorem fixed_guarantees (L : FloatLaws F) (o : Options) :
    Guarantees F L.lim o .fixed fun before chunk pieces => ∃ p syms f, pieces = [p] ∧ p.data = chunk ∧ p.blocks = [⟨f, .fixed syms⟩] ∧
      Decodes before pieces := by
  intro data instart inend final h1 h2 hsz
  unfold deflatePart
  dsimp only
  rw [usub_eq h1, some_bind]
  refine Ret.bind' (lz77OptimalFixed_new L h1 h2) ?_
  rintro ⟨s, lmc⟩ hs
  dsimp only at hs ⊢
  have hr := hs.rangeOk (Nat.zero_le _) (Nat.le_refl s.size)
  rw [bytePos_zero, hs.bytePos_size] at hr
  obtain ⟨bits, e, -, he⟩ := addLz77Block_fixed hr final
  refine ⟨_, e, fun pos => ?_⟩
  obtain ⟨bits', pieces, k1, k2, k3, k4, k5, k6, k7⟩ := PiecesOf.one (Q := fun p => p.data = (data.extract instart inend).toList ∧
    ∃ syms f, p.blocks = [⟨f, .fixed syms⟩]) h1 he (fun pos bits hb => ⟨rfl, _, _, rfl⟩) pos
  obtain ⟨p, rfl⟩ := List.length_eq_one_iff.mp k3
  obtain ⟨q1, syms, f, q2⟩ := k7 p (by simp)
  exact ⟨bits', [p], k1, k2, k6, fun H _ => ⟨p, syms, f, rfl, q1, q2, k5 H⟩⟩

/-! ## Sessions -/

theorem EachChunk.push {P : List UInt8 → List UInt8 → List Piece → Prop} : ∀ {chunks : List (List UInt8)} {groups : List (List Piece)} {before chunk : List UInt8}
    {g : List Piece}, EachChunk P before chunks groups → P (before ++ chunks.flatten) chunk g → EachChunk P before (chunks ++ [chunk]) (groups ++ [g])
  | [], [], before, chunk, g, _, h => ⟨by simpa using h, trivial⟩
  | [], _ :: _, _, _, _, h, _ => h.elim
  | _ :: _, [], _, _, _, h, _ => h.elim
  | w :: ws, g :: gs, before, chunk, g', h, h' => by
    refine ⟨h.1, EachChunk.push h.2 ?_⟩
    rw [List.flatten_cons, ← List.append_assoc] at h'
    exact h'

/-- What has been written so far, chunk by chunk. -/
structure WrittenP (P : List UInt8 → List UInt8 → List Piece → Prop) (acc : UInt8 × UInt8) (out : List UInt8) (chunks : List (List UInt8))
    (groups : List (List Piece)) (final : Bool) (pb : List Bool) : Prop where
  pend : Pend acc pb
  layout : ∀ rest, Layout ⟨(bytesBits out ++ pb) ++ rest, 0⟩ groups.flatten ⟨rest, (bytesBits out ++ pb).length⟩
  each : EachChunk P [] chunks groups
  fin : FinalOk final (groups.flatten.flatMap (·.blocks))

structure PInv (P : List UInt8 → List UInt8 → List Piece → Prop) (c : DCore) (done : List (List UInt8)) (chunk out : List UInt8) : Prop where
  noChunk : c.haveChunk = false → chunk = [] ∧ done = []
  wac : c.wac.toList = lastN 32768 done.flatten ++ chunk
  start : c.chunkStart = (lastN 32768 done.flatten).length
  written : ∃ groups pb, WrittenP P c.acc out done groups false pb

variable {P : List UInt8 → List UInt8 → List Piece → Prop}

theorem PInv.new : PInv P DCore.new [] [] [] :=
  ⟨fun _ => ⟨rfl, rfl⟩, rfl, rfl, [], [], ⟨Pend.zero, fun rest => .nil _, trivial, by simp [FinalOk]⟩⟩

theorem PInv.emit {o : Options} {bt : BlockType} {lim : Nat} (hlim : 2 ^ 21 ≤ lim) (G : Guarantees F lim o bt P) {c : DCore} {done : List (List UInt8)} {chunk out : List UInt8}
    (h : PInv P c done chunk out) (hsz : chunk.length < lim) (last : Bool) :
    Ret (c.emit F o bt last) fun r => ∃ groups pb, WrittenP P r.2 (out ++ r.1.flatten) (done ++ [chunk]) groups last pb := by
  have hsize : c.wac.size = (lastN 32768 done.flatten).length + chunk.length := by
    rw [← Array.length_toList, h.wac, List.length_append]
  have hl : (lastN 32768 done.flatten).length ≤ 32768 := by rw [lastN_length]; omega
  unfold DCore.emit
  refine Ret.bind' (G c.wac c.chunkStart c.wac.size last (by rw [h.start]; omega) (Nat.le_refl _) (by omega)) ?_
  rintro ops he
  obtain ⟨groups, pb, hw⟩ := h.written
  obtain ⟨bits, pieces, hr, hrd, hfin, hq⟩ := he (bytesBits out ++ pb).length
  obtain ⟨pb', hp1, hp2⟩ := pall_bits ops c.acc pb (bytesBits out ++ pb).length bits hw.pend (by
    rw [List.length_append, bytesBits_length]
    have := hw.pend.lt
    omega) hr
  refine ⟨_, rfl, groups ++ [pieces], pb', ⟨hp1, ?_, ?_, ?_⟩⟩
  · intro rest
    have e : bytesBits (out ++ (pall c.acc ops).1.flatten) ++ pb' = (bytesBits out ++ pb) ++ bits := by
      rw [bytesBits_append, List.append_assoc, hp2, List.append_assoc]
    rw [e, List.append_assoc, List.length_append, List.flatten_append, List.flatten_singleton]
    exact (hw.layout (bits ++ rest)).append (hrd rest)
  · refine hw.each.push ?_
    have hH := hq (done.flatten.take (done.flatten.length - 32768)) (by
      intro hne
      rw [h.start, lastN_length]
      have : done.flatten.length - 32768 ≠ 0 := fun h0 => hne (by rw [h0, List.take_zero])
      omega)
    have e1 : (c.wac.extract 0 c.chunkStart).toList = lastN 32768 done.flatten := by
      rw [Array.toList_extract, h.wac, h.start, List.extract_eq_take_drop, List.drop_zero, Nat.sub_zero, List.take_left]
    have e2 : (c.wac.extract c.chunkStart c.wac.size).toList = chunk := by
      rw [Array.toList_extract, h.wac, h.start, List.extract_eq_take_drop, List.drop_left, List.take_of_length_le (by omega)]
    rw [e1, e2, take_lastN] at hH
    rw [List.nil_append]
    exact hH
  · rw [List.flatten_append, List.flatten_singleton, List.flatMap_append]
    exact hw.fin.append hfin

theorem PInv.write {o : Options} {bt : BlockType} {lim : Nat} (hlim : 2 ^ 21 ≤ lim) (G : Guarantees F lim o bt P) {c : DCore} {done : List (List UInt8)} {chunk out : List UInt8}
    (h : PInv P c done chunk out) (hsz : chunk.length < lim) (buf : List UInt8) :
    Ret (c.write F o bt buf) fun r => PInv P r.2 (if c.haveChunk then done ++ [chunk] else []) buf (out ++ r.1.flatten) ∧ r.2.haveChunk = true := by
  have key : ∀ (acc : UInt8 × UInt8) (done' : List (List UInt8)) (out' : List UInt8), done'.flatten = done.flatten ++ chunk →
      (∃ groups pb, WrittenP P acc out' done' groups false pb) → PInv P ({ c with acc := acc }.setChunk buf) done' buf out' := by
    intro acc done' out' hd hw
    have hwin : (c.wac.extract (c.wac.size - WINDOW_SIZE) c.wac.size).toList = lastN 32768 done'.flatten := by
      rw [hd, ← lastN_lastN, ← h.wac, Array.toList_extract, List.extract_eq_take_drop, List.take_of_length_le (by simp)]
      unfold lastN
      rw [Array.length_toList]
    refine ⟨fun h => ?_, ?_, ?_, hw⟩
    · exact absurd (show true = false from h) (by simp)
    · rw [← hwin]
      simp only [DCore.setChunk, Array.toList_append]
    · rw [← hwin, Array.length_toList]
      simp only [DCore.setChunk]
  unfold DCore.write
  by_cases hb : c.haveChunk = true
  · rw [if_pos hb, if_pos hb]
    refine Ret.bind' (h.emit hlim G hsz false) ?_
    rintro ⟨cs, acc⟩ hw
    exact ⟨_, rfl, key acc _ _ (by simp) hw, rfl⟩
  · rw [if_neg hb, if_neg hb, some_bind]
    obtain ⟨h1, h2⟩ := h.noChunk (by simpa using hb)
    subst h1 h2
    refine ⟨_, rfl, key c.acc _ _ rfl ?_, rfl⟩
    dsimp only
    rw [List.flatten_nil, List.append_nil]
    exact h.written

theorem chunksOfWrites_ne {l : List (List UInt8)} (h : l ≠ []) : chunksOfWrites l = l := by cases l <;> [exact absurd rfl h; rfl]

theorem coreWrites_pieces {o : Options} {bt : BlockType} {lim : Nat} (hlim : 2 ^ 21 ≤ lim) (G : Guarantees F lim o bt P) : ∀ (writes : List (List UInt8)) {c : DCore} {done : List (List UInt8)}
    {chunk out : List UInt8}, PInv P c done chunk out → chunk.length < lim → (∀ w ∈ writes, w.length < lim) →
    Ret (coreWrites F o bt c writes) fun r => ∃ done' chunk', PInv P r.2 done' chunk' (out ++ r.1.flatten) ∧
      done' ++ [chunk'] = chunksOfWrites ((if c.haveChunk then done ++ [chunk] else []) ++ writes) ∧ chunk'.length < lim
  | [], c, done, chunk, out, h, hc, _ => by
    rw [coreWrites]
    refine ⟨_, rfl, done, chunk, ?_, ?_, hc⟩
    · rw [List.flatten_nil, List.append_nil]
      exact h
    · rw [List.append_nil]
      by_cases hb : c.haveChunk = true
      · rw [if_pos hb, chunksOfWrites_ne (by simp)]
      · rw [if_neg hb]
        obtain ⟨h1, h2⟩ := h.noChunk (by simpa using hb)
        rw [h1, h2]
        rfl
  | buf :: l, c, done, chunk, out, h, hc, hw => by
    rw [coreWrites]
    refine Ret.bind' (h.write hlim G hc buf) ?_
    rintro ⟨cs, c'⟩ ⟨h', hb'⟩
    dsimp only at h' hb'
    refine Ret.bind' (coreWrites_pieces hlim G l h' (hw buf (by simp)) fun w hw' => hw w (by simp [hw'])) ?_
    rintro ⟨cs', c2⟩ ⟨done', chunk', hv, he, hlt⟩
    refine ⟨_, rfl, done', chunk', ?_, ?_, hlt⟩
    · rw [List.flatten_append, ← List.append_assoc]
      exact hv
    · rw [he, if_pos hb', List.append_assoc]
      rfl

/-- The stream of a session, chunk by chunk. -/
theorem streamOf_pieces {o : Options} {bt : BlockType} {lim : Nat} (hlim : 2 ^ 21 ≤ lim) (G : Guarantees F lim o bt P) (fmt : Format) (writes : List (List UInt8))
    (hw : ∀ w ∈ writes, w.length < lim) :
    ∃ stream body groups bits pad, StreamOf F o bt fmt writes stream ∧ stream = header fmt ++ body ++ (trailer fmt writes.flatten).flatten ∧
      bytesBits body = bits ++ List.replicate pad false ∧ pad < 8 ∧
      Layout ⟨bytesBits body, 0⟩ groups.flatten ⟨List.replicate pad false, bits.length⟩ ∧
      parse body = some (groups.flatten.flatMap (·.blocks), []) ∧
      EachChunk P [] (chunksOfWrites writes) groups := by
  obtain ⟨⟨cs, c⟩, e1, done, chunk, h1, h2, h3⟩ := coreWrites_pieces hlim G writes PInv.new (by simp; omega) hw
  dsimp only at h1
  have h2 : done ++ [chunk] = chunksOfWrites writes := h2
  obtain ⟨⟨cs', acc⟩, e2, groups, pb, hw⟩ := h1.emit hlim G h3 true
  dsimp only at hw
  obtain ⟨pb', hp1, hp2⟩ := pall_bits [.align] acc pb pb.length (List.replicate (padLen pb.length) false) hw.pend (by
    have := hw.pend.lt; omega) (by simp [render])
  have hlen := congrArg List.length hp2
  rw [List.length_append, bytesBits_length, List.length_append, List.length_replicate] at hlen
  have hmod := padLen_mod pb.length
  have hlt := hp1.lt
  have hpb' : pb' = [] := by rw [← List.length_eq_zero_iff]; omega
  subst hpb'
  rw [List.append_nil] at hp2
  have hpall : (pall acc [.align]).1 = (pstep acc .align).1 := by
    show (pstep acc .align).1 ++ [] = _
    rw [List.append_nil]
  rw [hpall] at hp2
  have hbits : bytesBits (cs.flatten ++ (cs' ++ (pstep acc .align).1).flatten) =
      (bytesBits ([] ++ cs.flatten ++ cs'.flatten) ++ pb) ++ List.replicate (padLen pb.length) false := by
    rw [List.flatten_append, ← List.append_assoc, bytesBits_append, hp2, ← List.append_assoc, List.nil_append]
  have hlay := hw.layout (List.replicate (padLen pb.length) false)
  refine ⟨_, cs.flatten ++ (cs' ++ (pstep acc .align).1).flatten, groups, _, padLen pb.length, ⟨cs, c, cs' ++ (pstep acc .align).1, e1, ?_, rfl⟩, ?_, hbits, padLen_lt _, ?_, ?_, ?_⟩
  · unfold DCore.finish
    rw [e2, some_bind]
    rfl
  · simp [List.append_assoc]
  · rw [hbits]
    exact hlay
  · have hl2 := congrArg List.length hbits
    rw [bytesBits_length, List.length_append (bs := List.replicate _ _), List.length_replicate] at hl2
    have hp := padLen_lt pb.length
    unfold Rfc.parse
    rw [hbits, readBlocks_of hlay.reads hw.fin, some_bind]
    show some (_, _) = _
    rw [List.drop_eq_nil_of_le (by dsimp only; omega)]
  · rw [← h2]
    exact hw.each

end Zopfli
