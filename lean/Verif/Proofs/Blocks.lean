import Verif.Proofs.Emit
import Verif.Spec.Layout
/-! # Every emitted block is a valid DEFLATE block for its data -/

namespace Zopfli
open Rfc

variable {F : FloatOps}

theorem Reads.append {s1 s2 s3 : Bits} {a b : List Block} (h1 : Reads s1 a s2) (h2 : Reads s2 b s3) : Reads s1 (a ++ b) s3 := by
  induction h1 with
  | nil s => exact h2
  | cons e _ ih => exact .cons e (ih h2)

theorem Reads.one {s s1 : Bits} {b : Block} (h : readBlock s = some (b, s1)) : Reads s [b] s1 := .cons h (.nil _)

/-- The final flag is on the last block only (`final`), or nowhere. -/
def FinalOk : Bool → List Block → Prop
  | true, blocks => ∃ init last, blocks = init ++ [last] ∧ last.final = true ∧ ∀ b ∈ init, b.final = false
  | false, blocks => ∀ b ∈ blocks, b.final = false

theorem FinalOk.append {f : Bool} {a b : List Block} (h1 : FinalOk false a) (h2 : FinalOk f b) : FinalOk f (a ++ b) := by
  cases f with
  | false =>
    intro x hx
    rw [List.mem_append] at hx
    exact hx.elim (h1 x) (h2 x)
  | true =>
    obtain ⟨init, last, rfl, h3, h4⟩ := h2
    refine ⟨a ++ init, last, by simp, h3, fun x hx => ?_⟩
    rw [List.mem_append] at hx
    exact hx.elim (h1 x) (h4 x)

theorem FinalOk.one (f : Bool) (body : Body) : FinalOk f [⟨f, body⟩] := by
  cases f with
  | false => intro x hx; simp at hx; rw [hx]
  | true => exact ⟨[], _, rfl, rfl, by simp⟩

theorem readBlocks_of {s s' : Bits} : ∀ {blocks : List Block}, Reads s blocks s' → FinalOk true blocks → readBlocks s = some (blocks, s') := by
  intro blocks h
  induction h with
  | nil s =>
    rintro ⟨init, last, e, -⟩
    simp at e
  | @cons s s1 s2 b l e hr ih =>
    rintro ⟨init, last, e2, hl, hi⟩
    rw [readBlocks.eq_1, e, some_bind]
    dsimp only
    cases init with
    | nil =>
      simp at e2
      obtain ⟨rfl, rfl⟩ := e2
      cases hr
      rw [if_pos hl]
      rfl
    | cons x init =>
      rw [List.cons_append, List.cons.injEq] at e2
      obtain ⟨rfl, rfl⟩ := e2
      rw [if_neg (by rw [hi b (by simp)]; simp), ih ⟨init, last, rfl, hl, fun y hy => hi y (by simp [hy])⟩]
      rfl

theorem expand_append : ∀ (a b : List Block) (out : Array UInt8), expand out (a ++ b) = (expand out a).bind fun o => expand o b
  | [], b, out => rfl
  | x :: a, b, out => by
    rw [List.cons_append, expand, expand]
    cases expandBlock out x with
    | none => rfl
    | some o => rw [some_bind, some_bind, expand_append a b o]

/-- The symbols of a block. -/
def blockSyms (b : Block) : List Sym :=
  match b.body with
  | .stored _ => []
  | .fixed l => l
  | .dynamic _ l => l

/-- Every back-reference is in range. -/
def GoodRefs (b : Block) : Prop := ∀ len dist, Sym.copy len dist ∈ blockSyms b → 3 ≤ len ∧ len ≤ 258 ∧ 1 ≤ dist ∧ dist ≤ 32767

/-- The operations are blocks that describe the data from `a` to `b`. -/
structure Emits (data : Array UInt8) (a b : Nat) (final : Bool) (ops : List WOp) (blocks : List Block) : Prop where
  read : ∀ pos, ∃ bits, render pos ops = some bits ∧ ∀ rest, Reads ⟨bits ++ rest, pos⟩ blocks ⟨rest, pos + bits.length⟩
  exp : ∀ H : Array UInt8, expand (H ++ data.extract 0 a) blocks = some (H ++ data.extract 0 b)
  fin : FinalOk final blocks
  refs : ∀ blk ∈ blocks, GoodRefs blk

theorem Emits.append {data : Array UInt8} {a b c : Nat} {f : Bool} {o1 o2 : List WOp} {b1 b2 : List Block}
    (h1 : Emits data a b false o1 b1) (h2 : Emits data b c f o2 b2) : Emits data a c f (o1 ++ o2) (b1 ++ b2) where
  read := by
    intro pos
    obtain ⟨x, e1, r1⟩ := h1.read pos
    obtain ⟨y, e2, r2⟩ := h2.read (pos + x.length)
    refine ⟨x ++ y, render_append e1 e2, fun rest => ?_⟩
    have := (r1 (y ++ rest)).append (r2 rest)
    rw [List.append_assoc, List.length_append, ← Nat.add_assoc]
    exact this
  exp := by
    intro H
    rw [expand_append, h1.exp H]
    exact h2.exp H
  fin := h1.fin.append h2.fin
  refs := by
    intro x hx
    rw [List.mem_append] at hx
    exact hx.elim (h1.refs x) (h2.refs x)

/-! ## Stored blocks -/

theorem flagLast_fst {α : Type} : ∀ (l : List α), (flagLast l).map Prod.fst = l
  | [] => rfl
  | [_] => rfl
  | x :: y :: l => by rw [flagLast, List.map_cons, flagLast_fst (y :: l)]

theorem flagLast_length {α : Type} (l : List α) : (flagLast l).length = l.length := by
  have := congrArg List.length (flagLast_fst l)
  rwa [List.length_map] at this

theorem flagLast_snd {α : Type} : ∀ (l : List α), l ≠ [] → ∃ init last, flagLast l = init ++ [(last, true)] ∧ ∀ x ∈ init, x.2 = false
  | [x], _ => ⟨[], x, rfl, by simp⟩
  | x :: y :: l, _ => by
    obtain ⟨init, last, e, h⟩ := flagLast_snd (y :: l) (by simp)
    refine ⟨(x, false) :: init, last, by rw [flagLast, e]; rfl, ?_⟩
    intro z hz
    rw [List.mem_cons] at hz
    rcases hz with rfl | hz
    · rfl
    · exact h z hz

theorem chunksOf_nil {α : Type} (n : Nat) : chunksOf n ([] : List α) = [] := by rw [chunksOf, dif_pos (.inl rfl)]

theorem chunksOf_cons {α : Type} {n : Nat} (hn : 0 < n) {l : List α} (h : l ≠ []) : chunksOf n l = l.take n :: chunksOf n (l.drop n) := by
  rw [chunksOf, dif_neg (by rintro (h' | h'); exacts [h h', by omega])]

theorem chunksOf_spec {α : Type} {n : Nat} (hn : 0 < n) (l : List α) :
    (chunksOf n l).flatten = l ∧ (∀ c ∈ chunksOf n l, c.length ≤ n ∧ c ≠ []) ∧ (chunksOf n l).length = (l.length + n - 1) / n := by
  generalize hk : l.length = k
  induction k using Nat.strongRecOn generalizing l with
  | ind k ih =>
    by_cases hl : l = []
    · subst hl
      rw [chunksOf_nil]
      refine ⟨rfl, by simp, ?_⟩
      rw [← hk, List.length_nil, List.length_nil, Nat.zero_add, Nat.div_eq_of_lt (by omega)]
    · have hpos : 0 < l.length := List.length_pos_iff.mpr hl
      rw [chunksOf_cons hn hl]
      obtain ⟨h1, h2, h3⟩ := ih (l.length - n) (by omega) (l.drop n) (by simp)
      refine ⟨by rw [List.flatten_cons, h1, List.take_append_drop], ?_, ?_⟩
      · intro c hc
        rw [List.mem_cons] at hc
        rcases hc with rfl | hc
        · refine ⟨by simp, ?_⟩
          rw [← List.length_pos_iff, List.length_take]
          omega
        · exact h2 c hc
      · rw [List.length_cons, h3, ← hk]
        by_cases hle : l.length ≤ n
        · rw [show l.length - n + n - 1 = n - 1 by omega, Nat.div_eq_of_lt (by omega)]
          rw [show l.length + n - 1 = (l.length - 1) + n by omega, Nat.add_div_right _ hn, Nat.div_eq_of_lt (by omega)]
        · rw [show l.length + n - 1 = (l.length - n + n - 1) + n by omega, Nat.add_div_right _ hn]

/-- The stored blocks for a list of flagged chunks. -/
def storedBlocks (final : Bool) (items : List (List UInt8 × Bool)) : List Block := items.map fun (c, f) => ⟨final && f, .stored c⟩

theorem stored_read (final : Bool) : ∀ (items : List (List UInt8 × Bool)), (∀ x ∈ items, x.1.length ≤ 65535) → ∀ pos,
    ∃ bits, render pos (items.map fun (chunk, isFinal) => storedBlock (final && isFinal) chunk).flatten = some bits ∧
      ∀ rest, Reads ⟨bits ++ rest, pos⟩ (storedBlocks final items) ⟨rest, pos + bits.length⟩
  | [], _, pos => ⟨[], rfl, fun rest => .nil _⟩
  | (c, f) :: items, h, pos => by
    have e1 := render_storedBlock (final && f) c pos
    have r1 := fun rest => readBlock_stored (final := final && f) (h (c, f) (by simp)) rest pos
    generalize [final && f, false, false] ++ List.replicate (padLen (pos + 3)) false ++
      bitsLsb c.length 16 ++ bitsLsb (2 ^ 64 - 1 - c.length) 16 ++ bytesBits c = x at *
    obtain ⟨y, e2, r2⟩ := stored_read final items (fun z hz => h z (by simp [hz])) (pos + x.length)
    refine ⟨x ++ y, ?_, fun rest => ?_⟩
    · rw [List.map_cons, List.flatten_cons]
      exact render_append e1 e2
    · have := Reads.cons (r1 (y ++ rest)) (r2 rest)
      rw [List.append_assoc, List.length_append, ← Nat.add_assoc]
      exact this

theorem stored_expand (final : Bool) : ∀ (items : List (List UInt8 × Bool)) (out : Array UInt8),
    expand out (storedBlocks final items) = some (out ++ (items.map Prod.fst).flatten.toArray)
  | [], out => by simp [storedBlocks, expand]
  | (c, f) :: items, out => by
    show expand (out ++ c.toArray) (storedBlocks final items) = _
    rw [stored_expand final items]
    simp

/-- The chunks of a stored part, with their flags. -/
def storedItems (final : Bool) (bytes : List UInt8) : List (List UInt8 × Bool) :=
  if final ∧ bytes = [] then [([], true)] else flagLast (chunksOf 65535 bytes)

theorem storedItems_fst (final : Bool) (bytes : List UInt8) : ((storedItems final bytes).map Prod.fst).flatten = bytes := by
  unfold storedItems
  split
  · rename_i h; rw [h.2]; rfl
  · rw [flagLast_fst, (chunksOf_spec (by omega) bytes).1]

theorem storedItems_le (final : Bool) (bytes : List UInt8) : ∀ x ∈ storedItems final bytes, x.1.length ≤ 65535 := by
  unfold storedItems
  split
  · intro x hx; simp at hx; rw [hx]; simp
  · intro x hx
    have : x.1 ∈ (flagLast (chunksOf 65535 bytes)).map Prod.fst := List.mem_map.mpr ⟨x, hx, rfl⟩
    rw [flagLast_fst] at this
    exact ((chunksOf_spec (by omega) bytes).2.1 _ this).1

theorem addNonCompressedBlock_eq {data : Array UInt8} {a b : Nat} (h1 : a ≤ b) (h2 : b ≤ data.size) (final : Bool) :
    addNonCompressedBlock final data a b = some ((storedItems final (data.extract a b).toList).map fun (chunk, isFinal) =>
      storedBlock (final && isFinal) chunk).flatten := by
  unfold addNonCompressedBlock
  rw [slice_eq h1 h2, some_bind]
  dsimp only
  show some _ = some _
  congr 3
  unfold storedItems
  generalize (data.extract a b).toList = bytes
  cases final with
  | false =>
    rw [if_neg (by simp), if_neg (by simp), List.take_left' (flagLast_length _)]
  | true =>
    rw [if_pos rfl]
    split
    · rename_i h
      rw [h.2, chunksOf_nil]
      rfl
    · rename_i h
      have hne : bytes ≠ [] := fun e => h ⟨rfl, e⟩
      rw [chunksOf_cons (by omega) hne, List.length_cons, Nat.max_eq_left (by omega), List.take_left']
      rw [flagLast_length, List.length_cons]

theorem storedItems_final (final : Bool) (bytes : List UInt8) : FinalOk final (storedBlocks final (storedItems final bytes)) := by
  unfold storedItems
  cases final with
  | false =>
    intro x hx
    obtain ⟨⟨c, f⟩, -, rfl⟩ := List.mem_map.mp hx
    rfl
  | true =>
    split
    · exact ⟨[], _, rfl, rfl, by simp⟩
    · rename_i h
      have hne : bytes ≠ [] := fun e => h ⟨rfl, e⟩
      obtain ⟨init, last, e, hi⟩ := flagLast_snd (chunksOf 65535 bytes) (by rw [chunksOf_cons (by omega) hne]; simp)
      refine ⟨storedBlocks true init, ⟨true, .stored last⟩, ?_, rfl, ?_⟩
      · rw [e]; simp [storedBlocks]
      · intro x hx
        obtain ⟨⟨c, f⟩, hm, rfl⟩ := List.mem_map.mp hx
        have : f = false := hi _ hm
        rw [this]
        rfl

/-- Stored blocks describe their data. -/
theorem addNonCompressedBlock_spec {data : Array UInt8} {a b : Nat} (h1 : a ≤ b) (h2 : b ≤ data.size) (final : Bool) :
    Ret (addNonCompressedBlock final data a b) fun ops =>
      Emits data a b final ops (storedBlocks final (storedItems final (data.extract a b).toList)) := by
  refine ⟨_, addNonCompressedBlock_eq h1 h2 final, ⟨?_, ?_, storedItems_final _ _, ?_⟩⟩
  · exact stored_read final _ (storedItems_le _ _)
  · intro H
    rw [stored_expand, storedItems_fst, Array.append_assoc]
    congr 2
    rw [Array.toArray_toList, Array.extract_append_extract, Nat.min_eq_left (by omega), Nat.max_eq_right h1]
  · intro blk hb
    obtain ⟨⟨c, f⟩, -, rfl⟩ := List.mem_map.mp hb
    intro len dist hm
    cases hm

/-! ## Compressed blocks -/

theorem symOf_refs {data : Array UInt8} : ∀ {xs : List LitLen} {a b : Nat}, Parses data a xs b → ∀ len dist, Sym.copy len dist ∈ xs.map symOf →
    3 ≤ len ∧ len ≤ 258 ∧ 1 ≤ dist ∧ dist ≤ 32767
  | [], _, _, _, _, _, hm => by cases hm
  | x :: xs, a, b, h, len, dist, hm => by
    rw [List.map_cons, List.mem_cons] at hm
    rcases hm with hm | hm
    · cases x with
      | literal v => cases hm
      | lengthDist l d =>
        cases hm
        obtain ⟨k1, k2, k3, k4, -⟩ := h.1
        exact ⟨k1, k2, k3, k4⟩
    · exact symOf_refs h.2 len dist hm

/-- A range of the items of a store describes a range of the data. -/
structure RangeOk (data : Array UInt8) (a b : Nat) (s : Lz77Store) (lstart lend : Nat) : Prop where
  inv : StoreInv s
  le : lstart ≤ lend
  le' : lend ≤ s.size
  parses : Parses data a ((s.litlens.toList.take lend).drop lstart) b
  pos : lstart < lend → s.pos[lstart]? = some a
  range : s.getByteRange lstart lend = some (b - a)

theorem CodeOk.of {a : Array Nat} (h : ∀ i (h : i < a.size), a[i] ≤ 15) (hk : kraft15 a.toList = 2 ^ 15) : CodeOk a 15 :=
  ⟨h, by rw [hk]⟩

theorem fixedLL_eq : fixedTree.1.toList = fixedLL := by decide +kernel
theorem fixedD_eq : fixedTree.2.toList = fixedD := by decide +kernel

theorem fixed_ll_ne : ∀ i (h : i < fixedTree.1.size), fixedTree.1[i] ≠ 0 ∧ fixedTree.1[i] ≤ 15 := by
  have : ∀ x ∈ fixedLL, x ≠ 0 ∧ x ≤ 15 := by decide +kernel
  intro i h
  refine this _ ?_
  rw [← fixedLL_eq]
  simp

theorem fixed_d_ne : ∀ i (h : i < fixedTree.2.size), fixedTree.2[i] ≠ 0 ∧ fixedTree.2[i] ≤ 15 := by
  have : ∀ x ∈ fixedD, x ≠ 0 ∧ x ≤ 15 := by decide +kernel
  intro i h
  refine this _ ?_
  rw [← fixedD_eq]
  simp

theorem fixed_sizes : fixedTree.1.size = 288 ∧ fixedTree.2.size = 32 := by constructor <;> simp [fixedTree]

theorem fixed_codeOk : CodeOk fixedTree.1 15 ∧ CodeOk fixedTree.2 15 := by
  refine ⟨.of (fun i h => (fixed_ll_ne i h).2) ?_, .of (fun i h => (fixed_d_ne i h).2) ?_⟩
  · rw [fixedLL_eq]; decide +kernel
  · rw [fixedD_eq]; decide +kernel

theorem fixed_coded {x : LitLen} (hx : x.InRange) : Coded fixedTree.1 fixedTree.2 x := by
  have h1 := (llSym_lt hx).1
  have hs := fixed_sizes
  have hlt : llSym x < fixedTree.1.size := by omega
  refine ⟨⟨hlt, (fixed_ll_ne _ _).1⟩, fun t ht => ?_⟩
  have := dSym_lt hx ht
  exact ⟨by omega, (fixed_d_ne _ _).1⟩

/-- A fixed block. -/
theorem addLz77Block_fixed {data : Array UInt8} {a b : Nat} {s : Lz77Store} {lstart lend : Nat} (h : RangeOk data a b s lstart lend)
    (final : Bool) : ∃ bits, addLz77Block .fixed final data s lstart lend = some (bitOps bits) ∧
      bits.length = 3 + dataCost fixedTree.1 fixedTree.2 ((s.litlens.toList.take lend).drop lstart) ∧
      Emits data a b final (bitOps bits) [⟨final, .fixed (((s.litlens.toList.take lend).drop lstart).map symOf)⟩] := by
  have hs := fixed_sizes
  have h256 : 256 < fixedTree.1.size := by omega
  obtain ⟨bits, e, el, er⟩ := addBlockData_spec h.inv.range h.le h.le' fixed_codeOk.1 fixed_codeOk.2 (rll := fixedLL) (rd := fixedD)
    ⟨0, by rw [fixedLL_eq]; simp⟩ ⟨0, by rw [fixedD_eq]; simp⟩ ⟨h256, (fixed_ll_ne 256 h256).1⟩
    (fun x hx => fixed_coded (h.inv.range x (List.mem_of_mem_take (List.mem_of_mem_drop hx))))
  refine ⟨[final, true, false] ++ bits, ?_, ?_, ⟨fun pos => ⟨_, render_bitOps _ _, fun rest => .one ?_⟩, fun H => ?_, FinalOk.one _ _, ?_⟩⟩
  · unfold addLz77Block
    dsimp only
    rw [e, some_bind, bitOps_append]
    rfl
  · rw [List.length_append, el]; rfl
  · rw [List.append_assoc]
    unfold readBlock
    rw [List.cons_append, next_cons, some_bind]
    dsimp only
    have h2 := readNat_lt (n := 2) (v := 1) (by omega) (bits ++ rest) (pos + 1)
    have e : bitsLsb 1 2 = [true, false] := rfl
    rw [e] at h2
    rw [h2, some_bind]
    dsimp only
    rw [if_neg (by omega), if_pos rfl, er, some_bind]
    show some (_, _) = _
    rw [show pos + 1 + 2 + bits.length = pos + ([final, true, false] ++ bits).length by simp; omega]
  · show (do expand (← expandSyms (H ++ data.extract 0 a) _) []) = _
    rw [expandSyms_spec H _ a b h.parses]
    rfl
  · intro blk hb
    rw [List.mem_singleton] at hb
    rw [hb]
    exact symOf_refs h.parses

/-- A dynamic block. -/
theorem addLz77Block_dynamic {data : Array UInt8} {a b : Nat} {s : Lz77Store} {lstart lend : Nat} (h : RangeOk data a b s lstart lend)
    (hlt : lstart < lend) (final : Bool) :
    ∃ bits hdr ll d, addLz77Block .dynamic final data s lstart lend = some (bitOps bits) ∧
      (∃ t, calculateTreeSize ll d = some t ∧ bits.length = 3 + t + dataCost ll d ((s.litlens.toList.take lend).drop lstart) ∧
        getDynamicLengths s lstart lend = some (t + dataCost ll d ((s.litlens.toList.take lend).drop lstart) % 2 ^ 32, ll, d)) ∧
      Emits data a b final (bitOps bits) [⟨final, .dynamic hdr (((s.litlens.toList.take lend).drop lstart).map symOf)⟩] := by
  obtain ⟨⟨n, ll, d⟩, e1, g1, ⟨t, g2, g3⟩, g4, g5, g6, g7⟩ := getDynamicLengths_spec h.inv h.le h.le'
  dsimp only at g1 g2 g3 g4 g5 g6 g7
  have ht := g4 hlt
  obtain ⟨ops, e2, tb, rfl, -, k2, hdr, k3, k4, k5⟩ := addDynamicTree_spec ht
  rw [g2] at k2
  obtain ⟨bits, e, el, er⟩ := addBlockData_spec h.inv.range h.le h.le' (.of ht.lle ht.llk) (.of ht.de ht.dk) (rll := hdr.ll) (rd := hdr.d)
    k3 k4 g7 (fun x hx => ⟨g5 x hx, g6 x hx⟩)
  refine ⟨[final, false, true] ++ (tb ++ bits), hdr, ll, d, ?_, ⟨t, g2, ?_, by rw [e1, g3]⟩,
    ⟨fun pos => ⟨_, render_bitOps _ _, fun rest => .one ?_⟩, fun H => ?_, FinalOk.one _ _, ?_⟩⟩
  · unfold addLz77Block
    dsimp only
    rw [e1, some_bind]
    dsimp only
    rw [e2, some_bind, e, some_bind, bitOps_append, bitOps_append]
    rfl
  · rw [List.length_append, List.length_append, el, Option.some.inj k2]
    show 3 + _ = _
    omega
  · rw [List.append_assoc]
    unfold readBlock
    rw [List.cons_append, next_cons, some_bind]
    dsimp only
    have h2 := readNat_lt (n := 2) (v := 2) (by omega) (tb ++ bits ++ rest) (pos + 1)
    have e : bitsLsb 2 2 = [false, true] := rfl
    rw [e] at h2
    rw [h2, some_bind]
    dsimp only
    rw [if_neg (by omega), if_neg (by omega), if_pos rfl, List.append_assoc, k5, some_bind]
    dsimp only
    rw [er, some_bind]
    show some (_, _) = _
    rw [show pos + 1 + 2 + tb.length + bits.length = pos + ([final, false, true] ++ (tb ++ bits)).length by simp; omega]
  · show (do expand (← expandSyms (H ++ data.extract 0 a) _) []) = _
    rw [expandSyms_spec H _ a b h.parses]
    rfl
  · intro blk hb
    rw [List.mem_singleton] at hb
    rw [hb]
    exact symOf_refs h.parses

/-- A block written as stored blocks. -/
theorem addLz77Block_stored {data : Array UInt8} {a b : Nat} {s : Lz77Store} {lstart lend : Nat} (h : RangeOk data a b s lstart lend)
    (hlt : lstart < lend) (hb : b ≤ data.size) (final : Bool) :
    Ret (addLz77Block .uncompressed final data s lstart lend) fun ops =>
      Emits data a b final ops (storedBlocks final (storedItems final (data.extract a b).toList)) := by
  have hab := h.parses.le
  unfold addLz77Block
  dsimp only
  rw [h.range, some_bind, if_neg (by omega), h.pos hlt, some_bind, show a + (b - a) = b by omega]
  exact addNonCompressedBlock_spec hab hb final

end Zopfli
