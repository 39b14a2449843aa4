import Verif.Proofs.Memory
import Verif.Proofs.Arena
import Verif.Props.Codes
/-!
# C64: working memory
-/

namespace Zopfli
open Rfc Katajainen

/-- **C64** (initialisation) Whatever the memory returned by the allocator holds, initialised or not, and whatever the byte order
of the machine: after `ZopfliHash::new` every cell of the tables can be read and all tables are empty; and `reset` of tables in
any state leads to the same. -/
theorem C64_initialised (le : Bool) (mem : RawHash) (used : ZopfliHash) :
    hashNew le mem = some ZopfliHash.new ∧ used.reset le = some ZopfliHash.new :=
  ⟨init_read le mem, init_read le (used.raw le)⟩

/-- **C64** (reuse) The passes of the optimiser over a range of the data, which use the same tables, the same buffer of costs and the
same store again and again, find the same items as passes that start with new ones; nothing depends on what the memory held. -/
theorem C64_reused [Checks] (F : FloatOps) (le : Bool) (mem : RawHash) (lmc : Cache) (data : Array UInt8) (instart inend iterations withoutImprovement : Nat)
    (store : Lz77Store) :
    lz77OptimalIn F le mem lmc data instart inend iterations withoutImprovement = lz77Optimal F lmc data instart inend iterations withoutImprovement ∧
    lz77OptimalFixedIn F le mem lmc data instart inend store = lz77OptimalFixed F lmc data instart inend store :=
  ⟨lz77OptimalIn_eq F le mem lmc data instart inend iterations withoutImprovement, lz77OptimalFixedIn_eq F le mem lmc data instart inend store⟩

/-- **C64** (one pass) A single pass in memory left behind by any other one. -/
theorem C64_one_pass (F : FloatOps) (le : Bool) (lmc : Cache) (data : Array UInt8) (instart inend : Nat)
    (costmodel : Nat → Nat → Option F.F64) (store : Lz77Store) (h h' : ZopfliHash) (costs costs' : Array F.F32) :
    (lz77OptimalRunIn F le lmc data instart inend costmodel store ⟨h, costs⟩).map (·.1) =
      (lz77OptimalRunIn F le lmc data instart inend costmodel store ⟨h', costs'⟩).map (·.1) := by
  rw [lz77OptimalRunIn_eq, lz77OptimalRunIn_eq]

/-- **C64** (sharing) The code lengths computed with nodes that are shared between lists and chains, one of which is changed in place
in the last step, are those computed with values that are never changed (C09 and C10 are about these). -/
theorem C64_shared_nodes (freqs : Array Nat) (maxBits : Nat) (hsize : freqs.size ≤ 288) (h1 : 1 ≤ maxBits) (h15 : maxBits ≤ 15)
    (hcap : usedSymbols freqs.toList ≤ 2 ^ maxBits) :
    ∃ lens, Arena.lengthLimitedCodeLengths freqs maxBits = some lens ∧ lengthLimitedCodeLengths freqs maxBits = some lens := by
  obtain ⟨lens, e, -⟩ := C09_code_lengths freqs maxBits hsize h1 h15 hcap
  exact ⟨lens, Arena.lengthLimited_ref e, e⟩

/-! ## The hypotheses are met -/

/-- Memory of which nothing has been initialised. -/
def virginMemory : RawHash := ⟨⟨fun _ => none, fun _ => none, fun _ => none, none⟩, ⟨fun _ => none, fun _ => none, fun _ => none, none⟩, fun _ => none⟩

/-- It cannot be read before initialisation ... -/
example : virginMemory.read true = none := by
  have h : virginMemory.hash1.read true = none := by
    unfold RawThing.read
    rw [show List.range 65536 = 0 :: (List.range 65535).map Nat.succ from List.range_succ_eq_map]
    rw [List.mapM_cons]
    rfl
  unfold RawHash.read
  rw [h]
  rfl

/-- ... but after it. -/
example : hashNew true virginMemory = some ZopfliHash.new := (C64_initialised true virginMemory .new).1

example := C64_shared_nodes #[1, 1, 0, 5, 7, 10, 14] 3 (by decide) (by decide) (by decide) (by decide)

end Zopfli
