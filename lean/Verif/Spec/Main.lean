import Verif.Model.Main
import Verif.Spec.Session
/-!
# What the command-line program is for
-/

namespace Zopfli

/-- `d'` is the disk `d` after the files `args` have been compressed, one after the other: each one was there when its
turn came, and was given a companion with the added extension `.gz`, a gzip file that holds its contents. -/
inductive Compressed : Disk → List String → Disk → Prop
  | nil (d : Disk) : Compressed d [] d
  | cons {d d' : Disk} {f : String} {args : List String} {content stream : List UInt8} :
    d f = some content → Rfc.gunzip stream = some content → Compressed (d.set (f ++ ".gz") stream) args d' →
    Compressed d (f :: args) d'

/-- A disk without problems, except perhaps files with parts that cannot be read: everything may be opened and created, and
transfers may be cut and interrupted but do not fail. -/
structure Smooth (os : Os) : Prop where
  openFile : ∀ w name, os.openFile w name = none
  metadata : ∀ w name, os.metadata w name = none
  createFile : ∀ w name, os.createFile w name = none
  flushFile : ∀ w name, os.flushFile w name = none
  writeFile : ∀ w name len, 0 < len → os.writeFile w name len = .error .interrupted ∨ ∃ n, os.writeFile w name len = .ok (n + 1)

/-- Interruptions are not for ever. -/
structure Fair (os : Os) : Prop where
  read : ∀ name t, ∃ t', t ≤ t' ∧ os.readFile name t' ≠ none
  fault : ∀ name n k, os.fault name = some (n, k) → k ≠ .interrupted
  write : ∀ t, ∃ t', t ≤ t' ∧ ∀ w name len, w.time = t' → os.writeFile w name len ≠ .error .interrupted

end Zopfli
