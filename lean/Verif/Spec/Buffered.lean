import Verif.Model.Buffered
import Verif.Spec.Session
/-!
# Sessions with a buffered encoder, and what the buffering amounts to
-/

namespace Zopfli

/-- Make the calls in order, up to and including the first one that fails. -/
def BufEncoder.run [Checks] {σ : Type} (env : Env σ) : List Call → BufEncoder σ → Option (Except ErrKind Unit × BufEncoder σ)
  | [], b => some (.ok (), b)
  | .write data :: l, b => do
    let (r, b) ← b.write env data
    match r with
    | .ok _ => b.run env l
    | .error k => return (.error k, b)
  | .flush :: l, b => do
    let (r, b) ← b.flush env
    match r with
    | .ok () => b.run env l
    | .error k => return (.error k, b)

/-- A whole session with an encoder made by `new_buffered`: it ends with `into_inner()` and `finish()`, or by letting it
go out of scope.  `none` means that some call panicked or never returned. -/
def bufferedSession [Checks] {σ : Type} (env : Env σ) (fmt : Format) (calls : List Call) (ending : Ending) (sink : σ) :
    Option (Except ErrKind Unit × σ) := do
  let (r, s) ← BufEncoder.new env fmt sink
  match r with
  | .error k => return (.error k, s)
  | .ok b => do
    let (r, b) ← b.run env calls
    match r with
    | .error k => return (.error k, ← b.drop env)
    | .ok () =>
      match ending with
      | .finish => b.intoInnerFinish env
      | .drop => return (.ok (), ← b.drop env)

/-- What waits in the buffer, as a call. -/
def pendingWrite (p : List UInt8) : List Call := if p = [] then [] else [.write p]

/-- The calls that reach the encoder behind a buffer of `cap` bytes holding `p`: writes are joined as long as together
they fit; a write that does not fit starts a new buffer, or goes through on its own if it is `cap` bytes or more; a flush
first empties the buffer; so does the end of the session. -/
def coalesce (cap : Nat) : List UInt8 → List Call → List Call
  | p, [] => pendingWrite p
  | p, .flush :: l => pendingWrite p ++ .flush :: coalesce cap [] l
  | p, .write d :: l =>
    if p.length + d.length ≤ cap ∧ d.length < cap then coalesce cap (p ++ d) l
    else if cap ≤ d.length then pendingWrite p ++ .write d :: coalesce cap [] l
    else pendingWrite p ++ coalesce cap d l

/-- No two writes in a row could have been joined, and none is empty. -/
def Joined (cap : Nat) : List Call → Prop
  | [] => True
  | .flush :: l => Joined cap l
  | .write d :: l => d ≠ [] ∧ (∀ d' l', l = .write d' :: l' → cap < d.length + d'.length) ∧ Joined cap l

/-- A reader that lends `data` in parts of any size below 2^47 bytes and then ends with `res`: end of file, or an error.  It
may interrupt, but not for ever. -/
structure Supplies {ρ : Type} (src : Source ρ) (I : ρ → Prop) (data : ρ → List UInt8) (res : Except ErrKind Unit) (patience : ρ → Nat) : Prop where
  not_interrupted : res ≠ .error .interrupted
  next : ∀ r, I r →
    (∃ l r', src.next r = (.ok l, r') ∧ l ≠ [] ∧ l.length < 2 ^ 47 ∧ data r = l ++ data r' ∧ I r') ∨
    (∃ r', src.next r = (.error .interrupted, r') ∧ data r' = data r ∧ patience r' < patience r ∧ I r') ∨
    (∃ r', src.next r = (res.map fun _ => [], r') ∧ data r = [])

end Zopfli
