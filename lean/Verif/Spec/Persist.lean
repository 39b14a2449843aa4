import Verif.Spec.Session
/-! # A client that does not give up

`session` (Verif/Spec/Session.lean) is a client that stops at the first error.  The client here makes all its calls, whatever they
return: it skips what was refused, or tries again (then the buffer occurs twice in its list of calls). -/

namespace Zopfli

variable {σ : Type}

/-- Make all the calls in order, whatever they return.  The results are those of the calls (0 for a successful `flush`). -/
def Encoder.runAll [Checks] (env : Env σ) : List Call → Encoder σ → Option (List (Except ErrKind Nat) × Encoder σ)
  | [], e => some ([], e)
  | .write buf :: l, e => do
    let (r, e) ← e.write env buf
    let (rs, e) ← e.runAll env l
    return (r :: rs, e)
  | .flush :: l, e => do
    let (r, e) ← e.flush env
    let (rs, e) ← e.runAll env l
    return (r.map (fun _ => 0) :: rs, e)

/-- A whole session of such a client: create an encoder, make all the calls, end.  Returns an error if there is no encoder, and
otherwise the results of the calls and of `finish` (`Ok` for `drop`), and the last state of the sink.  `none` means that some call
panicked or never returned. -/
def persistent [Checks] (env : Env σ) (fmt : Format) (calls : List Call) (ending : Ending) (sink : σ) :
    Option (Except ErrKind (List (Except ErrKind Nat) × Except ErrKind Unit) × σ) := do
  let (r, s) ← Encoder.new env fmt sink
  match r with
  | .error k => return (.error k, s)
  | .ok e => do
    let (rs, e) ← e.runAll env calls
    match ending with
    | .finish => do
      let (r, s) ← e.finish env
      return (.ok (rs, r), s)
    | .drop => return (.ok (rs, .ok ()), ← e.drop env)

/-- The buffers of those calls of `write` that returned `Ok`. -/
def acknowledged : List Call → List (Except ErrKind Nat) → List (List UInt8)
  | .write buf :: l, .ok _ :: rs => buf :: acknowledged l rs
  | _ :: l, _ :: rs => acknowledged l rs
  | _, _ => []

/-- Each call of `write` returned an error or the length of its buffer. -/
def AllOrNothing : List Call → List (Except ErrKind Nat) → Prop
  | [], rs => rs = []
  | .write buf :: l, r :: rs => (r = .ok buf.length ∨ ∃ k, r = .error k) ∧ AllOrNothing l rs
  | .flush :: l, _ :: rs => AllOrNothing l rs
  | _ :: _, [] => False

/-- Instrument any sink with a record of all the bytes it ever accepts, before and after failures; its own behaviour is unchanged. -/
def tape (S : Sink σ) : Sink (σ × List UInt8) where
  write s buf :=
    match S.write s.1 buf with
    | (.ok n, t) => (.ok n, (t, s.2 ++ buf.take n))
    | (.error k, t) => (.error k, (t, s.2))
  flush s := ((S.flush s.1).1, ((S.flush s.1).2, s.2))

end Zopfli
