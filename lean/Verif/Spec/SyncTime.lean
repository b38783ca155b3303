import Verif.Model.SyncRecv

/-!
# Vocabulary for the time synchronous calls take

The events are those of synchronous reception, with the duration a caller gives and with the passing of time. Nothing else refers to the model.
-/

set_option autoImplicit false

namespace StAsio

/-- What can be seen: a unit of time passes; a caller is admitted and gives a duration (0: wait for ever); all other events of synchronous reception. -/
inductive SwEv where
  | tick
  | called (d : Nat)
  | ev (e : SEv)
  deriving DecidableEq, Repr

/-- Someone with a stop watch: for how long the admitted caller has been waiting and which duration it gave; whether messages have been offered to it. -/
structure SwWatch where
  wait : Option (Nat × Nat)
  answered : Bool
  deriving DecidableEq, Repr

/-- What they accept. Time passes only if nobody who was offered messages still waits, and nobody waits longer than the duration they gave. TIMEOUT comes only for someone who gave a duration, at its end, and was not offered anything. -/
def SwWatch.see (w : SwWatch) : SwEv → Option SwWatch
  | .tick => match w.wait with
    | none => some w
    | some (k, d) => if w.answered = true ∨ (d ≠ 0 ∧ d ≤ k) then none else some { w with wait := some (k + 1, d) }
  | .called d => if w.wait = none then some ⟨some (0, d), false⟩ else none
  | .ev .offered => if w.wait = none ∨ w.answered = true then none else some { w with answered := true }
  | .ev (.success _) => if w.wait ≠ none ∧ w.answered = true then some ⟨none, false⟩ else none
  | .ev .timeout => match w.wait with
    | some (k, d) => if d ≠ 0 ∧ k = d ∧ w.answered = false then some ⟨none, false⟩ else none
    | none => none
  | .ev .notApplicable => if w.wait ≠ none ∧ w.answered = false then some ⟨none, false⟩ else none
  | .ev .called => none
  | .ev .duplicate => if w.wait ≠ none then some w else none
  | .ev (.received _) => some w
  | .ev (.async _) => some w
  | .ev .recvError => some w

/-- All events, one after another. -/
def SwWatch.seeAll (w : SwWatch) : List SwEv → Option SwWatch
  | [] => some w
  | e :: es => (w.see e).bind (fun w1 => w1.seeAll es)

/-- How much time has passed. -/
def swTime (es : List SwEv) : Nat := es.count .tick

/-- Events with which an admitted call returns. -/
def SwEv.returns : SwEv → Bool
  | .ev (.success _) | .ev .timeout | .ev .notApplicable => true
  | _ => false

end StAsio
