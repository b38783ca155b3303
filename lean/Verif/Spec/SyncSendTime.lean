import Verif.Spec.SendOrder

/-!
# Vocabulary for synchronous sending and time

The events are those of the sending side of a connection, with the calls, the answers and the passing of time. Nothing else refers to the model.
-/

set_option autoImplicit false

namespace StAsio

/-- What can be seen: a unit of time passes; the call with promise `p` is admitted and gives a duration (0: wait for ever); a call returns at once since nothing was put into the send buffer;
a call returns the outcome of its message, or TIMEOUT; all events of the sending side. -/
inductive SqEv where
  | tick
  | called (p d : Nat)
  | declined (p : Nat)
  | ret (p : Nat) (r : SyncRes)
  | timedOut (p : Nat)
  | ev (e : TxEv)
  deriving DecidableEq, Repr

/-- Someone with a stop watch who follows one call: for how long it has been waiting and which duration it gave; the outcome of its message as soon as there is one. -/
structure SqWatch where
  wait : Option (Nat × Nat)
  outcome : Option SyncRes
  deriving DecidableEq, Repr

/-- What they accept. Time passes only if the call does not wait although its message has an outcome, and not if it has been waiting for as long as the duration it gave.
It returns the outcome of its message, nothing else, or TIMEOUT: exactly at the end of the duration, if there is no outcome. -/
def SqWatch.see (p : Nat) (w : SqWatch) : SqEv → Option SqWatch
  | .tick => match w.wait with
    | none => some w
    | some (k, d) => if w.outcome ≠ none ∨ (d ≠ 0 ∧ d ≤ k) then none else some { w with wait := some (k + 1, d) }
  | .called q d => if q = p then (if w.wait = none then some { w with wait := some (0, d) } else none) else some w
  | .declined _ => some w
  | .ret q r => if q = p then (if w.wait ≠ none ∧ w.outcome = some r then some { w with wait := none } else none) else some w
  | .timedOut q => if q = p then (match w.wait with
      | some (k, d) => if d ≠ 0 ∧ k = d ∧ w.outcome = none then some { w with wait := none } else none
      | none => none) else some w
  | .ev (.resolved q r) => if q = p then some { w with outcome := w.outcome.or (some r) } else some w
  | .ev _ => some w

/-- All events, one after another. -/
def SqWatch.seeAll (p : Nat) (w : SqWatch) : List SqEv → Option SqWatch
  | [] => some w
  | e :: es => (w.see p e).bind (fun w1 => w1.seeAll p es)

/-- How much time has passed. -/
def sqTime (es : List SqEv) : Nat := es.count .tick

/-- The call with promise `p` returns. -/
def SqEv.returns (p : Nat) : SqEv → Bool
  | .ret q _ | .timedOut q => q == p
  | _ => false

/-- What has been reported about the message with promise `p` justifies the answer `r`. -/
def Justified (es : List SqEv) (p : Nat) (r : SyncRes) : Prop := ∃ ms m, m ∈ ms ∧ m.p = some p ∧
  ((r = .success ∧ SqEv.ev (.sent ms) ∈ es) ∨ (r = .notApplicable ∧ (SqEv.ev (.sendError ms) ∈ es ∨ SqEv.ev (.popped ms) ∈ es)))

end StAsio
