import Verif.Model.SyncRecv
/-!
The ideal hand-off: messages received are pending; the pending messages go, all at once, either to the one admitted caller, or the asynchronous way.
-/
set_option autoImplicit false
namespace StAsio

structure IdealSr where
  pending : List Bytes
  /-- a caller is admitted -/
  waiting : Bool
  /-- it was answered with messages -/
  answered : Bool
  deriving DecidableEq, Repr

def IdealSr.event (t : IdealSr) : SEv → Option IdealSr
  | .received ms => some { t with pending := t.pending ++ ms }
  | .called => if t.waiting then none else some { t with waiting := true, answered := false }
  | .offered => if t.waiting ∧ t.answered = false then some { t with answered := true } else none
  | .duplicate => if t.waiting then some t else none
  | .success ms => if t.waiting ∧ t.answered ∧ ms = t.pending then some { pending := [], waiting := false, answered := false } else none
  | .timeout => if t.waiting ∧ t.answered = false then some { t with waiting := false } else none
  | .notApplicable => if t.waiting ∧ t.answered = false then some { t with waiting := false } else none
  | .async ms => if ms = t.pending ∧ ms ≠ [] then some { t with pending := [] } else none
  | .recvError => some t

def IdealSr.monitor : IdealSr → List SEv → Option IdealSr
  | t, [] => some t
  | t, e :: es => match t.event e with
    | none => none
    | some t => IdealSr.monitor t es

def sReceived : List SEv → List Bytes
  | [] => []
  | .received ms :: es => ms ++ sReceived es
  | _ :: es => sReceived es

/-- Messages handed out, to callers or the asynchronous way, in order. -/
def sHandedOut : List SEv → List Bytes
  | [] => []
  | .success ms :: es => ms ++ sHandedOut es
  | .async ms :: es => ms ++ sHandedOut es
  | _ :: es => sHandedOut es

/-- Callers admitted, and calls that returned (other than DUPLICATE). -/
def sCalled : List SEv → Nat
  | [] => 0
  | .called :: es => sCalled es + 1
  | _ :: es => sCalled es

def sReturned : List SEv → Nat
  | [] => 0
  | .success _ :: es => sReturned es + 1
  | .timeout :: es => sReturned es + 1
  | .notApplicable :: es => sReturned es + 1
  | _ :: es => sReturned es

end StAsio
