import Verif.Model.RecvDispatch
/-!
The ideal dispatcher: a queue of waiting messages, at most one message taken, at most one call of on_msg_handle at a time.
-/
set_option autoImplicit false
namespace StAsio

def rStrip : List Bytes → List Bytes → Option (List Bytes)
  | [], l => some l
  | _ :: _, [] => none
  | a :: p, b :: l => if a = b then rStrip p l else none

structure IdealRx where
  waiting : List Bytes
  taken : Option Bytes
  /-- on_msg_handle is running -/
  busy : Bool
  deriving DecidableEq, Repr

def IdealRx.event (t : IdealRx) : REv → Option IdealRx
  | .received ms => some { t with waiting := t.waiting ++ ms }
  | .taken m => if t.taken = none ∧ t.busy = false then (rStrip [m] t.waiting).map (fun w => { t with waiting := w, taken := some m }) else none
  | .call m => if t.taken = some m ∧ t.busy = false then some { t with busy := true } else none
  | .ret m ok => if t.taken = some m ∧ t.busy = true then some { t with busy := false, taken := if ok then none else some m } else none
  | .popped ms => (rStrip ms t.waiting).map (fun w => { t with waiting := w })
  | .cleared => if t.busy = false then some { waiting := [], taken := none, busy := false } else none

def IdealRx.monitor : IdealRx → List REv → Option IdealRx
  | t, [] => some t
  | t, e :: es => match t.event e with
    | none => none
    | some t => IdealRx.monitor t es

def rReceived : List REv → List Bytes
  | [] => []
  | .received ms :: es => ms ++ rReceived es
  | _ :: es => rReceived es

/-- Messages on_msg_handle accepted. -/
def rAccepted : List REv → List Bytes
  | [] => []
  | .ret m true :: es => m :: rAccepted es
  | _ :: es => rAccepted es

def rCalls : List REv → Nat
  | [] => 0
  | .call _ :: es => rCalls es + 1
  | _ :: es => rCalls es

def rRets : List REv → Nat
  | [] => 0
  | .ret _ _ :: es => rRets es + 1
  | _ :: es => rRets es

/-- Nobody popped messages or called reset(). -/
def RPlainEv : REv → Prop
  | .popped _ => False
  | .cleared => False
  | _ => True

end StAsio
