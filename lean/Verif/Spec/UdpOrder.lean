import Verif.Model.UdpSend
/-!
The ideal datagram sender: waiting messages and at most one message in flight.
-/
set_option autoImplicit false
namespace StAsio

/-- What remains of `l` behind its prefix `p`. -/
def uStrip : List UMsg → List UMsg → Option (List UMsg)
  | [], l => some l
  | _ :: _, [] => none
  | a :: p, b :: l => if a = b then uStrip p l else none

structure IdealUx where
  waiting : List UMsg
  flight : Option UMsg
  deriving DecidableEq, Repr

/-- What an ideal sender allows; `none`: forbidden. A message may be handed over only if none is in flight and it is the first
waiting one; success or failure is reported for exactly the message in flight. -/
def IdealUx.event (t : IdealUx) : UEv → Option IdealUx
  | .accept m prior => some { t with waiting := if prior then m :: t.waiting else t.waiting ++ [m] }
  | .handOff m => if t.flight = none then (uStrip [m] t.waiting).map (fun w => { waiting := w, flight := some m }) else none
  | .sent m => if t.flight = some m then some { t with flight := none } else none
  | .sendError m => if t.flight = some m then some { t with flight := none } else none
  | .popped ms => (uStrip ms t.waiting).map (fun w => { t with waiting := w })
  | .discarded ms => (uStrip ms t.waiting).map (fun w => { t with waiting := w })
  | .cleared ms => (uStrip ms t.waiting).map (fun w => { t with waiting := w })
  | .resolved _ _ => some t

def IdealUx.monitor : IdealUx → List UEv → Option IdealUx
  | t, [] => some t
  | t, e :: es => match t.event e with
    | none => none
    | some t => IdealUx.monitor t es

def uAccepted : List UEv → List UMsg
  | [] => []
  | .accept m _ :: es => m :: uAccepted es
  | _ :: es => uAccepted es

def uHanded : List UEv → List UMsg
  | [] => []
  | .handOff m :: es => m :: uHanded es
  | _ :: es => uHanded es

/-- What was reported, in order: the message and whether it was sent. -/
def uOutcomes : List UEv → List (UMsg × Bool)
  | [] => []
  | .sent m :: es => (m, true) :: uOutcomes es
  | .sendError m :: es => (m, false) :: uOutcomes es
  | _ :: es => uOutcomes es

def uSent : List UEv → List UMsg
  | [] => []
  | .sent m :: es => m :: uSent es
  | _ :: es => uSent es

def uDropped : List UEv → List UMsg
  | [] => []
  | .discarded ms :: es => ms ++ uDropped es
  | .cleared ms :: es => ms ++ uDropped es
  | _ :: es => uDropped es

def uResolved : List UEv → List Nat
  | [] => []
  | .resolved p _ :: es => p :: uResolved es
  | _ :: es => uResolved es

def uPromiseIds (ms : List UMsg) : List Nat := ms.filterMap UMsg.p

/-- Nobody used priority, popped, shrank or reset. -/
def UPlainEv : UEv → Prop
  | .accept _ prior => prior = false
  | .popped _ => False
  | .discarded _ => False
  | .cleared _ => False
  | _ => True

end StAsio
