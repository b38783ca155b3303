import Verif.Model.TcpSend
/-!
The ideal sender, as a monitor of what can be observed: a list of waiting messages and at most one batch in flight.
-/
set_option autoImplicit false
namespace StAsio

/-- `stripPrefix p l`: what remains of `l` behind its prefix `p`; `none` if `p` is not a prefix. -/
def stripPrefix : List TxMsg → List TxMsg → Option (List TxMsg)
  | [], l => some l
  | _ :: _, [] => none
  | a :: p, b :: l => if a = b then stripPrefix p l else none

/-- Waiting messages in the order they will be sent, and the batch in flight. -/
structure IdealTx where
  waiting : List TxMsg
  flight : Option (List TxMsg)
  deriving DecidableEq, Repr

/-- What an ideal sender allows; `none`: forbidden.
* accepted messages go behind all waiting ones, priority messages in front of them;
* a batch handed to the kernel is a non-empty front part of the waiting messages, and only if no batch is in flight;
* success and failure are reported for exactly the batch in flight;
* messages popped, discarded or cleared are the front part of the waiting ones. -/
def IdealTx.event (t : IdealTx) : TxEv → Option IdealTx
  | .accept ms prior => some { t with waiting := if prior then ms ++ t.waiting else t.waiting ++ ms }
  | .handOff ms => if t.flight = none ∧ ms ≠ [] then (stripPrefix ms t.waiting).map (fun w => { waiting := w, flight := some ms }) else none
  | .sent ms => if t.flight = some ms then some { t with flight := none } else none
  | .sendError ms => if t.flight = some ms then some { t with flight := none } else none
  | .popped ms => (stripPrefix ms t.waiting).map (fun w => { t with waiting := w })
  | .discarded ms => (stripPrefix ms t.waiting).map (fun w => { t with waiting := w })
  | .cleared ms => (stripPrefix ms t.waiting).map (fun w => { t with waiting := w })
  | .resolved _ _ => some t

def IdealTx.monitor : IdealTx → List TxEv → Option IdealTx
  | t, [] => some t
  | t, e :: es => match t.event e with
    | none => none
    | some t => IdealTx.monitor t es

/-- Everything accepted, in order of acceptance. -/
def acceptedMsgs : List TxEv → List TxMsg
  | [] => []
  | .accept ms _ :: es => ms ++ acceptedMsgs es
  | _ :: es => acceptedMsgs es

/-- Everything handed to the kernel, in order. -/
def handedMsgs : List TxEv → List TxMsg
  | [] => []
  | .handOff ms :: es => ms ++ handedMsgs es
  | _ :: es => handedMsgs es

/-- Messages reported as sent, in order. -/
def sentMsgs : List TxEv → List TxMsg
  | [] => []
  | .sent ms :: es => ms ++ sentMsgs es
  | _ :: es => sentMsgs es

/-- Messages dropped without having been handed to the kernel. -/
def droppedMsgs : List TxEv → List TxMsg
  | [] => []
  | .discarded ms :: es => ms ++ droppedMsgs es
  | .cleared ms :: es => ms ++ droppedMsgs es
  | _ :: es => droppedMsgs es

/-- Promises set, in order. -/
def resolvedIds : List TxEv → List Nat
  | [] => []
  | .resolved p _ :: es => p :: resolvedIds es
  | _ :: es => resolvedIds es

/-- Promises of some messages. -/
def promiseIds (ms : List TxMsg) : List Nat := ms.filterMap TxMsg.p

/-- Nobody used priority, popped, shrank or reset. -/
def PlainEv : TxEv → Prop
  | .accept _ prior => prior = false
  | .popped _ => False
  | .discarded _ => False
  | .cleared _ => False
  | _ => True

end StAsio
