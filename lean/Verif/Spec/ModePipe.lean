import Verif.Spec.Protocols
import Verif.Spec.RecvModes
/-!
What the two applications observe of one direction of a link when the receiver uses any of the modes of receiving.
-/
set_option autoImplicit false
namespace StAsio

inductive MPEv where
  /-- a send function accepted this message -/
  | sent (b : Item)
  /-- something happened at the receiver -/
  | rx (e : MEv)
  deriving DecidableEq, Repr

/-- The messages sent. -/
def mpSent : List MPEv → List Item
  | [] => []
  | .sent b :: es => b :: mpSent es
  | _ :: es => mpSent es

/-- What happened at the receiver. -/
def mpRx : List MPEv → List MEv
  | [] => []
  | .rx e :: es => e :: mpRx es
  | _ :: es => mpRx es

/-- The messages that are not empty: with passive receiving an empty message only says that a read completed no message. -/
def nonEmpty (ms : List Bytes) : List Bytes := ms.filter (fun m => !m.isEmpty)

end StAsio
