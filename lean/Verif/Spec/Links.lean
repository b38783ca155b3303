import Verif.Model.Links
import Verif.Spec.EndToEnd
/-!
What the owner of a reconnecting client can say about its messages.
-/
set_option autoImplicit false
namespace StAsio

/-- The messages accepted by the send functions, in order; a heartbeat is an empty message. -/
def lSent : List LinksEv → List Item
  | [] => []
  | .sent b :: es => b :: lSent es
  | _ :: es => lSent es

/-- The packed messages reported by on_msg_send, in order. -/
def lWritten : List LinksEv → List Bytes
  | [] => []
  | .written ms :: es => ms ++ lWritten es
  | _ :: es => lWritten es

/-- The packed messages reported by on_send_error, in order. -/
def lFailed : List LinksEv → List Bytes
  | [] => []
  | .failed ms :: es => ms ++ lFailed es
  | _ :: es => lFailed es

/-- The fate of the messages handed to the kernel on one link. -/
structure LinkPart where
  /-- reported by on_msg_send -/
  written : List Item
  /-- reported by on_send_error -/
  failed : List Item
  deriving DecidableEq, Repr

/-- The stream that carries these messages. -/
def streamOf (hl : Nat) (items : List Item) : Bytes := (items.map (wire hl)).flatten

/-- Only send functions that pack a message into one piece are used: the array versions, with memory the caller owns, and heartbeats. -/
def LinksAct.Whole : LinksAct → Prop
  | .send (.array ps) _ => Readable ps
  | .send .heartbeat _ => True
  | .send _ _ => False
  | .tx _ => True

end StAsio
