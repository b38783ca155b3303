import Verif.Model.Websocket
import Verif.Spec.Packing
/-!
What the two ends of a websocket link can say about each other.
-/
set_option autoImplicit false
namespace StAsio

/-- The contents of the messages accepted by the sender's send functions, in order; a heartbeat is an empty message. -/
def wsContents : List WsEv → List Bytes
  | [] => []
  | .sent b _ :: es => b :: wsContents es
  | _ :: es => wsContents es

/-- The pieces in which they were put into the send buffer, in order. -/
def wsPieces : List WsEv → List Bytes
  | [] => []
  | .sent _ ps :: es => ps ++ wsPieces es
  | _ :: es => wsPieces es

/-- The messages accepted by the receiver's on_msg_handle, in order. -/
def wsHandled : List WsEv → List Bytes
  | [] => []
  | .handled m true :: es => m :: wsHandled es
  | _ :: es => wsHandled es

/-- The part in front of the first empty one. -/
def upToEmpty : List Bytes → List Bytes
  | [] => []
  | m :: ms => if m = [] then [] else m :: upToEmpty ms

/-- The caller owns the memory it passes. -/
def WsAct.Honest : WsAct → Prop
  | .send _ (.array ps) _ => Readable ps
  | _ => True

/-- Messages are given to send_native_msg, each as one string or as one array of strings. -/
def WsAct.NativeOnly : WsAct → Prop
  | .send true (.one _) _ => True
  | .send true (.array _) _ => True
  | .send _ _ _ => False
  | _ => True

/-- What the library, the kernels and the network do on their own, the receiving application accepting messages. -/
def WsAct.Internal : WsAct → Prop
  | .send _ _ _ => False
  | .rx (.ret ok) => ok = true
  | _ => True

end StAsio
