import Verif.Model.KcpPipe
/-!
What the two applications can say about their messages.
-/
set_option autoImplicit false
namespace StAsio

/-- The packed messages the send functions accepted, in order. -/
def kpSent : List KpEv → List Bytes
  | [] => []
  | .sent m :: es => m :: kpSent es
  | _ :: es => kpSent es

/-- The messages on_msg_handle accepted, in order. -/
def kpHandled : List KpEv → List Bytes
  | [] => []
  | .handled m true :: es => m :: kpHandled es
  | _ :: es => kpHandled es

/-- The message fits into the buffer the receiver gives to ikcp_recv, of `buf` = ST_ASIO_MSG_BUFFER_SIZE bytes. -/
def kpFits (buf : Nat) (m : Bytes) : Bool := decide (m.length ≤ buf)

/-- ikcp_send refuses no message (it does if a message needs more fragments than KCP's window or its format allow, or memory is exhausted). A step of do_send_msg that does
not call ikcp_send ignores this result; such steps are written with any number instead of `none`. -/
def KpAct.NoRefusal : KpAct → Prop
  | .k (.strand none) => False
  | _ => True

/-- What goes on without the applications: the library, KCP, the kernels, the network; and on_msg_handle accepts. -/
def KpAct.Internal : KpAct → Prop
  | .k (.u (.send _ _ _)) | .k (.setMax _) => False
  | .rx (.ret ok) => ok = true
  | _ => True

end StAsio
