import Verif.Model.Echo
import Verif.Spec.EndToEnd
/-!
What client and server of an echo link can observe.
-/
set_option autoImplicit false
namespace StAsio

def ups : List EEv → List PEv
  | [] => []
  | .up e :: es => e :: ups es
  | _ :: es => ups es

def downs : List EEv → List PEv
  | [] => []
  | .down e :: es => e :: downs es
  | _ :: es => downs es

/-- The messages accepted by the client's send functions, in order. -/
def asked (es : List EEv) : List Item := sentItems (ups es)

/-- The messages accepted by the client's on_msg_handle, in order. -/
def answered (es : List EEv) : List Bytes := handledItems (downs es)

/-- The caller owns the memory it passes. -/
def EAct.Honest : EAct → Prop
  | .up a => a.Honest
  | _ => True

/-- What goes on without the client's application, which accepts the answers. -/
def EAct.Internal : EAct → Prop
  | .up a => a.Internal
  | .down a => a.Internal
  | .echo => True

end StAsio
