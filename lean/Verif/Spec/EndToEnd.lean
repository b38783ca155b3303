import Verif.Model.EndToEnd
import Verif.Spec.Frames
import Verif.Spec.Packing
/-!
What the two ends of a link can say about each other.
-/
set_option autoImplicit false
namespace StAsio

/-- The messages accepted by the sender's send functions, in order; a heartbeat is an empty message. -/
def sentItems : List PEv → List Item
  | [] => []
  | .sent b :: es => b :: sentItems es
  | _ :: es => sentItems es

/-- The messages accepted by the receiver's on_msg_handle, in order. -/
def handledItems : List PEv → List Bytes
  | [] => []
  | .handled m true :: es => m :: handledItems es
  | _ :: es => handledItems es

/-- What the receiving application should see of one message. -/
def seen (hl : Nat) (stripped : Bool) (b : Item) : Bytes := if stripped then b else wire hl b

/-- The messages the receiving application should see: the non-empty ones. -/
def expected (hl : Nat) (stripped : Bool) (items : List Item) : List Bytes := (items.filter (fun b => b ≠ [])).map (seen hl stripped)

/-- The caller owns the memory it passes. -/
def PAct.Honest : PAct → Prop
  | .send (.array ps) _ => Readable ps
  | _ => True

/-- What the library, the kernels and the network do on their own, the receiving application accepting messages. -/
def PAct.Internal : PAct → Prop
  | .send _ _ => False
  | .rx (.ret ok) => ok = true
  | _ => True

end StAsio
