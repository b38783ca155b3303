import Verif.Model.Window
import Verif.Spec.Echo
/-!
What two ends that answer each other can observe.
-/
set_option autoImplicit false
namespace StAsio

/-- What is seen of one direction. -/
def dirEvs (dir : Bool) : List DEv → List PEv
  | [] => []
  | .sent d b _ :: es => if d = dir then .sent b :: dirEvs dir es else dirEvs dir es
  | .handled d m ok :: es => if d = dir then .handled m ok :: dirEvs dir es else dirEvs dir es

/-- The messages sent in one direction that are not answers. -/
def ownItems (dir : Bool) : List DEv → List Item
  | [] => []
  | .sent d b true :: es => if d = dir then b :: ownItems dir es else ownItems dir es
  | _ :: es => ownItems dir es

/-- The answers sent in one direction. -/
def sentAnswers (dir : Bool) : List DEv → List Item
  | [] => []
  | .sent d b false :: es => if d = dir then b :: sentAnswers dir es else sentAnswers dir es
  | _ :: es => sentAnswers dir es

/-- The number of bytes of messages on the wire, each with its head. -/
def wireSize (headLen : Nat) (items : List Item) : Nat := (items.map (fun b => headLen + b.length)).sum

/-- The caller owns the memory it passes. -/
def DAct.Honest : DAct → Prop
  | .pipe _ a => a.Honest
  | .relay _ => True

/-- What goes on without messages other than answers. -/
def DAct.Internal : DAct → Prop
  | .pipe _ a => a.Internal
  | .relay _ => True

end StAsio
