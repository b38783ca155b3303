import Verif.Spec.Packing
import Verif.Spec.Frames
/-!
What the arguments of a send function mean to the caller.
-/
set_option autoImplicit false
namespace StAsio

/-- The messages given to a send function. `byRef`: by non-const reference, the function may take the content away. A list is always given by non-const reference. -/
inductive SendArgs where
  | one (m : Bytes) (byRef : Bool)
  | two (m1 m2 : Bytes) (byRef : Bool)
  | list (ms : List Bytes)
  | array (arr : Option (List Piece))
  deriving DecidableEq, Repr

/-- The bytes the caller wants to be sent. -/
def SendArgs.content : SendArgs → Bytes
  | .one m _ => m
  | .two m1 m2 _ => m1 ++ m2
  | .list ms => ms.flatten
  | .array (some ps) => StAsio.content ps
  | .array none => []

/-- What they look like on the wire: as they are, or as one frame. -/
def SendArgs.onWire (hl : Nat) (native : Bool) (a : SendArgs) : Bytes := if native then a.content else wire hl a.content

/-- The caller's obligation about arrays: pointers point to as many bytes as the lengths say. -/
def SendArgs.Good : SendArgs → Prop
  | .array (some ps) => Readable ps
  | _ => True

/-- Nothing is left in what was given by reference. -/
def SendArgs.Emptied : SendArgs → Prop
  | .one m true => m = []
  | .two m1 m2 true => m1 = [] ∧ m2 = []
  | .list ms => ms.flatten = []
  | _ => True

end StAsio
