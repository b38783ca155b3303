import Verif.Spec.Packing
import Verif.Spec.Frames
/-!
What "a peer sends this message packed by ext::packer" means: the bytes are those that one of the packer's
overloads produced for it.
-/
set_option autoImplicit false
namespace StAsio

/-- `Sends c nd item bytes`: some overload of `ext::packer` packs the body `item` (empty for a heartbeat) successfully
and `bytes` goes on the wire. `nd`: compiled with NDEBUG. -/
inductive Sends (c : Cfg) (nd : Bool) : Item → Bytes → Prop where
  | array (ps : List Piece) (bytes : Bytes) : Readable ps → content ps ≠ [] →
      packArray c false (some ps) = some (true, bytes) → Sends c nd (content ps) bytes
  | one (m : Bytes) (p : Packed) : packOne c nd m [] = some p → p.ok = true → Sends c nd m p.can.flatten
  | two (m1 m2 : Bytes) (p : Packed) : packTwo c nd m1 m2 [] = some p → p.ok = true → Sends c nd (m1 ++ m2) p.can.flatten
  | list (ms : List Bytes) (p : Packed) : packList c nd ms [] = some p → p.ok = true → Sends c nd ms.flatten p.can.flatten
  | heartbeat (item bytes : Bytes) : item = [] → packHeartbeat c nd = some bytes → Sends c nd item bytes

end StAsio
