import Verif.Model.BufferNew
/-!
What a new basic_buffer should contain.
-/
set_option autoImplicit false
namespace StAsio

/-- The content asked for; `none`: any content (of the size asked for). -/
def BbNew.wanted : BbNew → Option Bytes
  | .dflt => some []
  | .len _ => none
  | .int _ => none
  | .fill n c => some (List.replicate n c)
  | .cstr p => some ((p.getD []).takeWhile (· ≠ 0))
  | .bytes p n => some ((p.getD []).take n)
  | .array a n => some (a.take n)
  | .constArray a n => some (a.take n)
  | .copy o => some o.content
  | .other o => some o
  | .sub o pos => some (o.drop pos)
  | .subLen o pos n => some ((o.drop pos).take n)

/-- The size asked for. -/
def BbNew.size (a : BbNew) : Nat :=
  match a with
  | .len n => n
  | .int n => n.toNat
  | a => (a.wanted.getD []).length

/-- What the caller has to see to: a string ends with NUL, a pointer points to as many bytes as it is said to, `copy` is given a buffer (`ops`: whatever was done to it and another one before). -/
inductive BbNew.Proper (junk : Nat → Bytes) : BbNew → Prop where
  | dflt : BbNew.Proper junk .dflt
  | len (n : Nat) : BbNew.Proper junk (.len n)
  | int (n : Int) : BbNew.Proper junk (.int n)
  | fill (n : Nat) (c : Byte) : BbNew.Proper junk (.fill n c)
  | cstr (m : Bytes) : (0 : Byte) ∈ m → BbNew.Proper junk (.cstr (some m))
  | null (n : Nat) : BbNew.Proper junk (.bytes none n)
  | bytes (m : Bytes) (n : Nat) : n ≤ m.length → BbNew.Proper junk (.bytes (some m) n)
  | array (a : Bytes) (n : Nat) : BbNew.Proper junk (.array a n)
  | constArray (a : Bytes) (n : Nat) : n ≤ a.length → BbNew.Proper junk (.constArray a n)
  | copy (ops : List BbOp) (x y : Bb) (es : List (Option BbExc)) : Bb.run junk ops Bb.empty Bb.empty = some (x, y, es) → BbNew.Proper junk (.copy x)
  | other (o : Bytes) : BbNew.Proper junk (.other o)
  | sub (o : Bytes) (pos : Nat) : BbNew.Proper junk (.sub o pos)

end StAsio
