import Verif.Spec.Bytes
/-!
How a person reads a hex dump. Nothing here refers to the model.
-/
set_option autoImplicit false
namespace StAsio

/-- The value of a hexadecimal digit. -/
def hexVal (c : Char) : Option Nat :=
  if '0' ≤ c ∧ c ≤ '9' then some (c.toNat - '0'.toNat)
  else if 'a' ≤ c ∧ c ≤ 'f' then some (c.toNat - 'a'.toNat + 10)
  else none

/-- Read a dump: pairs of hexadecimal digits with white space between them; none if it is something else. -/
def readHex : List Char → Option Bytes
  | [] => some []
  | [_] => none
  | [a, b] => do return [UInt8.ofNat (16 * (← hexVal a) + (← hexVal b))]
  | a :: b :: sep :: rest => do
    let x ← hexVal a
    let y ← hexVal b
    if sep = ' ' ∨ sep = '\n' then
      let bs ← readHex (match rest with
        | ' ' :: rest => rest
        | rest => rest)
      if bs = [] then none else return UInt8.ofNat (16 * x + y) :: bs
    else none
termination_by t => t.length
decreasing_by
  split
  · simp only [List.length_cons]; omega
  · simp only [List.length_cons]; omega

/-- The text of an error message about unparsed data: the message length announced by the head, a line break, the dump. -/
def dumpMessage (announced : Nat) (dump : List Char) : List Char :=
  "unparsed data (current msg length is: ".toList ++ (toString announced).toList ++ ") are:\n".toList ++ dump

end StAsio
