import Verif.Spec.Bytes
/-!
What the user does with raw_data() and raw_data_len(): read that many bytes from there.
-/
set_option autoImplicit false
namespace StAsio

/-- The bytes at an offset of a message; `none`: reading outside of the message. -/
def readRaw (m : Bytes) (r : Nat × Nat) : Option Bytes := if r.1 + r.2 ≤ m.length then some ((m.drop r.1).take r.2) else none

end StAsio
