import Verif.Spec.Bytes
/-! Specification of the fixed-length protocol: cut a byte string into pieces of `len` bytes. -/
set_option autoImplicit false
namespace StAsio

/-- All complete pieces of `len` bytes and the rest. -/
def pieces (len : Nat) (s : Bytes) : List Bytes × Bytes :=
  if len = 0 ∨ s.length < len then ([], s)
  else
    let r := pieces len (s.drop len)
    (s.take len :: r.1, r.2)
termination_by s.length
decreasing_by simp only [List.length_drop]; omega

end StAsio
