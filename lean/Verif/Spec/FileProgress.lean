import Verif.Spec.FileTransfer

/-!
# Vocabulary for the progress of a transfer

Nothing here refers to the model.
-/

set_option autoImplicit false

namespace StAsio

/-- The number of bytes of the file `src` that are at their place in the file `dst`. -/
def rightBytes (src dst : Bytes) : Nat := ((List.range src.length).filter (fun p => decide (dst[p]? = src[p]?))).length

end StAsio
