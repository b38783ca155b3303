import Verif.Model.SendBuffer
import Verif.Spec.IdealQueue
/-!
What a send request amounts to if it is let through.
-/
set_option autoImplicit false
namespace StAsio
variable {α : Type}

/-- The messages of a request that enter the send buffer: none if the single message is empty or does not fit the memory. -/
def SendReq.messages (sz : α → Nat) : SendReq α → List α
  | .one m fits => if 0 < sz m ∧ fits then [m] else []
  | .list ms => ms
  | .packed r => r.getD []

/-- Packing failed (reported by the functions that take messages, not by those that take arrays). -/
def SendReq.packFailed : SendReq α → Bool
  | .packed none => true
  | _ => false

/-- Pending bytes. -/
def pending (sz : α → Nat) (q : Q α) : Nat := sumSize sz q.items

/-- total size known and exact -/
def Q.Sound (sz : α → Nat) (q : Q α) : Prop := q.total = sumSize sz q.items

end StAsio
