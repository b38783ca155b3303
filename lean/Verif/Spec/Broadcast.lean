/-!
What can be seen of broadcasting.
-/
set_option autoImplicit false
namespace StAsio

/-- A message in a send buffer: `tag = some t` if broadcast t put it there. -/
structure BMsg where
  tag : Option Nat
  size : Nat
  deriving DecidableEq, Repr

inductive BEv where
  /-- socket k is in the pool from now on -/
  | added (k : Nat)
  /-- and no longer -/
  | removed (k : Nat)
  /-- a function that goes over all sockets was called, to broadcast a message or to shut the sockets down; calls are numbered -/
  | called (t : Nat) (broadcast : Bool)
  | returned (t : Nat)
  /-- broadcast t put its message into the send buffer of socket k -/
  | accepted (k t : Nat)
  /-- it did not -/
  | refused (k t : Nat)
  /-- socket k handed the message to its link -/
  | sent (k : Nat) (m : BMsg)
  /-- socket k was shut down -/
  | shut (k : Nat)
  deriving DecidableEq, Repr

/-- The broadcasts socket k sent, in the order in which it did. -/
def sentBy (k : Nat) : List BEv → List Nat
  | [] => []
  | .sent j m :: es => if j = k then m.tag.toList ++ sentBy k es else sentBy k es
  | _ :: es => sentBy k es

/-- The broadcasts socket k took, in the order in which it did. -/
def acceptedBy (k : Nat) : List BEv → List Nat
  | [] => []
  | .accepted j t :: es => if j = k then t :: acceptedBy k es else acceptedBy k es
  | _ :: es => acceptedBy k es

/-- How often socket k was offered broadcast t, whether it took it or not. -/
def answers (k t : Nat) (es : List BEv) : Nat := es.countP (fun e => decide (e = .accepted k t ∨ e = .refused k t))

end StAsio
