/-!
What can be seen of a service that holds many sockets (clients, UDP sockets): sockets are numbered in the order in which they were added.
-/
set_option autoImplicit false
namespace StAsio

inductive SkEv where
  /-- add_socket put the socket into the pool -/
  | added (k : Nat)
  /-- start() of the socket was called while the io_context ran, so that it is started now unless do_start() failed -/
  | startCalled (k : Nat)
  /-- the socket is started -/
  | started (k : Nat)
  /-- shutting down begins -/
  | shut (k : Nat)
  /-- closing has ended -/
  | closed (k : Nat)
  /-- stop_service() called -/
  | stopCalled
  /-- stop_service() or run_service() returned -/
  | pumpDown
  deriving DecidableEq, Repr

/-- What a user may expect of the sequence of events: a socket is added before anything else happens to it, is started only if it is not started, is shut down and closed only if it is, and nothing is started when the pump goes down. -/
structure IdealSk where
  known : List Nat
  on : List Nat

def IdealSk.init : IdealSk := { known := [], on := [] }

def IdealSk.event (i : IdealSk) : SkEv → Option IdealSk
  | .added k => if k ∈ i.known then none else some { i with known := k :: i.known }
  | .startCalled k => if k ∈ i.known then some i else none
  | .started k => if k ∈ i.known ∧ k ∉ i.on then some { i with on := k :: i.on } else none
  | .shut k => if k ∈ i.on then some i else none
  | .closed k => if k ∈ i.on then some { i with on := i.on.filter (· ≠ k) } else none
  | .stopCalled => some i
  | .pumpDown => if i.on = [] then some i else none

def IdealSk.monitor : IdealSk → List SkEv → Option IdealSk
  | i, [] => some i
  | i, e :: es => (i.event e).bind (fun j => IdealSk.monitor j es)

end StAsio
