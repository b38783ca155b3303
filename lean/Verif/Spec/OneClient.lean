import Verif.Spec.Accept
/-!
How many clients a server has taken, going by what can be seen of its accept loop. Nothing here refers to the model.
-/
set_option autoImplicit false
namespace StAsio

/-- The number of clients since the last start_listen; `n` is the number before the event. -/
def sinceListen (n : Nat) : AccEv → Nat
  | .listen => 0
  | .got => n + 1
  | _ => n

/-- The number of clients that were accepted since the last start_listen. -/
def clients (es : List AccEv) : Nat := es.foldl sinceListen 0

/-- How often the server began to listen. -/
def listens (es : List AccEv) : Nat := es.countP (· == .listen)

/-- How many clients were accepted at all. -/
def allClients (es : List AccEv) : Nat := es.countP (· == .got)

end StAsio
