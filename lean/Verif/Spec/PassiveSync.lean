import Verif.Spec.SyncRecv
/-!
Words for C110: synchronous reception on links that are read from only on demand.
-/
set_option autoImplicit false
namespace StAsio

inductive SpEv where
  /-- what C28 is about -/
  | sr (e : SEv)
  /-- a read from the link is started -/
  | read
  /-- a read ended without a message, and on_msg_handle is given an empty one -/
  | nothing
  deriving DecidableEq, Repr

/-- What C28 is about. -/
def spSync (es : List SpEv) : List SEv := es.filterMap fun e => match e with | .sr e => some e | _ => none

/-- Reads started. -/
def spReads (es : List SpEv) : Nat := es.count .read

/-- Messages that sync_recv_msg returned, in order. -/
def spReturned (es : List SEv) : List Bytes := es.flatMap fun e => match e with | .success ms => ms | _ => []

end StAsio
