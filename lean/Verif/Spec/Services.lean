/-!
# What a service sees: initialised, uninitialised, finalised

A service is identified by the number of services created before it.
-/

set_option autoImplicit false

namespace StAsio

/-- Calls of the virtual functions of the services. -/
inductive SvcEv
  | init (k : Nat) (ok : Bool)   -- init() of service k was called and answered ok
  | uninit (k : Nat)
  | finalize (k : Nat)
  deriving Repr, DecidableEq

/-- Which service a call concerns. -/
def SvcEv.who : SvcEv → Nat
  | .init k _ => k
  | .uninit k => k
  | .finalize k => k

/-- The ideal life of one service: `up` tells whether it is initialised. init is only called while it is not, uninit only while it is. None: a call out of order. -/
def svcLife : Bool → List SvcEv → Option Bool
  | up, [] => some up
  | up, .init _ ok :: es => if up then none else svcLife ok es
  | up, .uninit _ :: es => if up then svcLife false es else none
  | up, .finalize _ :: es => svcLife up es

/-- The calls concerning service k. -/
def ofSvc (k : Nat) (es : List SvcEv) : List SvcEv := es.filter (fun e => e.who = k)

end StAsio
