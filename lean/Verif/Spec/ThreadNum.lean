/-!
# What can be seen of the service threads of a pump

Lists of events only; no reference to the code.
-/

set_option autoImplicit false

namespace StAsio

/-- Events of the service threads of one pump. -/
inductive ThreadEv
  | started            -- a service thread begins to run
  | asked (n : Nat)    -- the user asks n threads to leave
  | removed            -- a thread leaves on request
  | refused            -- a request is dropped: no thread leaves for it
  | ended              -- a thread leaves because the io_context has stopped (nothing left to run)
  | threw (cont : Bool)  -- a handler threw, and on_exception answered whether to continue
  | discarded (n : Nat)  -- requests forgotten when the pump stops
  deriving Repr, DecidableEq

/-- How many threads have started. -/
def startedNum (es : List ThreadEv) : Nat := es.count .started
/-- How many threads have left on request. -/
def removedNum (es : List ThreadEv) : Nat := es.count .removed
/-- How many requests were dropped. -/
def refusedNum (es : List ThreadEv) : Nat := es.count .refused
/-- How many threads have ended with their io_context. -/
def endedNum (es : List ThreadEv) : Nat := es.count .ended

/-- How many threads have been asked to leave. -/
def askedNum : List ThreadEv → Nat
  | [] => 0
  | .asked n :: es => n + askedNum es
  | _ :: es => askedNum es

/-- No handler threw. -/
def NoThrow (es : List ThreadEv) : Prop := ∀ b, ThreadEv.threw b ∉ es

end StAsio
