import Verif.Spec.Reconnect
/-!
What can be seen of a short client: events of the connection, and what the thread that sends the message has done. No reference to the code.
-/
set_option autoImplicit false
namespace StAsio

/-- `registered`: the callback for on_connect is in place; `race`: on_connect is called while the callback is being put in place. -/
inductive ShEv
  | cli (e : CliEv)
  | registered
  | race
  deriving Repr, DecidableEq

/-- The events of the connection. -/
def ShEv.clis : List ShEv → List CliEv
  | [] => []
  | .cli e :: es => e :: ShEv.clis es
  | _ :: es => ShEv.clis es

/-- No connection is established before the callback is in place. -/
def inTime : List ShEv → Prop
  | [] => True
  | .registered :: _ => True
  | .cli .connected :: _ => False
  | _ :: es => inTime es

/-- How many connections were established. -/
def connects (es : List ShEv) : Nat := (ShEv.clis es).countP (· == .connected)

/-- What the link did from its first connection on. -/
def fromConnect (es : List ShEv) : List CliEv := (ShEv.clis es).dropWhile (· != .connected)

end StAsio
