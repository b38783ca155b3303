/-!
Links that are managed by name: what a user of socket_management's my_client sees. Names and links are numbers.
-/
set_option autoImplicit false
namespace StAsio

inductive NmEv where
  /-- add_link returned true, the new link is k -/
  | added (n k : Nat)
  /-- add_link returned false: such a link exists -/
  | exists_ (n : Nat)
  /-- shutdown_link(n) shut link k down -/
  | deleted (n k : Nat)
  /-- shutdown_link(n) found no link -/
  | deletedNone (n : Nat)
  /-- send_msg(n, …) gave the message to link k -/
  | told (n k : Nat)
  /-- send_msg(n, …) found no link -/
  | toldNone (n : Nat)
  /-- link k is gone: never connected, broken or shut down -/
  | ended (k : Nat)
  deriving DecidableEq, Repr

/-- The link a name stands for, after a history (latest event first): the one added last under it, as long as it was not deleted and has not ended. -/
def NmEv.current (n : Nat) : List NmEv → Option Nat
  | [] => none
  | .added m k :: es => if m = n then some k else NmEv.current n es
  | .deleted m _ :: es => if m = n then none else NmEv.current n es
  | .ended k :: es => if NmEv.current n es = some k then none else NmEv.current n es
  | _ :: es => NmEv.current n es

/-- A history (latest event first) is right: every answer is about the link the name stood for. -/
def NmEv.right : List NmEv → Prop
  | [] => True
  | e :: es => NmEv.right es ∧ match e with
    | .added n _ => NmEv.current n es = none
    | .exists_ n => NmEv.current n es ≠ none
    | .deleted n k => NmEv.current n es = some k
    | .deletedNone n => NmEv.current n es = none
    | .told n k => NmEv.current n es = some k
    | .toldNone n => NmEv.current n es = none
    | .ended _ => True

/-- The link added last under a name, ended or not (latest event first). -/
def NmEv.latest (n : Nat) : List NmEv → Option Nat
  | [] => none
  | .added m k :: es => if m = n then some k else NmEv.latest n es
  | _ :: es => NmEv.latest n es

/-- Whatever is told or shut down by name is the link added last under this name. -/
def NmEv.own : List NmEv → Prop
  | [] => True
  | e :: es => NmEv.own es ∧ match e with
    | .deleted n k => NmEv.latest n es = some k
    | .told n k => NmEv.latest n es = some k
    | _ => True

end StAsio
