/-!
What may happen to the function objects a timer was given, as seen from outside. Every function object has a number.
-/
set_option autoImplicit false
namespace StAsio

inductive CfEv where
  /-- the function object is invoked -/
  | called (o : Nat)
  /-- what it wraps returned; `reads`: after that the function object looks at its own members -/
  | returned (o : Nat) (reads : Bool)
  /-- the function object is destroyed and its memory freed -/
  | destroyed (o : Nat)
  deriving DecidableEq, Repr

/-- The function objects destroyed in a history. -/
def CfEv.deadOf (es : List CfEv) : List Nat := es.filterMap (fun e => match e with | .destroyed o => some o | _ => none)

/-- No function object is used (or destroyed again) after it was destroyed; those in `dead` were destroyed before. -/
def CfEv.fineFrom : List Nat → List CfEv → Bool
  | _, [] => true
  | dead, .called o :: es => !dead.contains o && CfEv.fineFrom dead es
  | dead, .returned o reads :: es => !(reads && dead.contains o) && CfEv.fineFrom dead es
  | dead, .destroyed o :: es => !dead.contains o && CfEv.fineFrom (o :: dead) es

def CfEv.fine (es : List CfEv) : Bool := CfEv.fineFrom [] es

end StAsio
