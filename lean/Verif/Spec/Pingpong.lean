/-!
What the pingpong test shows to its user, for one link.
-/
set_option autoImplicit false
namespace StAsio

inductive PpEv where
  /-- a test began: this many rounds with this many bytes each -/
  | began (num len : Nat)
  /-- the client received this many bytes -/
  | got (k : Nat)
  /-- the link reported its test as completed -/
  | completed
  deriving DecidableEq, Repr

/-- A link's history is right: a test is reported exactly when the bytes received since it began reach what it is about, once, and never otherwise. `st`: bytes still missing, if a test is going on. -/
def PpEv.rightFrom : Option Nat → List PpEv → Bool
  | _, [] => true
  | none, .began n l :: es => PpEv.rightFrom (some (n * l)) es
  | some _, .began _ _ :: _ => false
  | none, .got _ :: es => PpEv.rightFrom none es
  | some m, .got k :: es => if k < m then PpEv.rightFrom (some (m - k)) es else match es with
    | .completed :: es => PpEv.rightFrom none es
    | _ => false
  | _, .completed :: _ => false

end StAsio
