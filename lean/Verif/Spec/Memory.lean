/-!
What may happen to the memory of one pooled socket object, as seen from outside.
-/
set_option autoImplicit false
namespace StAsio

inductive OmEv where
  /-- start() succeeded -/
  | started
  /-- on_close() was called -/
  | onClose
  /-- a handler (or the rest of one) ran on the object, while it exists -/
  | ran
  /-- a handler ran on memory that was freed before -/
  | wild
  /-- the object was destroyed, while this many of its handlers were pending or running -/
  | freed (pending : Nat)
  /-- the object was given out for a new connection, while this many of its handlers were pending or running, this many pointers to it existed elsewhere, and it was (not) started -/
  | reused (pending others : Nat) (up : Bool)
  /-- reset() refused with an exception -/
  | threw
  deriving DecidableEq, Repr

/-- Nothing went wrong. -/
def OmEv.harmless : OmEv → Bool
  | .started => true
  | .onClose => true
  | .ran => true
  | .wild => false
  | .freed n => n == 0
  | .reused n k _ => n == 0 && k == 0
  | .threw => false

/-- The socket was started since it was constructed or given out again. -/
def OmEv.usedFrom (b : Bool) (es : List OmEv) : Bool :=
  es.foldl (fun b e => match e with | .started => true | .reused _ _ _ => false | _ => b) b

end StAsio
