import Verif.Model.TimedTimer
/-!
What the events of a timer say about the time of its calls. `u` ticks are a millisecond; times are read from a clock that cannot be set.
-/
set_option autoImplicit false
namespace StAsio

/-- All starts of the timer, by the program or by the library after a call: when, and for how many milliseconds. -/
def ttStarts : List TtEv → List (Nat × Nat)
  | [] => []
  | .start t ms :: es => (t, ms) :: ttStarts es
  | .again _ t ms :: es => (t, ms) :: ttStarts es
  | _ :: es => ttStarts es

/-- The numbers of the starts for which the call back was invoked. -/
def ttFired : List TtEv → List Nat
  | [] => []
  | .fired _ g :: es => g :: ttFired es
  | _ :: es => ttFired es

/-- The time at which the call back is due: set by each start, gone after a call and after a stop. -/
def dueStep (u : Nat) (d : Option Nat) : TtEv → Option Nat
  | .start t ms => some (t + ms * u)
  | .again _ t ms => some (t + ms * u)
  | .stop _ => none
  | .fired _ _ => none
  | _ => d

def due (u : Nat) (es : List TtEv) : Option Nat := es.foldl (dueStep u) none

/-- The interval in effect. -/
def inEffectStep (n : Nat) : TtEv → Nat
  | .start _ ms => ms
  | .interval ms => ms
  | _ => n

def inEffect (es : List TtEv) : Nat := es.foldl inEffectStep 0

/-- Expiries whose handlers did not run yet. -/
def pendStep (n : Nat) : TtEv → Nat
  | .expired => n + 1
  | .skipped => n - 1
  | .fired _ _ => n - 1
  | _ => n

def pendings (es : List TtEv) : Nat := es.foldl pendStep 0

/-- Running calls of the call back. -/
def callStep (n : Nat) : TtEv → Nat
  | .fired _ _ => n + 1
  | .ended _ _ => n - 1
  | _ => n

def running (es : List TtEv) : Nat := es.foldl callStep 0

/-- The timer is never started while an expiry waits for its handler. -/
def CleanStart (es : List TtEv) : Prop :=
  (∀ pre t ms post, es = pre ++ .start t ms :: post → pendings pre = 0) ∧ (∀ pre b t ms post, es = pre ++ .again b t ms :: post → pendings pre = 0)

/-- The program does not start the timer while an expiry waits for its handler, nor while the call back is running. -/
def Separate (es : List TtEv) : Prop := ∀ pre t ms post, es = pre ++ .start t ms :: post → pendings pre = 0 ∧ running pre = 0

end StAsio
