import Verif.Model.Lifecycle
/-!
The life cycle a user relies on: start, one successful close, one on_close, and only then the next start.
-/
set_option autoImplicit false
namespace StAsio

inductive LPhase where
  /-- never started, or closed and on_close called -/
  | down
  | up
  /-- closed, on_close not called yet -/
  | closing
  deriving DecidableEq, Repr

def LPhase.step : LPhase → LEv → Option LPhase
  | .down, .starting => some .down
  | .down, .started => some .up
  | .up, .closed => some .closing
  | .closing, .onClose _ => some .down
  | .up, .closeFalse => none
  | p, .closeFalse => some p
  | p, .obsoleted => some p
  | _, _ => none

/-- The trace is a sequence of complete rounds start, close, on_close, the last one possibly unfinished; close() fails only if the socket is not up. -/
def LPhase.run : LPhase → List LEv → Option LPhase
  | p, [] => some p
  | p, e :: es => match p.step e with
    | none => none
    | some p => LPhase.run p es

def LEv.isOnClose : LEv → Bool
  | .onClose _ => true
  | _ => false

end StAsio
