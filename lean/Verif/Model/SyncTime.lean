import Verif.Spec.SyncTime

/-!
# Synchronous reception and time

The machine of Model/SyncRecv.lean with a clock. Threads that can run do so before time passes: what is shown is the time that the library lets a caller wait, not what a busy computer adds.
-/

set_option autoImplicit false

namespace StAsio

/-- `since`, `dur`: when the last admitted caller came and the duration it gave (socket.h:282). -/
structure Sw where
  sr : Sr
  now : Nat
  since : Nat
  dur : Nat
  deriving DecidableEq, Repr

def Sw.init : Sw := ⟨Sr.init, 0, 0, 0⟩

inductive SwAct where
  /-- sync_recv_msg(msg_can, d) -/
  | call (d : Nat) (stopped : Bool)
  /-- wait_for has waited until the end of the duration -/
  | timeout
  /-- any other step of Model/SyncRecv.lean -/
  | act (a : SAct)
  /-- a unit of time passes -/
  | tick
  deriving DecidableEq, Repr

/-- Is this a call or the end of a duration? They are not steps of the kind `act`. -/
def SAct.clocked : SAct → Bool
  | .call _ _ | .timeout => true
  | _ => false

/-- No thread can run: nobody is between a test and its blocking, nobody has been notified and not run yet, no completed read waits to be handled, close() has notified. -/
def Sr.resting (s : Sr) : Bool :=
  !s.closing && (s.caller == .none || s.caller == .blocked) && (match s.strand with | .idle | .blocked _ | .eblocked => true | _ => false)

/-- The caller has waited until the end of its duration, socket.h:686. -/
def Sw.due (s : Sw) : Bool := s.sr.caller != .none && s.dur != 0 && decide (s.since + s.dur ≤ s.now)

/-- One step. wait_for (socket.h:686) returns because of the time only at the end of the duration; 0 is waiting without end (socket.h:684-685). -/
def Sw.step (s : Sw) : SwAct → Option (Sw × List SwEv)
  | .call d stopped => match s.sr.step (.call (d != 0) stopped) with -- socket.h:282-302
    | some (r, .called :: es) => some ({ s with sr := r, since := s.now, dur := d }, .called d :: es.map .ev)
    | some (r, es) => some ({ s with sr := r }, es.map .ev)
    | none => none
  | .timeout =>
    if s.due then match s.sr.step .timeout with
      | some (r, es) => some ({ s with sr := r }, es.map .ev)
      | none => none
    else none
  | .act a =>
    if a.clocked then none
    else match s.sr.step a with
      | some (r, es) => some ({ s with sr := r }, es.map .ev)
      | none => none
  | .tick => if s.sr.resting && !s.due then some ({ s with now := s.now + 1 }, [.tick]) else none

inductive Sw.Run : Sw → List SwAct → Sw → List SwEv → Prop where
  | nil (s : Sw) : Sw.Run s [] s []
  | snoc (s s1 s2 : Sw) (as : List SwAct) (a : SwAct) (es es' : List SwEv) :
      Sw.Run s as s1 es → Sw.step s1 a = some (s2, es') → Sw.Run s (as ++ [a]) s2 (es ++ es')

/-- Executes a list of steps. -/
def Sw.exec : Sw → List SwAct → Option (Sw × List SwEv)
  | s, [] => some (s, [])
  | s, a :: as => match s.step a with
    | some (s1, es) => match Sw.exec s1 as with
      | some (s2, es') => some (s2, es ++ es')
      | none => none
    | none => none

end StAsio
