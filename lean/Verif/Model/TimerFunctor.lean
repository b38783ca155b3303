import Verif.Model.Timer
import Verif.Spec.TimerFunctor
/-!
The function objects of one timer (include/timer.h:60 call_back), on top of Model/Timer.

timer_handler (timer.h:190) invokes ti.call_back where it is stored. set_timer and change_timer_call_back swap the new function object in (timer.h:113, 126). The old one is then
in `unused` (timer.h:120, 127), which is destroyed when the function returns, or, with the overloads that take a non-const reference, in the caller's variable.
Neither is the case that the call back is running looked at, nor is there a copy that is invoked instead.

boost::function contract used: swap exchanges the objects without copying the ones that do not fit the small buffer (three words), destroying a boost::function destroys and frees its object.
boost::lambda contract used: `if_then_else_return(bind(f, ...), a, b)` and `(bind(f, ...), a)` call f, and then read the constant a or b, a member of the function object. boost::bind(f, ...) does nothing
after f returned. `reads` tells them apart.

In the library: TIMER_ASYNC_SHUTDOWN (tcp/socket.h:236, 313, 469), TIMER_CHECK_RECV (socket.h:723), TIMER_HEARTBEAT_CHECK (socket.h:184), TIMER_CONNECT (client_socket.h:128, 209), TIMER_CONNECT_DELAY
(client_socket.h:138) and the timers of object_pool (object_pool.h:53, 56) read; TIMER_DISPATCH_MSG, TIMER_DELAY_CLOSE (socket.h:463, 750, 767), TIMER_KCP_UPDATE and TIMER_CC (udp/reliable_socket.h:105, 119) do not.

Simplifications: a call back is invoked and returns in two steps, between which everything else may happen (on the same thread: the call back itself does it; or on others); all other functions are atomic.
Time is left out. That a set_timer fails for lack of memory is left out.
-/
set_option autoImplicit false
namespace StAsio

structure Cf where
  tm : Tm
  /-- the number of the next function object -/
  fresh : Nat
  /-- the function objects that read their members after what they wrap returned -/
  readers : List Nat
  /-- swapped out into variables of the users -/
  kept : List Nat
  /-- invocations in progress: function object and prev_seq -/
  runs : List (Nat × Nat)
  deriving DecidableEq, Repr

/-- No call back yet. -/
def Cf.init : Cf := { tm := Tm.new 0, fresh := 0, readers := [], kept := [], runs := [] }

inductive CfAct where
  /-- set_timer (`start`) or change_timer_call_back, with a function object that `reads`; `keep`: the overload with a non-const reference -/
  | set (reads keep start : Bool)
  | start
  | stop
  /-- the i-th of the users' variables is destroyed -/
  | drop (i : Nat)
  | expire
  /-- the i-th queued timer_handler runs, up to the invocation of the call back -/
  | handler (i : Nat)
  /-- the i-th invocation returns `r` -/
  | ret (i : Nat) (r : Bool)
  deriving DecidableEq, Repr

def Cf.step (s : Cf) : CfAct → Option (Cf × List CfEv)
  | .set reads keep start => -- timer.h:112-116, 119-120, 126-127
    let t := { s.tm with cb := some s.fresh }
    let s' := { s with tm := if start then t.start.1 else t, fresh := s.fresh + 1, readers := if reads then s.fresh :: s.readers else s.readers }
    match s.tm.cb with
    | none => some (s', [])
    | some o => if keep then some ({ s' with kept := o :: s.kept }, []) else some (s', [.destroyed o])
  | .start => some ({ s with tm := s.tm.start.1 }, []) -- timer.h:144, 157-173
  | .stop => some ({ s with tm := s.tm.stop }, []) -- timer.h:145, 197-205
  | .drop i => match s.kept[i]? with
    | none => none
    | some o => some ({ s with kept := s.kept.eraseIdx i }, [.destroyed o])
  | .expire => match s.tm.armed with
    | none => none
    | some (q, g) => some ({ s with tm := { s.tm with armed := none, queue := s.tm.queue ++ [⟨true, q, g⟩] } }, [])
  | .handler i => match s.tm.queue[i]? with -- timer.h:175-195
    | none => none
    | some w =>
      let t := { s.tm with queue := s.tm.queue.eraseIdx i }
      if s.tm.status = .started ∧ w.ok = true then
        match s.tm.cb with
        | none => none -- a timer without call back is never started (timer.h:159)
        | some o => some ({ s with tm := t, runs := s.runs ++ [(o, w.seq)] }, [.called o])
      else some ({ s with tm := Tm.after w.seq false t }, [])
  | .ret i r => match s.runs[i]? with -- timer.h:190-194
    | none => none
    | some (o, q) => some ({ s with tm := Tm.after q r s.tm, runs := s.runs.eraseIdx i }, [.returned o (s.readers.contains o)])

inductive Cf.Run : Cf → List CfAct → Cf → List CfEv → Prop where
  | nil (s : Cf) : Cf.Run s [] s []
  | snoc (s s1 s2 : Cf) (as : List CfAct) (a : CfAct) (es es' : List CfEv) : Cf.Run s as s1 es → s1.step a = some (s2, es') → Cf.Run s (as ++ [a]) s2 (es ++ es')

def Cf.exec : Cf → List CfAct → Option (Cf × List CfEv)
  | s, [] => some (s, [])
  | s, a :: as => do
    let (s, es) ← s.step a
    let (s, es') ← Cf.exec s as
    return (s, es ++ es')

/-- Runs in which every action is allowed by `p` in the state where it happens. -/
inductive Cf.GoodRun (p : Cf → CfAct → Bool) : Cf → List CfAct → Cf → List CfEv → Prop where
  | nil (s : Cf) : Cf.GoodRun p s [] s []
  | snoc (s s1 s2 : Cf) (as : List CfAct) (a : CfAct) (es es' : List CfEv) : Cf.GoodRun p s as s1 es → p s1 a = true → s1.step a = some (s2, es') → Cf.GoodRun p s (as ++ [a]) s2 (es ++ es')

def Cf.goodExec (p : Cf → CfAct → Bool) : Cf → List CfAct → Option (Cf × List CfEv)
  | s, [] => some (s, [])
  | s, a :: as => do
    let (s, es) ← if p s a then s.step a else none
    let (s, es') ← Cf.goodExec p s as
    return (s, es ++ es')

/-- The call back is replaced only while it is not running, or by somebody who keeps the old one until it is not running. -/
def Cf.careful (s : Cf) : CfAct → Bool
  | .set _ keep _ => keep || s.runs.all (fun r => some r.1 != s.tm.cb)
  | .drop i => match s.kept[i]? with
    | none => true
    | some o => s.runs.all (fun r => r.1 != o)
  | _ => true

/-- How the library uses TIMER_CONNECT (client_socket.h:138-146) and TIMER_HEARTBEAT_CHECK (socket.h:183): set again only if is_timer() is false. For that to be enough, the handlers of
stopped waits must have run before, and the timer must not be stopped (or started) while its call back is running. -/
def Cf.guarded (s : Cf) : CfAct → Bool
  | .set _ _ _ => decide (s.tm.status ≠ .started) && s.tm.queue.isEmpty
  | .start => decide (s.tm.status ≠ .started) && s.tm.queue.isEmpty
  | .stop => s.runs.isEmpty
  | _ => true

/-- All function objects are of the kind that does nothing after what they wrap returned. -/
def Cf.plain (_ : Cf) : CfAct → Bool
  | .set reads _ _ => !reads
  | _ => true

/-- A graceful shutdown that the peer never answers, `n + 1` rounds (tcp/socket.h:313-314, 462-481): each call back but the last replaces itself. -/
def Cf.rounds : Nat → List CfAct
  | 0 => [.expire, .handler 0, .ret 0 false]
  | n + 1 => [.expire, .handler 0, .set true false false, .ret 0 true] ++ Cf.rounds n

end StAsio
