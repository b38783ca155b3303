import Verif.Model.Timer
/-!
The library restarts its own timers from other threads than the one that runs their handlers: the call back of TIMER_DISPATCH_MSG (include/socket.h:785-787) posts do_dispatch_msg and returns
false; do_dispatch_msg may run at once on another service thread and, if the user refuses the message again, calls set_timer(TIMER_DISPATCH_MSG) (include/socket.h:767) while the first thread is still
inside timer::timer_handler. This machine interleaves the memory accesses of the two threads.

Simplification: only the accesses to timer_info::status and timer_info::seq are looked at; the replacement of call_back during the call is in Model/TimerFunctor.
-/
set_option autoImplicit false
namespace StAsio

/-- The thread in timer_handler, timer.h:190-194, after the call back returned false. -/
inductive TrA where
  | check | write | done
  deriving DecidableEq, Repr

/-- The thread in start_timer, timer.h:157-173, called by set_timer. -/
inductive TrB where
  | status | arm | done
  deriving DecidableEq, Repr

structure TRace where
  seq : Nat
  status : TStatus
  /-- a wait is outstanding -/
  armed : Bool
  a : TrA
  b : TrB
  deriving DecidableEq, Repr

/-- The current schedule expired and its call back returned false. -/
def TRace.init (q : Nat) : TRace := { seq := q, status := .started, armed := false, a := .check, b := .status }

/-- One access by the thread in timer_handler (`true`) or in start_timer (`false`); `q` is prev_seq. -/
def TRace.step (q : Nat) (s : TRace) : Bool → TRace
  | true => match s.a with
    | .check => if q = s.seq then { s with a := .write } else { s with a := .done } -- timer.h:193
    | .write => { s with status := .canceled, a := .done } -- timer.h:194
    | .done => s
  | false => match s.b with
    | .status => { s with status := .started, b := .arm } -- timer.h:162
    | .arm => { s with seq := (s.seq + 1) % 256, armed := true, b := .done } -- timer.h:164, 170
    | .done => s

def TRace.exec (q : Nat) (l : List Bool) : TRace := l.foldl (TRace.step q) (TRace.init q)

/-- The handler of the new wait would invoke the call back (timer.h:190). -/
def TRace.willFire (s : TRace) : Bool := s.armed && s.status == .started

end StAsio
