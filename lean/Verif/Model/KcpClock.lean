import Verif.Spec.KcpClock
import Verif.Model.TimedTimer
/-!
Model of the KCP socket's update timer and of the clock it gives to KCP (include/udp/reliable_socket.h:42 create_kcpcb, 54-97 the clock, 100-111 do_start and on_close, 123-161 the updates in do_send_msg and pre_handle_msg, 166-198
timer_handler, 200 release_kcp), on top of one timer (include/timer.h:123 change_timer_interval, 130 set_timer, 157-195 start_timer and timer_handler, 145 and 197-205 stop_timer).

The machine is timed: `tick d` lets `d` microseconds pass. A service thread begins the call back at most `J` microseconds after the timer expired, and the call back takes at most `C` microseconds (it may have to wait for the mutex).
KCP is not part of this repository. Used of it: ikcp_check(kcp, now) returns the 32-bit clock value of a time not before `now`; which one is KCP's choice (the argument `ms` of the actions).
Simplifications: nobody sets the system's clock; the Windows variant of itimeofday is not modelled; the mutex makes ikcp_update together with ikcp_check one step; one timer is modelled as in Model/TimedTimer, with the
stale handlers of a timer that is started again left out, because nobody but its own call back starts this timer while it runs.
-/
set_option autoImplicit false
namespace StAsio

/-- gettimeofday, reliable_socket.h:59-62: seconds and microseconds. -/
def kuTimeOfDay (t : Nat) : Nat × Nat := (t / 1000000, t % 1000000)

/-- iclock64, reliable_socket.h:84-91. -/
def kuClock64 (t : Nat) : Nat := (kuTimeOfDay t).1 * 1000 + (kuTimeOfDay t).2 / 1000

/-- iclock, reliable_socket.h:93-96: the low 32 bits. -/
def kuClock (t : Nat) : Nat := kuClock64 t % 2 ^ 32

/-- ikcp_check(kcp, now), KCP's contract: the clock value `ms` milliseconds from now. -/
def kuCheck (now ms : Nat) : Nat := (now + ms) % 2 ^ 32

/-- `ikcp_check(kcp, now) - now`, an unsigned 32-bit subtraction, reliable_socket.h:105 and 188. -/
def kuWait (now ms : Nat) : Nat := (kuCheck now ms + (2 ^ 32 - now)) % 2 ^ 32

/-- Where the call back is: before the mutex, working with KCP, behind it. -/
inductive KuAt where
  | entered | inside | updated
  deriving DecidableEq, Repr

/-- The update timer: not started, waiting, or in its call back. -/
inductive KuTimer where
  | idle
  | armed (due : Nat)
  | running (began : Nat) (at_ : KuAt)
  deriving DecidableEq, Repr

structure Ku where
  now : Nat
  /-- kcp is not NULL -/
  kcp : Bool
  /-- started(): from start() to close() -/
  opened : Bool
  /-- close() was called, on_close was not yet -/
  closing : Bool
  timer : KuTimer
  /-- the timer's interval, in ms -/
  interval : Nat
  crashed : Bool
  deriving DecidableEq, Repr

def Ku.init (t : Nat) : Ku := { now := t, kcp := false, opened := false, closing := false, timer := .idle, interval := 0, crashed := false }

inductive KuAct where
  | tick (d : Nat)
  | create
  /-- start(), and what KCP answers to ikcp_check -/
  | start (ms : Nat)
  | begin
  /-- the call back gets the mutex -/
  | enter
  /-- the call back calls ikcp_update and ikcp_check; what KCP answers to ikcp_check -/
  | update (ms : Nat)
  | finish
  /-- ikcp_update after a message was sent or a datagram came in -/
  | extra
  | close
  | onClose
  deriving DecidableEq, Repr

/-- Nothing is overdue `d` microseconds from now. -/
def Ku.canTick (J C : Nat) (s : Ku) (d : Nat) : Bool := match s.timer with
  | .idle => true
  | .armed due => decide (s.now + d ≤ due + J)
  | .running b _ => decide (s.now + d ≤ b + C)

/-- One action of a process that did not crash. -/
def Ku.live (aligned : Bool) (J C : Nat) (s : Ku) : KuAct → Option (Ku × List KuEv)
  | .tick d => if s.canTick J C d then some ({ s with now := s.now + d }, []) else none
  | .create => -- reliable_socket.h:42: does not take the mutex
    if s.opened then none
    else match s.timer with
      | .running _ .inside => some ({ s with kcp := true }, [.misuse, .created])
      | _ => some ({ s with kcp := true }, [.created])
  | .start ms => -- socket.h:151-162, reliable_socket.h:100-109, timer.h:130, 157-173
    if s.opened ∨ s.closing then none
    else if s.kcp then
      some ({ s with opened := true, interval := kuWait (kuClock s.now) ms, timer := .armed (s.now + kuWait (kuClock s.now) ms * 1000) }, [.started, .ask s.now ms])
    else some ({ s with opened := true }, [.started])
  | .begin => match s.timer with -- timer.h:175-183
    | .armed due => if due ≤ s.now then some ({ s with timer := .running s.now .entered }, [.began s.now]) else none
    | _ => none
  | .enter => match s.timer with -- reliable_socket.h:182-184
    | .running b .entered => if s.kcp then some ({ s with timer := .running b .inside }, []) else none
    | _ => none
  | .update ms => match s.timer with -- reliable_socket.h:185-189
    | .running b .inside => some ({ s with timer := .running b .updated, interval := kuWait (kuClock s.now) ms }, [.timed s.now (kuClock s.now), .ask s.now ms])
    | _ => none
  | .finish => match s.timer with -- timer.h:183-195
    | .running b .updated =>
      if s.opened then
        match (if aligned then alignedWait 1000 s.interval b s.now else some s.interval) with
        | none => some ({ s with crashed := true }, [.crash])
        | some w => some ({ s with timer := .armed (s.now + w * 1000) }, [])
      else some ({ s with timer := .idle }, [])
    | _ => none
  | .extra => if s.kcp ∧ s.opened then some (s, [.extra s.now (kuClock s.now)]) else none -- reliable_socket.h:133, 150
  | .close => -- socket.h:430-467: stop_all_timer
    if s.opened then some ({ s with opened := false, closing := true, timer := match s.timer with | .armed _ => .idle | t => t }, [.closed]) else none
  | .onClose => -- reliable_socket.h:111, 200; after the last asynchronous call, see C29
    if s.closing ∧ s.timer = .idle then some ({ s with closing := false, kcp := false }, [.onClosed]) else none

/-- After a division by zero nothing happens any more. -/
def Ku.step (aligned : Bool) (J C : Nat) (s : Ku) (a : KuAct) : Option (Ku × List KuEv) := if s.crashed then none else s.live aligned J C a

inductive Ku.Run (aligned : Bool) (J C : Nat) : Ku → List KuAct → Ku → List KuEv → Prop where
  | nil (s : Ku) : Ku.Run aligned J C s [] s []
  | snoc (s s1 s2 : Ku) (as : List KuAct) (a : KuAct) (es fs : List KuEv) :
      Ku.Run aligned J C s as s1 es → Ku.step aligned J C s1 a = some (s2, fs) → Ku.Run aligned J C s (as ++ [a]) s2 (es ++ fs)

def Ku.exec (aligned : Bool) (J C : Nat) : Ku → List KuAct → Option (Ku × List KuEv)
  | s, [] => some (s, [])
  | s, a :: as => do
    let (s1, e1) ← s.step aligned J C a
    let (s2, e2) ← Ku.exec aligned J C s1 as
    some (s2, e1 ++ e2)

end StAsio
