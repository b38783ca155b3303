/-!
Model of starting and closing a socket: include/socket.h:150-162 (start), 428-467 (close), 781-818 (timer_handler, TIMER_DELAY_CLOSE), 143 (obsoleted) and include/tracked_executor.h:57-67.

Threads are anonymous: `chk` start() calls are between their first test and the lock, `spin` close() calls wait for the lock, `fin` handlers of the closing timer are between change_timer_status(CANCELED) and their end.
`refs` counts the asynchronous calls of the socket, posted, outstanding or running, other than the closing timer: each of them holds a copy of `aci` (tracked_executor.h:35-55), the socket itself holds one and
the running closing timer the other(s) counted by ST_ASIO_MIN_ACI_REF, so is_last_async_call() == 1 exactly if `refs = 0` (that ST_ASIO_MIN_ACI_REF is configured correctly is assumed).

Simplifications: the memory accesses inside set_timer and the end of timer::timer_handler are atomic (Model/TimerRace shows what can happen otherwise). The lowest layer, the unpacker and the statistics are left out.
Exceptions are left out. start() or close() called by on_close()/after_close()/do_start() on the same thread are the same actions as from other threads, hence a close() inside do_start() that is executed at once
(see DESIGN.md, findings) shows up as a close() call that never gets the lock.
-/
set_option autoImplicit false
namespace StAsio

/-- Owner of start_atomic. -/
inductive LHold where
  | free
  /-- start() in do_start() -/
  | starter
  /-- close() behind the lock, started_ not yet cleared -/
  | closer1
  /-- close() behind `started_ = false` -/
  | closer2
  deriving DecidableEq, Repr

/-- Status of TIMER_DELAY_CLOSE. -/
inductive DcPc where
  | none
  | armed
  /-- handler running, before is_last_async_call() -/
  | due
  /-- is_last_async_call() said yes, before on_close() -/
  | checked
  /-- behind on_close(), before change_timer_status -/
  | closed
  deriving DecidableEq, Repr

structure Life where
  started : Bool
  lock : LHold
  chk : Nat
  spin : Nat
  dc : DcPc
  fin : Nat
  refs : Nat
  obsoleted : Bool
  /-- io_context stopped -/
  stopped : Bool
  /-- the flag `aci` of tracked_executor.h:76-89, which replaces counting if ST_ASIO_DELAY_CLOSE > 0 -/
  calling : Bool
  deriving DecidableEq, Repr

/-- socket.h:44-60 -/
def Life.init : Life := { started := false, lock := .free, chk := 0, spin := 0, dc := .none, fin := 0, refs := 0, obsoleted := false, stopped := false, calling := false }

inductive LEv where
  /-- start() enters do_start() -/
  | starting
  /-- started_ became true -/
  | started
  /-- this close() is the one that succeeds -/
  | closed
  /-- close() returned false -/
  | closeFalse
  /-- on_close(), with the number of asynchronous calls pending or running -/
  | onClose (pending : Nat)
  /-- obsoleted_ = true -/
  | obsoleted
  /-- the closing timer is set while it is in use -/
  | bad
  deriving DecidableEq, Repr

inductive LAct where
  /-- start(): the test outside of the lock -/
  | startCheck
  /-- start(): the lock and the test inside -/
  | startLock
  /-- both at once, not interrupted by other threads -/
  | start
  /-- do_start() returns -/
  | startEnd (ok : Bool)
  | closeCall
  | closeLock
  | closeClear
  | closeEnd
  | dcExpire
  | dcCheck
  | dcOnClose
  | dcCancel
  | finEnd
  /-- an asynchronous call begins, from a running one or from do_start() -/
  | spawn
  /-- an asynchronous call begins, from a thread of the user -/
  | extern
  /-- an asynchronous call ends -/
  | finish
  | pumpStop
  | pumpStart
  deriving DecidableEq, Repr

/-- is_timer(TIMER_DELAY_CLOSE): the timer is started until change_timer_status. -/
def Life.isClosing (s : Life) : Bool := s.dc ≠ .none

/-- start(), socket.h:154-158 -/
def Life.tryStart (s : Life) : Life × List LEv :=
  if s.lock = .free ∧ s.started = false then ({ s with lock := .starter }, [.starting]) else (s, [])

/-- `tracked` is ST_ASIO_DELAY_CLOSE == 0. -/
def Life.step (tracked : Bool) (s : Life) : LAct → Option (Life × List LEv)
  | .startCheck => some (if s.started = false ∧ s.isClosing = false ∧ s.stopped = false then { s with chk := s.chk + 1 } else s, []) -- socket.h:152
  | .startLock => if 0 < s.chk then some (Life.tryStart { s with chk := s.chk - 1 }) else none -- socket.h:154-158
  | .start => some (if s.started = false ∧ s.isClosing = false ∧ s.stopped = false then s.tryStart else (s, [])) -- socket.h:152-158
  | .startEnd ok => if s.lock = .starter then some ({ s with started := ok, lock := .free }, if ok then [.started] else []) else none -- socket.h:156
  | .closeCall => some ({ s with spin := s.spin + 1 }, [])
  | .closeLock => -- socket.h:430-437
    if 0 < s.spin ∧ s.lock = .free then
      if s.started then some ({ s with spin := s.spin - 1, lock := .closer1 }, []) else some ({ s with spin := s.spin - 1 }, [.closeFalse])
    else none
  | .closeClear => if s.lock = .closer1 then some ({ s with started := false, lock := .closer2 }, [.closed]) else none -- socket.h:439
  | .closeEnd => -- socket.h:453-466
    if s.lock = .closer2 then
      if s.stopped then some ({ s with lock := .free, obsoleted := true }, [.onClose s.refs, .obsoleted])
      else if s.dc = .none then some ({ s with lock := .free, dc := .armed, calling := true }, [])
      else some ({ s with lock := .free, dc := .armed, calling := true }, [.bad])
    else none
  | .dcExpire => if s.dc = .armed ∧ s.stopped = false then some ({ s with dc := .due }, []) else none
  | .dcCheck => if s.dc = .due then some ({ s with dc := if 0 < s.refs ∧ tracked then .armed else .checked }, []) else none -- socket.h:790-797
  | .dcOnClose => if s.dc = .checked then some ({ s with dc := .closed }, [.onClose s.refs]) else none -- socket.h:806
  | .dcCancel => if s.dc = .closed then some ({ s with dc := .none, fin := s.fin + 1 }, []) else none -- socket.h:807
  | .finEnd => if 0 < s.fin then some ({ s with fin := s.fin - 1, obsoleted := true, calling := false }, [.obsoleted]) else none -- socket.h:809-810
  | .spawn => if 0 < s.refs ∨ s.lock = .starter then some ({ s with refs := s.refs + 1 }, []) else none
  | .extern => some ({ s with refs := s.refs + 1 }, [])
  | .finish => if 0 < s.refs then some ({ s with refs := s.refs - 1 }, []) else none
  | .pumpStop => some ({ s with stopped := true }, [])
  | .pumpStart => some ({ s with stopped := false }, [])

inductive Life.Run (tracked : Bool) : Life → List LAct → Life → List LEv → Prop where
  | nil (s : Life) : Life.Run tracked s [] s []
  | snoc (s s1 s2 : Life) (as : List LAct) (a : LAct) (es es' : List LEv) :
      Life.Run tracked s as s1 es → Life.step tracked s1 a = some (s2, es') → Life.Run tracked s (as ++ [a]) s2 (es ++ es')

def Life.exec (tracked : Bool) : Life → List LAct → Option (Life × List LEv)
  | s, [] => some (s, [])
  | s, a :: as => do
    let (s, es) ← Life.step tracked s a
    let (s, es') ← Life.exec tracked s as
    return (s, es ++ es')

/-- obsoleted(), socket.h:143, tracked_executor.h:58, 83: obsoleted_ and `aci` not shared by any asynchronous call, the closing timer included; with ST_ASIO_DELAY_CLOSE > 0 only the flag is looked at. -/
def Life.declaresObsoleted (tracked : Bool) (s : Life) : Bool := s.obsoleted && if tracked then s.refs == 0 && s.dc == .none && s.fin == 0 else !s.calling

end StAsio
