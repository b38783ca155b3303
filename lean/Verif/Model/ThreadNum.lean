import Verif.Spec.ThreadNum

/-!
# service_pump with ST_ASIO_DECREASE_THREAD_AT_RUNTIME: the loop of a service thread (include/service_pump.h:374-376, 447-497)

Every access to one of the two atomic counters is one step; threads are anonymous, so the state holds how many of them stand at each point of the loop.
-/

set_option autoImplicit false

namespace StAsio

/-- The counters real_thread_num and del_thread_num (service_pump.h:542-543; atomic_int_fast32_t, modelled as unbounded integers) and how many threads stand at which point of run() (service_pump.h:447-497). -/
structure Threads where
  real : Int
  del : Int
  fresh : Nat   -- created by add_service_thread, run() not entered yet
  top : Nat     -- before `if (del_thread_num > 0)`
  dec : Nat     -- before `--del_thread_num`
  undo : Nat    -- before `++del_thread_num`
  rdec : Nat    -- before `--real_thread_num` of a removal
  rundo : Nat   -- before `++real_thread_num`
  work : Nat    -- in run_one
  fin : Nat     -- run_one gave 0: before the last `--real_thread_num`
  deriving Repr, DecidableEq

/-- Constructor (service_pump.h:98, 120): no thread, both counters 0. -/
def Threads.init : Threads := ⟨0, 0, 0, 0, 0, 0, 0, 0, 0, 0⟩

inductive ThreadAct
  | spawn (n : Nat)    -- add_service_thread(n), service_pump.h:336-372
  | enter              -- ++real_thread_num, service_pump.h:456
  | request (n : Nat)  -- del_service_thread(n), service_pump.h:375
  | look               -- if (del_thread_num > 0), service_pump.h:459
  | decDel             -- if (--del_thread_num >= 0), service_pump.h:461
  | undoDel            -- ++del_thread_num, service_pump.h:469
  | decReal            -- if (--real_thread_num > 0), service_pump.h:463
  | undoReal           -- ++real_thread_num, service_pump.h:466
  | handled            -- run_one ran a handler, service_pump.h:477-480
  | drained            -- run_one gave 0, service_pump.h:481
  | throws (cont : Bool)  -- a handler threw and on_exception answered cont, service_pump.h:477
  | finish             -- --real_thread_num; break, service_pump.h:483-484
  | joined             -- wait_service after join_all, service_pump.h:414-428
  deriving Repr, DecidableEq

/-- One step. `throws true` leaves this_n at 0, so the thread goes the same way as if run_one had returned 0 (service_pump.h:473-485); `throws false` breaks out of the loop at once, without touching real_thread_num (service_pump.h:477). -/
def Threads.step (s : Threads) : ThreadAct → Option (Threads × List ThreadEv)
  | .spawn n => some ({ s with fresh := s.fresh + n }, [])
  | .enter => if 0 < s.fresh then some ({ s with fresh := s.fresh - 1, real := s.real + 1, top := s.top + 1 }, [.started]) else none
  | .request n => if 0 < n then some ({ s with del := s.del + n }, [.asked n]) else some (s, [])
  | .look =>
    if 0 < s.top then
      if s.del > 0 then some ({ s with top := s.top - 1, dec := s.dec + 1 }, []) else some ({ s with top := s.top - 1, work := s.work + 1 }, [])
    else none
  | .decDel =>
    if 0 < s.dec then
      if s.del - 1 ≥ 0 then some ({ s with dec := s.dec - 1, del := s.del - 1, rdec := s.rdec + 1 }, []) else some ({ s with dec := s.dec - 1, del := s.del - 1, undo := s.undo + 1 }, [])
    else none
  | .undoDel => if 0 < s.undo then some ({ s with undo := s.undo - 1, del := s.del + 1, work := s.work + 1 }, []) else none
  | .decReal =>
    if 0 < s.rdec then
      if s.real - 1 > 0 then some ({ s with rdec := s.rdec - 1, real := s.real - 1 }, [.removed]) else some ({ s with rdec := s.rdec - 1, real := s.real - 1, rundo := s.rundo + 1 }, [.refused])
    else none
  | .undoReal => if 0 < s.rundo then some ({ s with rundo := s.rundo - 1, real := s.real + 1, work := s.work + 1 }, []) else none
  | .handled => if 0 < s.work then some ({ s with work := s.work - 1, top := s.top + 1 }, []) else none
  | .drained => if 0 < s.work then some ({ s with work := s.work - 1, fin := s.fin + 1 }, []) else none
  | .throws cont =>
    if 0 < s.work then
      if cont then some ({ s with work := s.work - 1, fin := s.fin + 1 }, [.threw true]) else some ({ s with work := s.work - 1 }, [.threw false])
    else none
  | .finish => if 0 < s.fin then some ({ s with fin := s.fin - 1, real := s.real - 1 }, [.ended]) else none
  | .joined =>
    if s.fresh + s.top + s.dec + s.undo + s.rdec + s.rundo + s.work + s.fin = 0 then some ({ s with del := 0 }, [.discarded s.del.toNat]) else none

/-- Runs of the machine. -/
inductive Threads.Run : Threads → List ThreadAct → Threads → List ThreadEv → Prop
  | nil (s : Threads) : Threads.Run s [] s []
  | snoc (s s1 s2 : Threads) (as : List ThreadAct) (a : ThreadAct) (es fs : List ThreadEv) : Threads.Run s as s1 es → s1.step a = some (s2, fs) → Threads.Run s (as ++ [a]) s2 (es ++ fs)

/-- Executes a list of steps. -/
def Threads.exec (s : Threads) : List ThreadAct → Option (Threads × List ThreadEv)
  | [] => some (s, [])
  | a :: as => do
    let (s1, e1) ← s.step a
    let (s2, e2) ← Threads.exec s1 as
    pure (s2, e1 ++ e2)

/-- n service threads, all of them in run_one, no request: how the pump looks after it has been started with n threads. -/
def Threads.steady (n : Nat) : Threads := { Threads.init with real := n, work := n }

/-- Steps of running threads only: no request, no thread added, no exception, no stop. -/
def ThreadAct.quiet : ThreadAct → Bool
  | .look | .decDel | .undoDel | .decReal | .undoReal | .handled => true
  | _ => false

/-- As before, but with requests by the user. -/
def ThreadAct.regular (a : ThreadAct) : Bool := a.quiet || match a with | .request _ => true | _ => false

/-- No request is pending and no thread is just dealing with one. -/
def Threads.Settled (s : Threads) : Prop := s.del = 0 ∧ s.dec = 0 ∧ s.undo = 0 ∧ s.rdec = 0 ∧ s.rundo = 0

/-! ### the other two loops (service_pump.h:487-491), one thread -/

/-- What one call of io_context::run() does: it returns because the io_context has stopped, or lets an exception of a handler through, and on_exception answers. -/
inductive RunOutcome
  | returned
  | threw (cont : Bool)
  deriving Repr, DecidableEq

/-- `while (true) {try {n += run(); break;} catch {if (!on_exception(e)) break;}}` (service_pump.h:490): how many calls of run() are made, none if the thread goes on after the listed outcomes. -/
def plainLoop : List RunOutcome → Option Nat
  | [] => none
  | .returned :: _ => some 1
  | .threw true :: os => (plainLoop os).map (· + 1)
  | .threw false :: _ => some 1

end StAsio
