import Verif.Model.Queue
import Verif.Spec.Bytes
/-!
Model of reception and message dispatching as a concurrent machine: the receiving chain in rw_strand, do_dispatch_msg in dis_strand,
the timers TIMER_DISPATCH_MSG and TIMER_CHECK_RECV, users that pop messages, close and reconnect.

Sources: include/socket.h:100-107 (clear_buffer), 322-334 (do_start), 483-536 (handle_msg), 693-726 (check_receiving, handled_msg), 729-779 (dispatch_msg,
do_dispatch_msg, the variant without ST_ASIO_DISPATCH_BATCH_MSG), 781-787 (timer_handler), include/tcp/socket.h:329-382 (do_recv_msg, recv_handler).

Simplifications: ST_ASIO_SYNC_RECV (see Model/SyncRecv), ST_ASIO_SYNC_DISPATCH and ST_ASIO_PASSIVE_RECV are not defined. Statistics are left
out. One action is one access to shared state; accesses are sequentially consistent. A timer is `armed` or not; it may expire at any time once armed,
because time is not modelled. A task posted before the socket is closed runs before on_close (tracked_executor).
-/
set_option autoImplicit false
namespace StAsio

/-- Where do_dispatch_msg is, include/socket.h:731-779. -/
inductive DPc where
  | idle
  /-- behind line 755, `dispatching || try_dequeue` was true -/
  | got
  /-- in on_msg_handle, line 760 -/
  | handling
  /-- on_msg_handle returned true, dispatching_msg cleared, before line 773 -/
  | clearing
  /-- before line 774 -/
  | posting
  /-- on_msg_handle returned false, before line 767 -/
  | refused
  deriving DecidableEq, Repr

/-- Where the receiving chain is. There is one token: do_recv_msg -> recv_handler -> handle_msg -> do_recv_msg ... -/
inductive RPc where
  /-- async_read outstanding -/
  | reading
  /-- in handle_msg behind move_items_in, before `dispatching` is read (socket.h:729) -/
  | moved
  /-- in handled_msg, socket.h:717 -/
  | check
  /-- TIMER_CHECK_RECV armed -/
  | timer
  /-- recv_msg() called by check_receiving, do_recv_msg not run yet -/
  | resume
  /-- nobody receives -/
  | off
  deriving DecidableEq, Repr

inductive REv where
  /-- messages put into the receive buffer -/
  | received (ms : List Bytes)
  /-- left the receive buffer to be dispatched -/
  | taken (m : Bytes)
  /-- on_msg_handle(m) called -/
  | call (m : Bytes)
  /-- on_msg_handle(m) returned -/
  | ret (m : Bytes) (ok : Bool)
  | popped (ms : List Bytes)
  | cleared
  deriving DecidableEq, Repr

structure Rx where
  buf : Q Bytes
  dispatching : Bool
  cur : Option Bytes
  pc : DPc
  posted : Nat
  /-- TIMER_DISPATCH_MSG armed -/
  dtimer : Bool
  /-- (history) TIMER_DISPATCH_MSG was stopped (close) or lost, and nothing was dispatched since -/
  dlost : Bool
  rd : RPc
  bad : Bool
  deriving DecidableEq, Repr

def Rx.init : Rx := { buf := Q.init, dispatching := false, cur := none, pc := .idle, posted := 0, dtimer := false, dlost := false, rd := .off, bad := false }

inductive RAct where
  /-- async_read completed and yielded these messages -/
  | read (ms : List Bytes)
  /-- async_read failed, or the socket was closed -/
  | readError
  | loadDisp
  | handled
  | checkTimer
  | resume
  | run
  | begin
  | ret (ok : Bool)
  | dis
  | dtimer
  /-- close() stops TIMER_DISPATCH_MSG -/
  | loseDispatch
  /-- close() stops TIMER_CHECK_RECV -/
  | loseCheck
  | pop
  | popAll
  /-- do_start() calls recv_msg() -/
  | linkUp
  | reset
  deriving DecidableEq, Repr

def rsz (m : Bytes) : Nat := m.length

/-- is_recv_buffer_available, socket.h:261 -/
def Rx.available (limit : Nat) (s : Rx) : Bool := s.buf.total < limit

def Rx.step (limit : Nat) (s : Rx) : RAct → Option (Rx × List REv)
  | .read ms => -- recv_handler + handle_msg, tcp/socket.h:347-371, socket.h:485-533
    if s.rd ≠ .reading then none
    else if ms.isEmpty then some ({ s with rd := .check }, [])
    else match s.buf.moveIn rsz ms (getSizeInByte rsz ms) with
      | none => some ({ s with bad := true }, [])
      | some q => some ({ s with buf := q, rd := .moved }, [.received ms])
  | .readError => if s.rd = .reading ∨ s.rd = .resume then some ({ s with rd := .off }, []) else none -- tcp/socket.h:377-381
  | .loadDisp => -- dispatch_msg, socket.h:729
    if s.rd ≠ .moved then none else some ({ s with posted := if s.dispatching then s.posted else s.posted + 1, rd := .check }, [])
  | .handled => -- handled_msg, socket.h:717-726
    if s.rd ≠ .check then none else some ({ s with rd := if s.available limit then .reading else .timer }, [])
  | .checkTimer => -- check_receiving(true), socket.h:693-715
    if s.rd ≠ .timer then none else some ({ s with rd := if s.available limit then .resume else .timer }, [])
  | .resume => if s.rd ≠ .resume then none else some ({ s with rd := .reading }, []) -- do_recv_msg, tcp/socket.h:329-345
  | .run => -- do_dispatch_msg, socket.h:755, 777-778
    if s.posted = 0 ∨ s.pc ≠ .idle then none
    else if s.dispatching then some ({ s with posted := s.posted - 1, pc := .got, bad := s.bad || s.cur.isNone }, [])
    else match s.buf.tryDequeue rsz with
      | (_, none) => some ({ s with posted := s.posted - 1, dispatching := false }, [])
      | (q, some m) => some ({ s with posted := s.posted - 1, buf := q, cur := some m, pc := .got, bad := s.bad || s.cur.isSome }, [.taken m])
  | .begin => -- socket.h:757-760
    if s.pc ≠ .got then none
    else match s.cur with
      | none => some ({ s with bad := true }, [])
      | some m => some ({ s with dispatching := true, pc := .handling }, [.call m])
  | .ret ok => -- socket.h:760-771
    if s.pc ≠ .handling then none
    else match s.cur with
      | none => some ({ s with bad := true }, [])
      | some m => if ok then some ({ s with cur := none, pc := .clearing }, [.ret m true]) else some ({ s with pc := .refused }, [.ret m false])
  | .dis => match s.pc with
    | .clearing => some ({ s with dispatching := false, pc := .posting, dlost := false }, []) -- socket.h:773
    | .posting => some ({ s with posted := s.posted + 1, pc := .idle }, []) -- socket.h:774
    | .refused => some ({ s with dtimer := true, pc := .idle, dlost := false }, []) -- socket.h:767
    | _ => none
  | .dtimer => if s.dtimer then some ({ s with dtimer := false, posted := s.posted + 1 }, []) else none -- socket.h:785-787
  | .loseDispatch => if s.dtimer then some ({ s with dtimer := false, dlost := true }, []) else none -- close, socket.h:443; timer_handler, socket.h:793
  | .loseCheck => if s.rd = .timer then some ({ s with rd := .off }, []) else none
  | .pop => match s.buf.tryDequeue rsz with -- socket.h:318
    | (_, none) => some (s, [])
    | (q, some m) => some ({ s with buf := q }, [.popped [m]])
  | .popAll => -- socket.h:319
    let r := s.buf.swap rsz []
    some ({ s with buf := r.1 }, [.popped r.2])
  | .linkUp => -- socket.h:322-334; for a reconnecting client there was no reset() (client_socket.h:172, after_close)
    if s.posted = 0 ∧ s.pc = .idle ∧ s.dtimer = false ∧ s.rd = .off then some ({ s with rd := .reading }, []) else none
  | .reset => -- socket.h:95-97
    if s.posted = 0 ∧ s.pc = .idle ∧ s.dtimer = false ∧ s.rd = .off then some ({ s with buf := s.buf.clear, cur := none, dispatching := false, dlost := false }, [.cleared]) else none

inductive Rx.Run (limit : Nat) : Rx → List RAct → Rx → List REv → Prop where
  | nil (s : Rx) : Rx.Run limit s [] s []
  | snoc (s s1 s2 : Rx) (as : List RAct) (a : RAct) (es es' : List REv) :
      Rx.Run limit s as s1 es → Rx.step limit s1 a = some (s2, es') → Rx.Run limit s (as ++ [a]) s2 (es ++ es')

def Rx.exec (limit : Nat) : Rx → List RAct → Option (Rx × List REv)
  | s, [] => some (s, [])
  | s, a :: as => do
    let (s, es) ← s.step limit a
    let (s, es') ← Rx.exec limit s as
    return (s, es ++ es')

end StAsio
