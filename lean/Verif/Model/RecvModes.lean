import Verif.Model.RecvDispatch
import Verif.Spec.RecvModes
/-!
Reception and dispatching with the macros ST_ASIO_DISPATCH_BATCH_MSG, ST_ASIO_SYNC_DISPATCH and ST_ASIO_PASSIVE_RECV, in all eight combinations. (Model/RecvDispatch is the
combination with none of them, in which a read and its recv_handler are one token.)

Sources: include/socket.h:164-170 (recv_msg, is_reading), 322-334 (do_start), 420-421 (clear_reading, test_and_set_reading), 483-536 (handle_msg), 693-726 (check_receiving, handled_msg), 729-779 (dispatch_msg,
do_dispatch_msg), 781-787 (timer_handler), include/tcp/socket.h:329-382 (do_recv_msg, recv_handler), include/udp/socket.h:268-328 (the same for UDP).

Simplifications: ST_ASIO_SYNC_RECV is not defined (see Model/SyncRecv). Statistics are left out. One action is one access to shared state, accesses are sequentially consistent. do_recv_msg and recv_handler run in rw_strand,
one at a time, except that recv_msg() called within on_msg runs do_recv_msg at once (dispatch within the strand). Timers expire at any time. The queue of batch mode is used by on_msg_handle with try_dequeue and swap only. A failed assertion sets `bad`.
-/
set_option autoImplicit false
namespace StAsio

/-- ST_ASIO_DISPATCH_BATCH_MSG, ST_ASIO_SYNC_DISPATCH, ST_ASIO_PASSIVE_RECV -/
structure MCfg where
  batch : Bool
  sync : Bool
  passive : Bool
  deriving DecidableEq, Repr

/-- Where recv_handler is. -/
inductive HPc where
  | idle
  /-- parse_msg returned, before handle_msg: tcp/socket.h:357-368 -/
  | parsed
  /-- in on_msg, socket.h:510 -/
  | inMsg
  /-- behind move_items_in, before `dispatching` is read: socket.h:531, 729 -/
  | moved
  /-- in handled_msg, socket.h:717 -/
  | check
  deriving DecidableEq, Repr

structure Rm where
  buf : Q Bytes
  dispatching : Bool
  cur : Option Bytes
  pc : DPc
  posted : Nat
  dtimer : Bool
  /-- (history) TIMER_DISPATCH_MSG was stopped (close), and nothing was dispatched since -/
  dlost : Bool
  /-- is_ready() -/
  ready : Bool
  /-- the flag `reading` (passive mode) -/
  reading : Bool
  /-- do_recv_msg posted to rw_strand -/
  rposted : Nat
  /-- async_read outstanding -/
  out : Bool
  hp : HPc
  /-- recv_handler has an error code -/
  ec : Bool
  temp : List Bytes
  /-- TIMER_CHECK_RECV armed -/
  ctimer : Bool
  bad : Bool
  deriving DecidableEq, Repr

def Rm.init : Rm :=
  { buf := Q.init, dispatching := false, cur := none, pc := .idle, posted := 0, dtimer := false, dlost := false, ready := false, reading := false, rposted := 0, out := false, hp := .idle, ec := false, temp := [],
    ctimer := false, bad := false }

inductive MAct where
  /-- the user calls recv_msg(), passive mode only -/
  | userRecv
  /-- do_recv_msg; `ok`: the unpacker returned a buffer -/
  | doRecv (ok : Bool)
  /-- async_read completed, bytes_transferred > 0 (or UDP), these messages were parsed; `ec`: with an error code as well -/
  | read (ms : List Bytes) (ec : Bool)
  /-- async_read failed -/
  | readError
  /-- handle_msg up to on_msg or move_items_in -/
  | handle
  /-- on_msg returns n and has left these messages -/
  | onMsgRet (left : List Bytes) (n : Nat)
  | loadDisp
  | handled (ok : Bool)
  | checkTimer
  | run
  | begin
  | ret (ok : Bool)
  | takeOne
  | takeAll
  | retAll (n : Nat)
  | dis
  | dtimer
  | loseDispatch
  | loseCheck
  | pop
  | popAll
  /-- do_start -/
  | linkUp
  /-- the link breaks or is shut down: is_ready() becomes false -/
  | linkDown
  | reset
  deriving DecidableEq, Repr

/-- is_recv_buffer_available, socket.h:261 -/
def Rm.available (limit : Nat) (s : Rm) : Bool := s.buf.total < limit

/-- async_read of do_recv_msg, tcp/socket.h:337-344. -/
def Rm.startRead (c : MCfg) (ok : Bool) (s : Rm) : Rm × List MEv :=
  if ok then ({ s with out := true, reading := c.passive, bad := s.bad || s.out }, [.readBegin]) else (s, [])

/-- Lines 523-531 of socket.h: what is left goes into the receive buffer; `size` is size_in_byte. -/
def Rm.enqueue (s : Rm) (ms : List Bytes) (size : Nat) : Rm × List MEv :=
  match s.buf.moveIn rsz ms size with
  | none => ({ s with bad := true }, [])
  | some q => ({ s with buf := q, hp := .moved, temp := [] }, [.queued ms])

/-- Nothing runs, nothing is armed and nothing is posted: on_close may be called. -/
def Rm.still (s : Rm) : Bool := s.posted = 0 && s.pc = .idle && s.dtimer = false && s.hp = .idle && s.out = false && s.rposted = 0 && s.ctimer = false

def Rm.step (c : MCfg) (limit : Nat) (s : Rm) : MAct → Option (Rm × List MEv)
  | .userRecv => -- socket.h:166
    if c.passive = false then none
    else some ({ s with rposted := if s.ready ∧ s.reading = false then s.rposted + 1 else s.rposted }, [.asked])
  | .doRecv ok => -- tcp/socket.h:329-345
    if s.rposted = 0 ∨ ¬ (s.hp = .idle ∨ s.hp = .inMsg) then none
    else if c.passive ∧ (s.ready = false ∨ s.reading) then some ({ s with rposted := s.rposted - 1 }, [])
    else some (Rm.startRead c ok { s with rposted := s.rposted - 1 })
  | .read ms ec => -- recv_handler up to parse_msg, tcp/socket.h:347-366
    if s.out = false ∨ s.hp ≠ .idle then none else some ({ s with out := false, reading := false, hp := .parsed, ec := ec, temp := ms }, [.received ms])
  | .readError => -- tcp/socket.h:350, 377-381
    if s.out = false ∨ s.hp ≠ .idle then none else some ({ s with out := false, reading := false }, [.readFailed])
  | .handle => -- socket.h:503-531
    if s.hp ≠ .parsed then none
    else if c.sync then
      if c.passive ∨ s.temp ≠ [] then some ({ s with hp := .inMsg }, [.onMsg s.temp]) else some ({ s with hp := .check }, [])
    else if s.temp = [] then
      if c.passive then some (s.enqueue [[]] (getSizeInByte rsz s.temp)) else some ({ s with hp := .check }, [])
    else some (s.enqueue s.temp (getSizeInByte rsz s.temp))
  | .onMsgRet left n => -- socket.h:508-531
    if s.hp ≠ .inMsg then none
    else if 0 < n then
      if left = [] then some ({ s with hp := .check, temp := [] }, [.onMsgRet left n])
      else
        let r := s.enqueue left 0
        some (r.1, .onMsgRet left n :: r.2)
    else if s.temp = [] then some ({ s with hp := .check, temp := left }, [.onMsgRet left n])
    else
      let r := s.enqueue left (getSizeInByte rsz s.temp)
      some (r.1, .onMsgRet left n :: r.2)
  | .loadDisp => -- dispatch_msg, socket.h:729
    if s.hp ≠ .moved then none else some ({ s with posted := if s.dispatching then s.posted else s.posted + 1, hp := .check }, [])
  | .handled ok => -- handled_msg, socket.h:717-726, then do_recv_msg, tcp/socket.h:368-369
    if s.hp ≠ .check then none
    else if c.passive then some ({ s with hp := .idle }, [])
    else if s.available limit then
      if s.ec then some ({ s with hp := .idle }, []) else some (Rm.startRead c ok { s with hp := .idle })
    else some ({ s with hp := .idle, ctimer := true }, [])
  | .checkTimer => -- check_receiving(true), socket.h:693-715
    if s.ctimer = false then none else if s.available limit then some ({ s with ctimer := false, rposted := s.rposted + 1 }, []) else some (s, [])
  | .run => -- do_dispatch_msg, socket.h:734 or 755, 777-778
    if s.posted = 0 ∨ s.pc ≠ .idle then none
    else if c.batch then
      if s.buf.items = [] then some ({ s with posted := s.posted - 1, dispatching := false }, []) else some ({ s with posted := s.posted - 1, pc := .got }, [])
    else if s.dispatching then some ({ s with posted := s.posted - 1, pc := .got, bad := s.bad || s.cur.isNone }, [])
    else match s.buf.tryDequeue rsz with
      | (_, none) => some ({ s with posted := s.posted - 1, dispatching := false }, [])
      | (q, some m) => some ({ s with posted := s.posted - 1, buf := q, cur := some m, pc := .got, bad := s.bad || s.cur.isSome }, [.taken m])
  | .begin => -- socket.h:736-741 or 757-760
    if s.pc ≠ .got then none
    else if c.batch then some ({ s with dispatching := true, pc := .handling }, [.callAll])
    else match s.cur with
      | none => some ({ s with bad := true }, [])
      | some m => some ({ s with dispatching := true, pc := .handling }, [.call m])
  | .ret ok => -- socket.h:760-771
    if s.pc ≠ .handling ∨ c.batch then none
    else match s.cur with
      | none => some ({ s with bad := true }, [])
      | some m => if ok then some ({ s with cur := none, pc := .clearing }, [.ret m true]) else some ({ s with pc := .refused }, [.ret m false])
  | .takeOne => -- on_msg_handle(queue) calls try_dequeue
    if s.pc ≠ .handling ∨ c.batch = false then none
    else match s.buf.tryDequeue rsz with
      | (_, none) => some (s, [])
      | (q, some m) => some ({ s with buf := q }, [.took [m]])
  | .takeAll => -- on_msg_handle(queue) calls swap with an empty container, socket.h:365
    if s.pc ≠ .handling ∨ c.batch = false then none
    else
      let r := s.buf.swap rsz []
      some ({ s with buf := r.1 }, [.took r.2])
  | .retAll n => -- socket.h:741-751
    if s.pc ≠ .handling ∨ c.batch = false then none else some ({ s with pc := if 0 < n then .clearing else .refused }, [.retAll n])
  | .dis => match s.pc with
    | .clearing => some ({ s with dispatching := false, pc := .posting, dlost := false }, []) -- socket.h:773
    | .posting => some ({ s with posted := s.posted + 1, pc := .idle }, []) -- socket.h:774
    | .refused => some ({ s with dtimer := true, pc := .idle, dlost := false }, []) -- socket.h:750, 767
    | _ => none
  | .dtimer => if s.dtimer then some ({ s with dtimer := false, posted := s.posted + 1 }, []) else none -- socket.h:785-787
  | .loseDispatch => if s.dtimer then some ({ s with dtimer := false, dlost := true }, []) else none -- close, socket.h:443; timer_handler, socket.h:793
  | .loseCheck => if s.ctimer then some ({ s with ctimer := false }, []) else none
  | .pop => match s.buf.tryDequeue rsz with -- socket.h:318
    | (_, none) => some (s, [])
    | (q, some m) => some ({ s with buf := q }, [.popped [m]])
  | .popAll => -- socket.h:319
    let r := s.buf.swap rsz []
    some ({ s with buf := r.1 }, [.popped r.2])
  | .linkUp => -- do_start, socket.h:322-334
    if s.still then some ({ s with ready := true, rposted := s.rposted + 1 }, [.asked]) else none
  | .linkDown => some ({ s with ready := false }, [])
  | .reset => -- socket.h:75-98
    if s.still then some ({ s with buf := s.buf.clear, cur := none, dispatching := false, dlost := false, reading := false }, [.cleared]) else none

/-- on_msg keeps its contract: if it returns 0 it has left the messages alone ("return positive value if handled some messages", socket.h:346). -/
def MAct.honest (s : Rm) : MAct → Prop
  | .onMsgRet left n => n = 0 → left = s.temp
  | _ => True

/-- Runs in which on_msg keeps its contract. -/
inductive Rm.Run (c : MCfg) (limit : Nat) : Rm → List MAct → Rm → List MEv → Prop where
  | nil (s : Rm) : Rm.Run c limit s [] s []
  | snoc (s s1 s2 : Rm) (as : List MAct) (a : MAct) (es es' : List MEv) :
      Rm.Run c limit s as s1 es → a.honest s1 → Rm.step c limit s1 a = some (s2, es') → Rm.Run c limit s (as ++ [a]) s2 (es ++ es')

/-- Executes a list of actions; the contract is not checked. -/
def Rm.exec (c : MCfg) (limit : Nat) : Rm → List MAct → Option (Rm × List MEv)
  | s, [] => some (s, [])
  | s, a :: as => do
    let (s, es) ← s.step c limit a
    let (s, es') ← Rm.exec c limit s as
    return (s, es ++ es')

end StAsio
