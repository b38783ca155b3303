import Verif.Spec.StatRace
/-!
Which threads use the members of a TCP socket's statistic, and when: every use takes time (it begins and it ends), other threads run in between.

Sources: include/socket.h:192-209 (check_heartbeat), 230-236 (the claim), 322-334 (do_start), 425-467 (close), 483-536 (handle_msg), 693-726 (check_receiving, handled_msg), 729-779 (do_dispatch_msg), 781-787 (timer_handler),
include/tcp/socket.h:57-61 (completion_checker), 90-99 (send_heartbeat), 158-182 (show_status), 241-248 (do_start), 347-382 (recv_handler), 384-408 (do_send_msg), 410-459 (send_handler), include/base.h:523-535 (auto_duration),
703-780 (TCP_SEND_MSG).

Simplifications: the handlers of rw_strand exclude each other, and so do those of dis_strand; a timer's handlers do not overlap. An auto_duration uses its member when it ends, not before. do_send_msg may run at any time in rw_strand unless a
write is outstanding. A link is opened again only after the last one is over, with nothing pending (Props/C29); stat.reset() (socket.h:84) is then called before the next link and left out here. ST_ASIO_PASSIVE_RECV, ST_ASIO_SYNC_RECV,
ST_ASIO_DISPATCH_BATCH_MSG and the sending notifications are not defined. UDP sockets do not gather pack_time_sum, unpack_time_sum, establish_time.
-/
set_option autoImplicit false
namespace StAsio

/-- Macros, and what the program does in its callbacks. -/
structure SrCfg where
  /-- ST_ASIO_SYNC_DISPATCH -/
  sync : Bool
  /-- on_msg may leave messages -/
  leaves : Bool
  /-- on_msg_handle sends messages -/
  replies : Bool
  /-- other threads send messages -/
  app : Bool
  /-- ST_ASIO_HEARTBEAT_INTERVAL > 0, or start_heartbeat is called in on_connect -/
  beats : Bool
  /-- other threads call get_statistic, show_status -/
  status : Bool
  deriving DecidableEq, Repr

/-- Who runs: the thread in do_start, the two strands, the timers TIMER_CHECK_RECV and TIMER_HEARTBEAT_CHECK, the thread in close, the threads of the application. -/
inductive SrCtx where
  | conn
  | rw
  | dis
  | check
  | beat
  | closer
  | app (i : Nat)
  deriving DecidableEq, Repr

/-- What a thread does next. -/
inductive SrOp where
  /-- uses a member, true: changes it -/
  | use (m : SrMember) (w : Bool)
  /-- recv_msg(): do_recv_msg goes to rw_strand; from do_start and from TIMER_CHECK_RECV -/
  | recv
  | resume
  /-- async_read begins -/
  | read
  /-- TIMER_CHECK_RECV is set -/
  | pause
  /-- do_dispatch_msg is posted -/
  | dispatch
  /-- TIMER_DISPATCH_MSG is set -/
  | later
  /-- async_write begins -/
  | write
  /-- TIMER_HEARTBEAT_CHECK is set -/
  | beats
  deriving DecidableEq, Repr

structure Smr where
  opened : Bool
  started : Bool
  /-- what each thread has still to do, the first item is in progress -/
  pc : SrCtx → List SrOp
  /-- a read, a write is outstanding -/
  reading : Bool
  writing : Bool
  /-- do_recv_msg is posted to rw_strand -/
  recvPend : Bool
  checkTm : Bool
  disPend : Nat
  disTm : Bool
  beatTm : Bool

/-- A socket before its first link: socket.h:36-60. -/
def Smr.init : Smr := { opened := false, started := false, pc := fun _ => [], reading := false, writing := false, recvPend := false, checkTm := false, disPend := 0, disTm := false, beatTm := false }

inductive SrAct where
  /-- do_start; on_connect sends `n` messages -/
  | open_ (n : Nat)
  /-- rw_strand runs the posted do_recv_msg -/
  | recvTask
  /-- part of a message came -/
  | part
  /-- recv_handler; on_msg sends `n` messages; `l`: and leaves some; `b`: the receive buffer is available -/
  | recv (n : Nat) (l b : Bool)
  | recvFail
  /-- do_send_msg finds messages -/
  | sendTask
  /-- send_handler; `b`: and do_send_msg finds more messages -/
  | sent (b : Bool)
  | sentFail
  /-- do_dispatch_msg; on_msg_handle sends `n` messages; `ok`: and succeeds -/
  | dis (n : Nat) (ok : Bool)
  | disTimer
  /-- TIMER_CHECK_RECV; `b`: the receive buffer is available -/
  | tick (b : Bool)
  /-- TIMER_HEARTBEAT_CHECK -/
  | beat
  /-- thread `i` of the application calls send_msg, reads member `m` -/
  | appSend (i : Nat)
  | appStat (i : Nat) (m : SrMember)
  /-- close; the timers that it stops -/
  | close
  | cancel
  /-- thread `c` has finished its first item -/
  | next (c : SrCtx)
  /-- the link is over, with nothing pending; the next one may be opened -/
  | over
  deriving DecidableEq, Repr

/-- tcp/socket.h:244-247, base.h:711 (on_connect sends), socket.h:324-330 -/
def srOpen (cfg : SrCfg) (n : Nat) : List SrOp :=
  (.use .establish true :: (List.replicate n (.use .pack true) ++ .use .lastRecv true :: if cfg.beats then [.beats] else [])) ++ [.recv]

/-- tcp/socket.h:354-358; socket.h:486-487; 509-510 and base.h:711; 531-532; 720 (695-711); then tcp/socket.h:369 (58-60) or socket.h:723 -/
def srRecv (cfg : SrCfg) (n : Nat) (l b : Bool) : List SrOp :=
  ([.use .lastRecv true, .use .unpack true, .use .recvSums true] ++ (if cfg.sync then List.replicate n (.use .pack true) ++ [.use .handle true] else []) ++ (if cfg.sync && !l then [] else [.dispatch]) ++
    [.use .recvIdle true] ++ if b then [.use .unpack true] else []) ++ [if b then .read else .pause]

/-- socket.h:759-774, base.h:711 -/
def srDis (n : Nat) (ok : Bool) : List SrOp :=
  .use .dispDelay true :: (List.replicate n (.use .pack true) ++ [.use .handle true, if ok then .dispatch else .later])

/-- tcp/socket.h:414-418; 446, 394-403 -/
def srSent (b : Bool) : List SrOp :=
  [.use .lastSend true, .use .sendSums true, .use .sendTime true] ++ if b then [.use .sendDelay true, .write] else []

/-- Thread `c` has `l` to do. -/
def Smr.put (s : Smr) (c : SrCtx) (l : List SrOp) : Smr := { s with pc := fun d => if d = c then l else s.pc d }

/-- What an item changes when it is done (the uses of members change nothing here). -/
def Smr.eff (s : Smr) : SrOp → Smr
  | .use _ _ => s
  | .recv => { s with recvPend := true }
  | .resume => { s with recvPend := true, checkTm := false }
  | .read => { s with reading := true }
  | .pause => { s with checkTm := true }
  | .dispatch => { s with disPend := s.disPend + 1 }
  | .later => { s with disTm := true }
  | .write => { s with writing := true }
  | .beats => { s with beatTm := true }

/-- One step. -/
def Smr.step (cfg : SrCfg) (s : Smr) : SrAct → Option Smr
  -- tcp/socket.h:241-248
  | .open_ n => if s.opened = false ∧ s.pc .conn = [] then some { s.put .conn (srOpen cfg n) with opened := true, started := true } else none
  -- socket.h:169, tcp/socket.h:57-61
  | .recvTask => if s.recvPend = true ∧ s.pc .rw = [] then some { s.put .rw [.use .unpack true, .read] with recvPend := false } else none
  -- tcp/socket.h:57-61
  | .part => if s.reading = true ∧ s.pc .rw = [] then some { s.put .rw [.use .unpack true, .read] with reading := false } else none
  -- tcp/socket.h:347-369
  | .recv n l b => if s.reading = true ∧ s.pc .rw = [] ∧ (l = true → cfg.leaves = true) then some { s.put .rw (srRecv cfg n l b) with reading := false } else none
  -- tcp/socket.h:371-381
  | .recvFail => if s.reading = true ∧ s.pc .rw = [] then some { s with reading := false } else none
  -- tcp/socket.h:384-403
  | .sendTask => if s.opened = true ∧ s.writing = false ∧ s.pc .rw = [] then some (s.put .rw [.use .sendDelay true, .write]) else none
  -- tcp/socket.h:412-446
  | .sent b => if s.writing = true ∧ s.pc .rw = [] then some { s.put .rw (srSent b) with writing := false } else none
  -- tcp/socket.h:447-458
  | .sentFail => if s.writing = true ∧ s.pc .rw = [] then some { s with writing := false } else none
  -- socket.h:755-775
  | .dis n ok => if s.disPend ≠ 0 ∧ s.pc .dis = [] ∧ (n ≠ 0 → cfg.replies = true) then some { s.put .dis (srDis n ok) with disPend := s.disPend - 1 } else none
  -- socket.h:785-787
  | .disTimer => if s.disTm then some { s with disTm := false, disPend := s.disPend + 1 } else none
  -- socket.h:723, 693-714
  | .tick b => if s.checkTm = true ∧ s.pc .check = [] then some (s.put .check (.use .recvIdle true :: if b then [.resume] else [])) else none
  -- socket.h:196-205, tcp/socket.h:92-95
  | .beat => if s.beatTm = true ∧ s.pc .beat = [] then some (s.put .beat [.use .lastRecv false, .use .lastSend false, .use .pack true]) else none
  -- base.h:711
  | .appSend i => if cfg.app = true ∧ s.pc (.app i) = [] then some (s.put (.app i) [.use .pack true]) else none
  -- socket.h:236, tcp/socket.h:160-180
  | .appStat i m => if cfg.status = true ∧ s.pc (.app i) = [] then some (s.put (.app i) [.use m false]) else none
  -- socket.h:433-450
  | .close => if s.started = true ∧ s.pc .closer = [] then some { s.put .closer [.use .break_ true] with started := false } else none
  -- socket.h:443: stop_all_timer; the cancelled waits end, unless a handler is running already
  | .cancel => if s.started = false ∧ s.pc .check = [] then some { s with beatTm := false, checkTm := false, disTm := false } else none
  | .next c => match s.pc c with
    | [] => none
    | op :: l => some ((s.put c l).eff op)
  -- tcp/client_socket.h (after_close), object_pool.h:184-195: see the simplifications
  | .over =>
    if s.opened = true ∧ s.started = false ∧ s.pc .conn = [] ∧ s.pc .rw = [] ∧ s.pc .dis = [] ∧ s.pc .check = [] ∧ s.pc .beat = [] ∧ s.pc .closer = [] ∧ s.recvPend = false ∧ s.reading = false ∧ s.writing = false ∧ s.checkTm = false ∧
      s.disPend = 0 ∧ s.disTm = false
    then some { s with opened := false, beatTm := false } else none

/-- The states that can be reached. -/
inductive Smr.Reach (cfg : SrCfg) : Smr → Prop where
  | init : Smr.Reach cfg Smr.init
  | step {s s' : Smr} (a : SrAct) : Smr.Reach cfg s → s.step cfg a = some s' → Smr.Reach cfg s'

/-- A sequence of steps. -/
def Smr.exec (cfg : SrCfg) (s : Smr) : List SrAct → Option Smr
  | [] => some s
  | a :: as => (s.step cfg a).bind (·.exec cfg as)

/-- The member each thread is using now. -/
def Smr.use (s : Smr) (c : SrCtx) : Option (SrMember × Bool) := match s.pc c with
  | .use m w :: _ => some (m, w)
  | _ => none

end StAsio
