import Verif.Spec.QueueRace
/-!
Which threads use the send queue and the receive queue of a TCP socket, and when: every use of a queue takes time (it begins and it ends), other threads run in between.

Sources: include/container.h:56-245 (queue: every operation but size_in_byte takes the lock of the Lockable), 247-259 (non_lock_queue, lock_queue), include/socket.h:176 (send_msg), 322-334 (do_start), 483-536 (handle_msg),
538-560 (do_direct_send_msg), 693-726 (check_receiving, handled_msg), 729-779 (dispatch_msg, do_dispatch_msg), 781-787 (timer_handler), include/tcp/socket.h:195-202 (show_status), 241-248 (do_start), 384-408 (do_send_msg),
410-459 (send_handler), 355-382 (recv_handler), concurrent_server/concurrent_server.cpp:10-15, 36-45 and concurrent_client/concurrent_client.cpp:9-15, 53-82 (the example programs that choose non_lock_queue).

Simplifications: what the callbacks do is a number of messages sent, one after the other; messages are counted, not modelled. The handlers of rw_strand exclude each other, and so do those of dis_strand. do_send_msg that send_msg() dispatches from outside
of rw_strand is posted to it (when the strand is free, asio may run it at once in the calling thread: the same as a caller that pauses while rw_strand runs it). Messages are sent with can_overflow = true, as the example programs do (otherwise
size_in_byte of the send queue is read first, by the same thread). A link is opened again only after the last one is over, with nothing pending (Props/C29 proves it for the default close mode; with ST_ASIO_DELAY_CLOSE it is a matter of time).
ST_ASIO_PASSIVE_RECV, ST_ASIO_SYNC_RECV, ST_ASIO_DISPATCH_BATCH_MSG, the sending notifications and ST_ASIO_SHRINK_SEND_BUFFER are not defined.
-/
set_option autoImplicit false
namespace StAsio

/-- Macros, and what the program does in its callbacks. -/
structure QrCfg where
  /-- ST_ASIO_INPUT_QUEUE is lock_queue -/
  lockS : Bool
  /-- ST_ASIO_OUTPUT_QUEUE is lock_queue -/
  lockR : Bool
  /-- ST_ASIO_SYNC_DISPATCH -/
  sync : Bool
  /-- on_msg may leave messages -/
  leaves : Bool
  /-- on_connect sends at most this many messages -/
  greet : Nat
  /-- on_msg_handle sends messages -/
  replies : Bool
  /-- other threads send messages -/
  app : Bool
  /-- other threads call show_status (list_all_status) -/
  status : Bool
  deriving DecidableEq, Repr

/-- Who runs: the thread in on_connect/do_start, the two strands, the timer TIMER_CHECK_RECV, the threads of the application. -/
inductive QrCtx where
  | conn
  | rw
  | dis
  | timer
  | app (i : Nat)
  deriving DecidableEq, Repr

/-- Where it is. -/
inductive QrPc where
  | idle
  /-- in a callback, which will send `n` messages more; `l`: on_msg leaves messages, on_msg_handle succeeds -/
  | user (n : Nat) (l : Bool)
  /-- in send_buffer.enqueue: socket.h:542, 555 -/
  | enq (n : Nat) (l : Bool)
  /-- before and in send_buffer.move_items_out, tcp/socket.h:390; `k`: the callback that do_send_msg was called from -/
  | toOut (k : Option (Nat × Bool))
  | out (k : Option (Nat × Bool))
  /-- before and in send_buffer.is_empty, tcp/socket.h:407 -/
  | toEmpty (k : Option (Nat × Bool))
  | empty (k : Option (Nat × Bool))
  /-- in recv_buffer.move_items_in, socket.h:531 -/
  | into
  /-- before and in recv_buffer.size_in_byte, socket.h:695 (and 222) -/
  | toCount
  | count
  /-- in send_buffer.size_in_byte, socket.h:218 -/
  | countS
  /-- before and in recv_buffer.try_dequeue, socket.h:755 -/
  | toDeq
  | deq
  deriving DecidableEq, Repr

/-- The queue in use, container.h:76-103. -/
def QrPc.uses : QrPc → Option (QrQueue × QrKind)
  | .enq _ _ => some (.send, .change)
  | .out _ => some (.send, .change)
  | .empty _ => some (.send, .look)
  | .countS => some (.send, .count)
  | .into => some (.recv, .change)
  | .deq => some (.recv, .change)
  | .count => some (.recv, .count)
  | _ => none

/-- Back to the callback, or the handler is over. -/
def QrPc.back : Option (Nat × Bool) → QrPc
  | some (n, l) => .user n l
  | none => .idle

structure Qr where
  /-- on_connect was called for this link -/
  opened : Bool
  pc : QrCtx → QrPc
  /-- who holds the lock of send_buffer, and of recv_buffer (lock_queue only) -/
  heldS : Option QrCtx
  heldR : Option QrCtx
  /-- messages in send_buffer, in recv_buffer -/
  sq : Nat
  rq : Nat
  /-- do_send_msg posted to rw_strand, do_dispatch_msg posted to dis_strand -/
  rwPend : Nat
  disPend : Nat
  sending : Bool
  dispatching : Bool
  /-- a read, a write is outstanding -/
  reading : Bool
  writing : Bool
  /-- TIMER_CHECK_RECV, TIMER_DISPATCH_MSG -/
  checkTm : Bool
  disTm : Bool

/-- A socket before its first link: socket.h:36-60. -/
def Qr.init : Qr :=
  { opened := false, pc := fun _ => .idle, heldS := none, heldR := none, sq := 0, rq := 0, rwPend := 0, disPend := 0, sending := false, dispatching := false, reading := false, writing := false, checkTm := false, disTm := false }

inductive QrAct where
  /-- do_start: on_connect is called, it will send `n` messages -/
  | connect (n : Nat)
  /-- on_connect enters enqueue, leaves it, returns (and do_start goes on) -/
  | connSend
  | connEnq
  | connDone
  /-- recv_handler: on_msg will send `n` messages, `l`: and leave some -/
  | recv (n : Nat) (l : Bool)
  /-- the read fails -/
  | recvFail
  | rwSend
  | rwEnq
  | rwOut
  /-- `j` messages were moved out -/
  | rwOutDone (j : Nat)
  | rwEmpty
  | rwEmptyDone
  /-- on_msg returned: move_items_in begins, or nothing was left -/
  | rwLeave
  | rwConsumed
  /-- `j` messages were moved in -/
  | rwInto (j : Nat)
  | rwCount
  /-- handled_msg: receiving goes on (`b`), or TIMER_CHECK_RECV is set -/
  | rwCountDone (b : Bool)
  /-- send_handler, without and with an error -/
  | sent
  | sentFail
  /-- rw_strand runs a posted do_send_msg -/
  | task
  /-- dis_strand runs do_dispatch_msg; on_msg_handle will send `n` messages, `l`: and succeed -/
  | disStart (n : Nat) (l : Bool)
  | disDeq
  | disDeqDone (n : Nat) (l : Bool)
  | disSend
  | disEnq
  | disDone
  /-- TIMER_DISPATCH_MSG expires -/
  | disTimer
  /-- TIMER_CHECK_RECV expires; and has read the byte count -/
  | tick
  | tickDone (b : Bool)
  /-- thread `i` of the application enters send_msg, leaves it -/
  | appSend (i : Nat)
  | appEnq (i : Nat)
  /-- thread `i` of the application calls show_status -/
  | appStat (i : Nat)
  | appStat2 (i : Nat)
  | appStat3 (i : Nat)
  /-- the link is over, with nothing pending; the next one may be opened -/
  | over
  deriving DecidableEq, Repr

/-- Thread `c` is at `p` now. -/
def Qr.at_ (s : Qr) (c : QrCtx) (p : QrPc) : Qr := { s with pc := fun d => if d = c then p else s.pc d }

/-- lock_guard of an operation on send_buffer: container.h:84-103. -/
def Qr.lockS (cfg : QrCfg) (s : Qr) (c : QrCtx) : Option Qr :=
  if cfg.lockS then (if s.heldS = none then some { s with heldS := some c } else none) else some s

/-- The end of the lock_guard. -/
def Qr.unlockS (cfg : QrCfg) (s : Qr) : Qr := { s with heldS := if cfg.lockS then none else s.heldS }

/-- lock_guard of an operation on recv_buffer: container.h:84-103. -/
def Qr.lockR (cfg : QrCfg) (s : Qr) (c : QrCtx) : Option Qr :=
  if cfg.lockR then (if s.heldR = none then some { s with heldR := some c } else none) else some s

/-- The end of the lock_guard. -/
def Qr.unlockR (cfg : QrCfg) (s : Qr) : Qr := { s with heldR := if cfg.lockR then none else s.heldR }

/-- send_msg(): do_send_msg goes to rw_strand unless sending: socket.h:176 -/
def Qr.sendMsg (s : Qr) : Qr := { s with rwPend := if s.sending then s.rwPend else s.rwPend + 1 }

/-- One step of one thread. -/
def Qr.step (cfg : QrCfg) (s : Qr) : QrAct → Option Qr
  -- tcp/socket.h:241-246
  | .connect n => if s.opened = false ∧ s.pc .conn = .idle ∧ n ≤ cfg.greet then some { s.at_ .conn (.user n false) with opened := true } else none
  -- socket.h:542, 555
  | .connSend => match s.pc .conn with
    | .user (n + 1) l => (s.lockS cfg .conn).map (·.at_ .conn (.enq n l))
    | _ => none
  | .connEnq => match s.pc .conn with
    | .enq n l => some ((({ s with sq := s.sq + 1 } : Qr).unlockS cfg).sendMsg.at_ .conn (.user n l))
    | _ => none
  -- tcp/socket.h:247, socket.h:328-330
  | .connDone => match s.pc .conn with
    | .user 0 _ => some { s.sendMsg.at_ .conn .idle with reading := true }
    | _ => none
  -- tcp/socket.h:355-369, socket.h:483-517
  | .recv n l =>
    if s.reading = true ∧ s.pc .rw = .idle ∧ (cfg.sync = true → l = true → cfg.leaves = true) then
      some { s.at_ .rw (if cfg.sync then .user n l else .user 0 true) with reading := false }
    else none
  -- tcp/socket.h:377-381
  | .recvFail => if s.reading = true ∧ s.pc .rw = .idle then some { s with reading := false } else none
  -- socket.h:542, 555
  | .rwSend => match s.pc .rw with
    | .user (n + 1) l => (s.lockS cfg .rw).map (·.at_ .rw (.enq n l))
    | _ => none
  -- socket.h:543, 176: within the strand do_send_msg runs at once; tcp/socket.h:386
  | .rwEnq => match s.pc .rw with
    | .enq n l =>
      if s.sending then some ((({ s with sq := s.sq + 1 } : Qr).unlockS cfg).at_ .rw (.user n l))
      else some ((({ s with sq := s.sq + 1, sending := true } : Qr).unlockS cfg).at_ .rw (.toOut (some (n, l))))
    | _ => none
  -- tcp/socket.h:390
  | .rwOut => match s.pc .rw with
    | .toOut k => (s.lockS cfg .rw).map (·.at_ .rw (.out k))
    | _ => none
  -- tcp/socket.h:391-406; move_items_out takes at least one message if there is one, container.h:191-207
  | .rwOutDone j => match s.pc .rw with
    | .out k =>
      if j ≤ s.sq ∧ (j = 0 → s.sq = 0) then
        if j = 0 then some ((({ s with sending := false } : Qr).unlockS cfg).at_ .rw (.toEmpty k))
        else some ((({ s with sq := s.sq - j, writing := true } : Qr).unlockS cfg).at_ .rw (QrPc.back k))
      else none
    | _ => none
  -- tcp/socket.h:407
  | .rwEmpty => match s.pc .rw with
    | .toEmpty k => (s.lockS cfg .rw).map (·.at_ .rw (.empty k))
    | _ => none
  | .rwEmptyDone => match s.pc .rw with
    | .empty k =>
      if s.sq ≠ 0 ∧ s.sending = false then some ((({ s with sending := true } : Qr).unlockS cfg).at_ .rw (.toOut k))
      else some ((s.unlockS cfg).at_ .rw (QrPc.back k))
    | _ => none
  -- socket.h:523-531
  | .rwLeave => match s.pc .rw with
    | .user 0 true => (s.lockR cfg .rw).map (·.at_ .rw .into)
    | _ => none
  -- socket.h:514, 535
  | .rwConsumed => match s.pc .rw with
    | .user 0 false => some (s.at_ .rw .toCount)
    | _ => none
  -- socket.h:531-532, 729
  | .rwInto j => match s.pc .rw with
    | .into =>
      if 0 < j then
        if s.dispatching then some ((({ s with rq := s.rq + j } : Qr).unlockR cfg).at_ .rw .toCount)
        else some ((({ s with rq := s.rq + j, disPend := s.disPend + 1 } : Qr).unlockR cfg).at_ .rw .toCount)
      else none
    | _ => none
  -- socket.h:720, 695: without the lock
  | .rwCount => match s.pc .rw with
    | .toCount => some (s.at_ .rw .count)
    | _ => none
  -- socket.h:717-725; tcp/socket.h:368-369
  | .rwCountDone b => match s.pc .rw with
    | .count => if b then some { s.at_ .rw .idle with reading := true } else some { s.at_ .rw .idle with checkTm := true }
    | _ => none
  -- tcp/socket.h:445-446
  | .sent => if s.writing = true ∧ s.pc .rw = .idle then some { s.at_ .rw (.toOut none) with writing := false } else none
  -- tcp/socket.h:455-458
  | .sentFail => if s.writing = true ∧ s.pc .rw = .idle then some { s with writing := false, sending := false } else none
  -- tcp/socket.h:386-387
  | .task =>
    if s.rwPend ≠ 0 ∧ s.pc .rw = .idle then
      if s.sending then some { s with rwPend := s.rwPend - 1 }
      else some { s.at_ .rw (.toOut none) with rwPend := s.rwPend - 1, sending := true }
    else none
  -- socket.h:755
  | .disStart n l =>
    if s.disPend ≠ 0 ∧ s.pc .dis = .idle ∧ (n ≠ 0 → cfg.replies = true) then
      if s.dispatching then some { s.at_ .dis (.user n l) with disPend := s.disPend - 1 }
      else some { s.at_ .dis .toDeq with disPend := s.disPend - 1 }
    else none
  | .disDeq => match s.pc .dis with
    | .toDeq => (s.lockR cfg .dis).map (·.at_ .dis .deq)
    | _ => none
  -- socket.h:757-760, 778
  | .disDeqDone n l => match s.pc .dis with
    | .deq =>
      if n ≠ 0 → cfg.replies = true then
        if s.rq = 0 then some ((({ s with dispatching := false } : Qr).unlockR cfg).at_ .dis .idle)
        else some ((({ s with rq := s.rq - 1, dispatching := true } : Qr).unlockR cfg).at_ .dis (.user n l))
      else none
    | _ => none
  -- socket.h:542, 555
  | .disSend => match s.pc .dis with
    | .user (n + 1) l => (s.lockS cfg .dis).map (·.at_ .dis (.enq n l))
    | _ => none
  | .disEnq => match s.pc .dis with
    | .enq n l => some ((({ s with sq := s.sq + 1 } : Qr).unlockS cfg).sendMsg.at_ .dis (.user n l))
    | _ => none
  -- socket.h:764-774
  | .disDone => match s.pc .dis with
    | .user 0 true => some { s.at_ .dis .idle with dispatching := false, disPend := s.disPend + 1 }
    | .user 0 false => some { s.at_ .dis .idle with disTm := true }
    | _ => none
  -- socket.h:785-787
  | .disTimer => if s.disTm then some { s with disTm := false, disPend := s.disPend + 1 } else none
  -- socket.h:723, 695
  | .tick => if s.checkTm = true ∧ s.pc .timer = .idle then some (s.at_ .timer .count) else none
  -- socket.h:695-713
  | .tickDone b => match s.pc .timer with
    | .count => if b then some { s.at_ .timer .idle with checkTm := false, reading := true } else some (s.at_ .timer .idle)
    | _ => none
  -- socket.h:265-269, 542
  | .appSend i => if cfg.app = true ∧ s.pc (.app i) = .idle then (s.lockS cfg (.app i)).map (·.at_ (.app i) (.enq 0 false)) else none
  | .appEnq i => match s.pc (.app i) with
    | .enq _ _ => some ((({ s with sq := s.sq + 1 } : Qr).unlockS cfg).sendMsg.at_ (.app i) .idle)
    | _ => none
  -- tcp/socket.h:201, socket.h:218, 222: without the locks
  | .appStat i => if cfg.status = true ∧ s.pc (.app i) = .idle then some (s.at_ (.app i) .countS) else none
  | .appStat2 i => match s.pc (.app i) with
    | .countS => some (s.at_ (.app i) .count)
    | _ => none
  | .appStat3 i => match s.pc (.app i) with
    | .count => some (s.at_ (.app i) .idle)
    | _ => none
  -- tcp/client_socket.h (after_close), object_pool.h:184-195: see the simplifications
  | .over =>
    if s.opened = true ∧ s.pc .conn = .idle ∧ s.pc .rw = .idle ∧ s.pc .dis = .idle ∧ s.pc .timer = .idle ∧ s.rwPend = 0 ∧ s.disPend = 0 ∧ s.sending = false ∧ s.reading = false ∧ s.writing = false ∧
      s.checkTm = false ∧ s.disTm = false
    then some { s with opened := false } else none

/-- The states that can be reached. -/
inductive Qr.Reach (cfg : QrCfg) : Qr → Prop where
  | init : Qr.Reach cfg Qr.init
  | step {s s' : Qr} (a : QrAct) : Qr.Reach cfg s → s.step cfg a = some s' → Qr.Reach cfg s'

/-- A sequence of steps. -/
def Qr.exec (cfg : QrCfg) (s : Qr) : List QrAct → Option Qr
  | [] => some s
  | a :: as => (s.step cfg a).bind (·.exec cfg as)

/-- What each thread is doing with a queue. -/
def Qr.use (s : Qr) (c : QrCtx) : Option (QrQueue × QrKind) := (s.pc c).uses

end StAsio
