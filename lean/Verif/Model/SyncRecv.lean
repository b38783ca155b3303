import Verif.Spec.Bytes
/-!
Model of synchronous reception (macro ST_ASIO_SYNC_RECV) as a concurrent machine: callers of sync_recv_msg, the receiving strand and close.

Sources: include/socket.h:282-303 (sync_recv_msg), 428-467 (close), 469-481 (handle_error), 483-533 (handle_msg), 680-690 (sync_recv_waiting), 854-858,
include/tcp/socket.h:347-382 (recv_handler).

The mutex `sync_recv_mutex` and the condition variable `sync_recv_cv` are explicit: a waiting thread evaluates its predicate under the lock, is then `parking` (still
holding the lock), then `blocked` (lock released, atomically added to the waiters), then `woken` by a notification (or spuriously), and re-evaluates after
taking the lock again. close() takes no lock, so its two steps (`started_ = false`, `notify_all`) may fall between the evaluation and the blocking.
A section executed under the lock without waiting is one action.

Simplifications: at most one caller is inside sync_recv_msg beyond the DUPLICATE test (proved for the status variable in Lemmas/SyncRecv, as long as reset()
is not called while a caller waits - the documentation of reset forbids that); ST_ASIO_PASSIVE_RECV and ST_ASIO_SYNC_DISPATCH are not defined; where a message goes behind the
hand-off (the receive buffer) is Model/RecvDispatch. Whether the receive buffer is full after a message was handled is up to the environment.
-/
set_option autoImplicit false
namespace StAsio

/-- sync_recv_status, socket.h:854 -/
inductive SrSt where
  | notRequested | requested | responded | respondedFailure
  deriving DecidableEq, Repr

/-- A caller of sync_recv_msg. -/
inductive CPc where
  | none | parking | blocked | woken
  deriving DecidableEq, Repr

/-- The receiving strand. `ec`: the completed read reported an error, too. -/
inductive SPc where
  | idle
  /-- messages parsed, before the lock in handle_msg (socket.h:489) -/
  | parsed (ec : Bool)
  /-- waiting in handle_msg, socket.h:495 -/
  | parking (ec : Bool) | blocked (ec : Bool) | woken (ec : Bool)
  /-- behind the unlock, socket.h:501 -/
  | async (ec : Bool)
  /-- before handle_error -/
  | erring
  /-- waiting in handle_error, socket.h:478 -/
  | eparking | eblocked | ewoken
  deriving DecidableEq, Repr

/-- Is a read outstanding? `suspended`: TIMER_CHECK_RECV will start the next one. -/
inductive RdSt where
  | reading | suspended | off
  deriving DecidableEq, Repr

inductive SEv where
  /-- messages came from the network -/
  | received (ms : List Bytes)
  /-- a caller is admitted -/
  | called
  /-- the strand answers the caller -/
  | offered
  | duplicate
  | success (ms : List Bytes)
  | timeout
  | notApplicable
  /-- messages went the asynchronous way -/
  | async (ms : List Bytes)
  /-- on_recv_error -/
  | recvError
  deriving DecidableEq, Repr

structure Sr where
  sr : SrSt
  started : Bool
  /-- close() has executed `started_ = false`, but not notify_all yet -/
  closing : Bool
  temp : List Bytes
  caller : CPc
  /-- the caller gave a duration -/
  timed : Bool
  strand : SPc
  rd : RdSt
  /-- (history) notify_all of close() came while the caller was parking -/
  late : Bool
  /-- temp_msg_can is used by the strand while the caller may take it -/
  race : Bool
  /-- (history) the socket was started again while a caller that was answered with messages had not taken them yet -/
  overlap : Bool
  deriving DecidableEq, Repr

def Sr.init : Sr :=
  { sr := .notRequested, started := false, closing := false, temp := [], caller := .none, timed := false, strand := .idle, rd := .off, late := false, race := false, overlap := false }

inductive SAct where
  /-- sync_recv_msg(msg_can, duration); `stopped`: the io_context is stopped -/
  | call (timed stopped : Bool)
  | park
  | callerRun
  | timeout
  | spuriousCaller
  /-- a read completed with data; it yielded these messages (maybe none) -/
  | read (ms : List Bytes) (ec : Bool)
  /-- a read completed with an error and without data -/
  | readFail
  | handle (full : Bool)
  | strandPark
  | strandRun (full : Bool)
  | spuriousStrand
  | moveAsync (full : Bool)
  | closeSet
  | closeNotify
  | resumeRead
  | start
  deriving DecidableEq, Repr

/-- Somebody holds sync_recv_mutex across two actions. -/
def Sr.locked (s : Sr) : Bool :=
  s.caller == .parking || match s.strand with | .parking _ => true | .eparking => true | _ => false

/-- sync_recv_cv.notify_one() by the caller: the strand is the only possible waiter. -/
def Sr.notifyStrand (s : Sr) : Sr :=
  match s.strand with
  | .blocked ec => { s with strand := .woken ec }
  | .eblocked => { s with strand := .ewoken }
  | _ => s

/-- sync_recv_cv.notify_one() by the strand: the caller is the only possible waiter. -/
def Sr.notifyCaller (s : Sr) : Sr := if s.caller = .blocked then { s with caller := .woken } else s

/-- The end of sync_recv_msg, socket.h:689, 296-302. -/
def Sr.finish (s : Sr) : Sr × List SEv :=
  if s.sr = .responded then (Sr.notifyStrand { s with temp := [], sr := .notRequested, caller := .none, late := false }, [.success s.temp])
  else (Sr.notifyStrand { s with sr := .notRequested, caller := .none, late := false }, [.notApplicable])

/-- The caller evaluates its predicate under the lock, socket.h:683-685. -/
def Sr.callerCheck (s : Sr) : Sr × List SEv :=
  if s.started = false ∨ s.sr ≠ .requested then s.finish else ({ s with caller := .parking }, [])

/-- The strand leaves handle_msg, which returned `ret`; tcp/socket.h:370-381. -/
def Sr.leave (s : Sr) (ret : RdSt) (ec : Bool) : Sr := { s with strand := if ec then .erring else .idle, rd := if ec then .off else ret }

/-- handled_msg, socket.h:717-726 -/
def handledRd (full : Bool) : RdSt := if full then .suspended else .reading

/-- The strand evaluates its predicate in handle_msg under the lock, and what follows, socket.h:495-501. -/
def Sr.strandCheck (s : Sr) (full ec : Bool) : Sr :=
  if s.started = false ∨ s.sr ≠ .responded then
    if s.sr = .responded then s.leave .off ec
    else if s.temp = [] then s.leave (handledRd full) ec
    else { s with strand := .async ec }
  else { s with strand := .parking ec }

/-- The strand evaluates its predicate in handle_error under the lock, socket.h:478. -/
def Sr.errCheck (s : Sr) : Sr × List SEv :=
  if s.started = false ∨ s.sr ≠ .respondedFailure then ({ s with strand := .idle }, [.recvError]) else ({ s with strand := .eparking }, [])

def Sr.step (s : Sr) : SAct → Option (Sr × List SEv)
  | .call timed stopped => -- socket.h:284-295
    if stopped then some (s, []) -- NOT_APPLICABLE at once
    else if s.locked then none
    else if s.sr ≠ .notRequested then some (s, [.duplicate])
    else
      let r := Sr.callerCheck { s with sr := .requested, timed }
      some (r.1, .called :: r.2)
  | .park => if s.caller = .parking then some ({ s with caller := .blocked }, []) else none
  | .callerRun => if s.caller ≠ .woken ∨ s.locked then none else some s.callerCheck
  | .timeout => -- wait_for returned because of the time, it evaluates the predicate once more, socket.h:686
    if s.timed = false ∨ (s.caller ≠ .blocked ∧ s.caller ≠ .woken) ∨ s.locked then none
    else if s.started = false ∨ s.sr ≠ .requested then some s.finish
    else some (Sr.notifyStrand { s with sr := .notRequested, caller := .none, late := false }, [.timeout])
  | .spuriousCaller => if s.caller = .blocked then some ({ s with caller := .woken }, []) else none
  | .read ms ec => -- recv_handler up to handle_msg, tcp/socket.h:352-371
    if s.strand ≠ .idle ∨ s.rd ≠ .reading then none
    else some ({ s with temp := s.temp ++ ms, strand := .parsed ec, race := s.race || (s.sr == .responded && !ms.isEmpty) }, if ms.isEmpty then [] else [.received ms])
  | .readFail => if s.strand ≠ .idle ∨ s.rd ≠ .reading then none else some ({ s with strand := .erring, rd := .off }, []) -- tcp/socket.h:377
  | .handle full => match s.strand with
    | .parsed ec => -- handle_msg, socket.h:489-501
      if s.locked then none
      else if s.sr = .requested then some (({ s with sr := .responded }.notifyCaller).strandCheck full ec, [.offered])
      else some ({ s with strand := .async ec }, [])
    | .erring => -- handle_error, socket.h:472-479
      if s.locked then none
      else if s.sr = .requested then some ({ s with sr := .respondedFailure }.notifyCaller).errCheck
      else some ({ s with strand := .idle }, [.recvError])
    | _ => none
  | .strandPark => match s.strand with
    | .parking ec => some ({ s with strand := .blocked ec }, [])
    | .eparking => some ({ s with strand := .eblocked }, [])
    | _ => none
  | .strandRun full => match s.strand with
    | .woken ec => if s.locked then none else some (s.strandCheck full ec, [])
    | .ewoken => if s.locked then none else some s.errCheck
    | _ => none
  | .spuriousStrand => match s.strand with
    | .blocked ec => some ({ s with strand := .woken ec }, [])
    | .eblocked => some ({ s with strand := .ewoken }, [])
    | _ => none
  | .moveAsync full => match s.strand with
    | .async ec => -- socket.h:503-532
      if s.temp = [] then some (s.leave (handledRd full) ec, [])
      else some (Sr.leave { s with temp := [], race := s.race || (s.sr == .responded) } (handledRd full) ec, [.async s.temp])
    | _ => none
  | .closeSet => -- socket.h:436-439; stop_all_timer, 443
    if s.started ∧ s.closing = false then some ({ s with started := false, closing := true }, []) else none
  | .closeNotify => -- socket.h:441-445
    if s.closing then some ({ s with
        closing := false
        caller := if s.caller = .blocked then .woken else s.caller
        late := s.late || (s.caller == .parking)
        strand := match s.strand with | .blocked ec => .woken ec | .eblocked => .ewoken | p => p
        rd := if s.rd = .suspended then .off else s.rd }, [])
    else none
  | .resumeRead => if s.rd = .suspended ∧ s.started then some ({ s with rd := .reading }, []) else none -- check_receiving, socket.h:704
  | .start => -- do_start, socket.h:322-334; only when no asynchronous call is left
    if s.started = false ∧ s.closing = false ∧ s.strand = .idle ∧ s.rd = .off then some ({ s with started := true, rd := .reading, overlap := s.overlap || (s.sr == .responded) }, []) else none

inductive Sr.Run : Sr → List SAct → Sr → List SEv → Prop where
  | nil (s : Sr) : Sr.Run s [] s []
  | snoc (s s1 s2 : Sr) (as : List SAct) (a : SAct) (es es' : List SEv) :
      Sr.Run s as s1 es → Sr.step s1 a = some (s2, es') → Sr.Run s (as ++ [a]) s2 (es ++ es')

def Sr.exec : Sr → List SAct → Option (Sr × List SEv)
  | s, [] => some (s, [])
  | s, a :: as => do
    let (s, es) ← s.step a
    let (s, es') ← Sr.exec s as
    return (s, es ++ es')

end StAsio
