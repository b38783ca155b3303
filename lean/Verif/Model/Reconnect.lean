import Verif.Spec.Reconnect
import Verif.Model.Shutdown

/-!
# generic_client_socket: connecting and reconnecting (include/tcp/client_socket.h:68-216)

Every function of generic_client_socket is one step (the code says they are not thread safe); the requests to shut down are posted to the IO strand and run later, as in Model/Shutdown. Timers fire at any time after they were set (Model/Timer). on_close happens when the socket is
closed and no asynchronous call is left (Model/Lifecycle). Nothing runs once the service is stopped; starting it again is not modelled. Heartbeats, unpacking errors and the time-out of a graceful shutdown appear as `selfDown`.
-/

set_option autoImplicit false

namespace StAsio

/-- What the client is waiting for: nothing; TIMER_CONNECT (client_socket.h:128, 209; `first`: set by do_start); async_connect (client_socket.h:190); TIMER_CONNECT_DELAY (client_socket.h:138); or it is connected. -/
inductive CliOp
  | none
  | tconn (first : Bool) (ms : Nat)
  | connecting
  | tdelay
  | link
  deriving Repr, DecidableEq

structure Cli where
  status : Link
  started : Bool
  closing : Bool     -- TIMER_DELAY_CLOSE is running
  need : Bool        -- need_reconnect
  op : CliOp
  force : Nat        -- posted _force_shutdown
  grace : Nat        -- posted _graceful_shutdown
  stopped : Bool     -- the service has stopped
  deriving Repr, DecidableEq

/-- Constructor, client_socket.h:120: need_reconnect = ST_ASIO_RECONNECT. -/
def Cli.init (need : Bool) : Cli := ⟨.broken, false, false, need, .none, 0, 0, false⟩

/-- start (socket.h:150-162) with do_start (client_socket.h:125-129); `bind` tells whether bind() succeeds. -/
def Cli.start (bind : Bool) (s : Cli) : Cli × List CliEv :=
  if s.started = false ∧ s.closing = false ∧ s.stopped = false then
    if bind then ({ s with started := true, op := .tconn true 50 }, [.started]) else (s, [])
  else (s, [])

/-- stop_all_timer: the timers of the client are stopped. -/
def CliOp.noTimer : CliOp → CliOp
  | .tconn _ _ => .none
  | .tdelay => .none
  | o => o

/-- close (socket.h:428-467), service not stopped. -/
def Cli.close (s : Cli) : Cli := if s.started then { s with started := false, closing := true, op := s.op.noTimer } else s

/-- shutdown (tcp/socket.h:318-327). -/
def Cli.shutdown (s : Cli) : Cli := if s.status = .broken then s.close else Cli.close { s with status := .forceDown }

/-- force_shutdown(bool) (client_socket.h:91-101). -/
def Cli.forceShutdown (b bind : Bool) (s : Cli) : Cli × List CliEv :=
  let s := { s with need := b }
  if b ∧ s.status = .broken ∧ s.started = false then s.start bind else ({ s with force := s.force + 1 }, [])

/-- graceful_shutdown(bool) (client_socket.h:104-116). -/
def Cli.gracefulShutdown (b bind : Bool) (s : Cli) : Cli × List CliEv :=
  let s := { s with need := b }
  if b ∧ s.status = .broken ∧ s.started = false then s.start bind
  else if s.status = .broken then s.forceShutdown b bind
  else ({ s with grace := s.grace + 1 }, [])

inductive CliAct
  | userStart (bind : Bool)          -- start()
  | fireConnect (bind : Bool)        -- TIMER_CONNECT: connect(first), client_socket.h:185-192
  | connectDone (ok : Bool)          -- connect_handler, client_socket.h:131-146
  | fireDelay (n : Int)              -- TIMER_CONNECT_DELAY: prepare_next_reconnect with prepare_reconnect answering n, client_socket.h:194-216
  | cancelDelay                      -- TIMER_DELAY_CLOSE finds asynchronous calls: stop_all_timer(id), socket.h:790-795
  | lost                             -- the read fails: on_recv_error, client_socket.h:152
  | selfDown                         -- on_unpack_error, on_heartbeat_error, on_async_shutdown_error, client_socket.h:151-154
  | setReconnect (b : Bool)          -- client_socket.h:85, to false at any time, to true while the client is started or closing
  | setReconnectIdle                 -- client_socket.h:85, to true while it is neither started nor closing
  | force (b bind : Bool)            -- force_shutdown(b), disconnect(b)
  | graceful (b bind : Bool)         -- graceful_shutdown(b)
  | runForce                         -- _force_shutdown in the strand, tcp/socket.h:299
  | runGraceful (err : Bool)         -- _graceful_shutdown in the strand, tcp/socket.h:300-316
  | onClose (bind : Bool)            -- timer_handler(TIMER_DELAY_CLOSE): on_close and after_close, socket.h:799-811, client_socket.h:156-172
  | pumpStop                         -- the service stops
  deriving Repr, DecidableEq

/-- One step. -/
def Cli.step (s : Cli) : CliAct → Option (Cli × List CliEv)
  | .userStart bind => some (s.start bind)
  | .fireConnect bind => match s.op with
    | .tconn first ms =>
      if s.stopped then none
      else if first = false ∧ bind = false then some ({ s with op := .none }, [])
      else some ({ s with op := .connecting }, [.attempt ms])
    | _ => none
  | .connectDone ok =>
    if s.op = .connecting ∧ s.stopped = false then
      if ok then some ({ s with op := .link, status := .connected }, [.connected]) else some ({ s with op := .tdelay }, [.failed])
    else none
  | .fireDelay n =>
    if s.op = .tdelay ∧ s.stopped = false then
      if s.need ∧ s.started then
        if n < 0 then some ({ s with op := .none, need := false, force := s.force + 1 }, [.asked n])
        else some ({ s with op := .tconn false n.toNat }, [.asked n])
      else some ({ s with op := .none, force := s.force + 1 }, [])
    else none
  | .cancelDelay => if s.op = .tdelay ∧ s.closing ∧ s.stopped = false then some ({ s with op := .none }, []) else none
  | .lost => if s.op = .link ∧ s.stopped = false then some ({ s with op := .none, force := s.force + 1 }, [.lost]) else none
  | .selfDown => if s.op = .link ∧ s.stopped = false then some ({ s with force := s.force + 1 }, []) else none
  | .setReconnect b => if b = false ∨ s.started ∨ s.closing then some ({ s with need := b }, []) else none
  | .setReconnectIdle => if s.started = false ∧ s.closing = false then some ({ s with need := true }, []) else none
  | .force b bind => some (s.forceShutdown b bind)
  | .graceful b bind => some (s.gracefulShutdown b bind)
  | .runForce =>
    if 0 < s.force ∧ s.stopped = false then
      let s := { s with force := s.force - 1 }
      some (if s.status ≠ .forceDown then s.shutdown else s, [])
    else none
  | .runGraceful err =>
    if 0 < s.grace ∧ s.stopped = false then
      let s := { s with grace := s.grace - 1 }
      if s.status = .broken then some (s.shutdown, [])
      else if ¬ (s.status = .forceDown ∨ s.status = .gracefulDown) then
        let s := { s with status := .gracefulDown }
        some (if err then s.shutdown else s, [])
      else some (s, [])
    else none
  | .onClose bind =>
    if s.closing ∧ s.op = .none ∧ s.force = 0 ∧ s.grace = 0 ∧ s.stopped = false then
      let s := { s with status := .broken, closing := false }
      if s.need then
        let (s, es) := s.start bind
        some (s, .closed :: es)
      else some (s, [.closed])
    else none
  | .pumpStop => some ({ s with stopped := true }, [])

/-- Runs of the machine. -/
inductive Cli.Run : Cli → List CliAct → Cli → List CliEv → Prop
  | nil (s : Cli) : Cli.Run s [] s []
  | snoc (s s1 s2 : Cli) (as : List CliAct) (a : CliAct) (es fs : List CliEv) : Cli.Run s as s1 es → s1.step a = some (s2, fs) → Cli.Run s (as ++ [a]) s2 (es ++ fs)

/-- Executes a list of steps. -/
def Cli.exec (s : Cli) : List CliAct → Option (Cli × List CliEv)
  | [] => some (s, [])
  | a :: as => do
    let (s1, e1) ← s.step a
    let (s2, e2) ← Cli.exec s1 as
    pure (s2, e1 ++ e2)

/-- bind() succeeds. -/
def CliAct.bindOk : CliAct → Bool
  | .userStart b => b
  | .fireConnect b => b
  | .force _ b => b
  | .graceful _ b => b
  | .onClose b => b
  | _ => true

/-- What goes on without the user: bind() succeeds and prepare_reconnect does not give up. -/
def CliAct.internal : CliAct → Bool
  | .fireConnect b => b
  | .connectDone _ => true
  | .fireDelay n => decide (0 ≤ n)
  | .cancelDelay => true
  | .lost => true
  | .runForce => true
  | .runGraceful _ => true
  | .onClose b => b
  | _ => false

/-- The user does not ask for a (re)connection. -/
def CliAct.noAsk : CliAct → Bool
  | .userStart _ => false
  | .setReconnect b => !b
  | .setReconnectIdle => false
  | .force b _ => !b
  | .graceful b _ => !b
  | _ => true

end StAsio
