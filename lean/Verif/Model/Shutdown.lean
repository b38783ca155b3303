/-!
Model of the link status of a TCP socket: include/tcp/socket.h:79 (link_status), 231-248, 273-282, 299-327, 462-481, include/tcp/client_socket.h:125-136 (do_start, connect_handler), and the parts of
include/socket.h:428-467 (close) that matter for it.

force_shutdown() and graceful_shutdown() dispatch to the IO strand; the model posts (`force`, `grace` count the posted requests) and runs them later, one at a time.
Simplifications: start(), close() and on_close are atomic here (Model/Lifecycle looks inside). The delays between reconnecting attempts are left out: a failed attempt is followed by the next one or by the decision to give up.
That the peer closed, a receive error, a heartbeat time-out or an unpack error lead to a shutdown is the default behaviour of the call backs (include/tcp/server_socket.h:62-65, client_socket.h:151-154): they are requests.
-/
set_option autoImplicit false
namespace StAsio

/-- tcp/socket.h:79; HANDSHAKING is in Model/Handshake. -/
inductive Link where
  | connected | forceDown | gracefulDown | broken
  deriving DecidableEq, Repr

structure Lnk where
  status : Link
  started : Bool
  /-- closed, on_close not called yet -/
  closing : Bool
  /-- clients: connect outstanding -/
  connecting : Bool
  /-- TIMER_ASYNC_SHUTDOWN with the loop_num bound into its call back -/
  atimer : Option Nat
  force : Nat
  grace : Nat
  deriving DecidableEq, Repr

def Lnk.init : Lnk := { status := .broken, started := false, closing := false, connecting := false, atimer := none, force := 0, grace := 0 }

inductive LkAct where
  | start
  /-- connect_handler without error -/
  | connected
  /-- connect_handler without error, although the socket was closed meanwhile -/
  | lateConnected
  /-- connect_handler with an error; try again or not -/
  | connectFail (again : Bool)
  | askForce
  | runForce
  | askGraceful
  /-- `err`: shutting down the sending direction failed -/
  | runGraceful (err : Bool)
  /-- TIMER_ASYNC_SHUTDOWN fires -/
  | tick
  | onClose
  deriving DecidableEq, Repr

/-- close(), socket.h:428-467: stops all timers. -/
def Lnk.close (s : Lnk) : Lnk := if s.started then { s with started := false, closing := true, atimer := none } else s

/-- shutdown(), tcp/socket.h:318-327 -/
def Lnk.shutdown (s : Lnk) : Lnk := if s.status = .broken then s.close else Lnk.close { s with status := .forceDown }

/-- _force_shutdown, tcp/socket.h:299 -/
def Lnk.forceShutdown (s : Lnk) : Lnk := if s.status ≠ .forceDown then s.shutdown else s

/-- _graceful_shutdown, tcp/socket.h:300-316; `N` is ST_ASIO_GRACEFUL_SHUTDOWN_MAX_DURATION * 100. -/
def Lnk.gracefulShutdown (N : Nat) (err : Bool) (s : Lnk) : Lnk :=
  if s.status = .broken then s.shutdown
  else if ¬ (s.status = .forceDown ∨ s.status = .gracefulDown) then
    let s := { s with status := .gracefulDown }
    if err then s.shutdown else { s with atimer := some N }
  else s

/-- shutdown_handler, tcp/socket.h:462-481, as call back of the timer; `--loop_num` is a size_t. on_async_shutdown_error is force_shutdown (server_socket.h:64, client_socket.h:153). -/
def Lnk.tick (n : Nat) (s : Lnk) : Lnk :=
  if s.status = .gracefulDown then
    let n := (n + 2 ^ 64 - 1) % 2 ^ 64
    if 0 < n then { s with atimer := some n } else { s with atimer := none, force := s.force + 1 }
  else { s with atimer := none }

/-- `client`: generic_client_socket, otherwise a server socket. -/
def Lnk.step (client : Bool) (N : Nat) (s : Lnk) : LkAct → Option Lnk
  | .start => -- socket.h:150-162; do_start of server sockets: tcp/socket.h:241-248, of clients: client_socket.h:125-129
    if s.started = false ∧ s.closing = false then
      if client then some { s with started := true, connecting := true } else some { s with started := true, status := .connected }
    else some s
  | .connected => if s.connecting ∧ s.closing = false then some { s with connecting := false, status := .connected } else none -- client_socket.h:133-134
  | .lateConnected => if s.connecting ∧ s.closing then some { s with connecting := false, status := .connected } else none
  | .connectFail again => -- client_socket.h:135-146, 194-216
    if s.connecting then
      if s.closing then some { s with connecting := false } -- the timer set here is stopped by the closing timer (socket.h:793)
      else if again then some s else some { s with connecting := false, force := s.force + 1 }
    else none
  | .askForce => some { s with force := s.force + 1 }
  | .runForce => if 0 < s.force then some (Lnk.forceShutdown { s with force := s.force - 1 }) else none
  | .askGraceful => some { s with grace := s.grace + 1 }
  | .runGraceful err => if 0 < s.grace then some (Lnk.gracefulShutdown N err { s with grace := s.grace - 1 }) else none
  | .tick => match s.atimer with
    | none => none
    | some n => some (s.tick n)
  | .onClose => -- socket.h:788-810, tcp/socket.h:273-282; only when no asynchronous call is left (Model/Lifecycle), in particular no connect
    if s.closing ∧ s.connecting = false then some { s with status := .broken, closing := false } else none

inductive Lnk.Run (client : Bool) (N : Nat) : Lnk → List LkAct → Lnk → Prop where
  | nil (s : Lnk) : Lnk.Run client N s [] s
  | snoc (s s1 s2 : Lnk) (as : List LkAct) (a : LkAct) : Lnk.Run client N s as s1 → Lnk.step client N s1 a = some s2 → Lnk.Run client N s (as ++ [a]) s2

def Lnk.exec (client : Bool) (N : Nat) : Lnk → List LkAct → Option Lnk
  | s, [] => some s
  | s, a :: as => do
    let s ← Lnk.step client N s a
    Lnk.exec client N s as

end StAsio
