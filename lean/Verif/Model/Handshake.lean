/-!
Model of TCP sockets with handshakes: SSL sockets (include/tcp/ssl/ssl.h:26-178), websockets (include/tcp/websocket/websocket.h:92-244) and SSL websockets (include/tcp/websocket/ssl/ssl.h:44-154),
on top of include/tcp/socket.h:79, 230-248, 273-282, 299-327, 384, 462-481, include/tcp/client_socket.h:88-112, 125-216, include/tcp/server_socket.h:38-79, include/socket.h:150-162, 176, 428-467, 781-818.

`L` handshakes follow each other: one for SSL and websockets, two (SSL, then websocket) for SSL websockets.

Simplifications: start(), close() and the end of closing are atomic here (Model/Lifecycle looks inside); the delays between reconnecting attempts are left out; the contents of messages are left out.
disconnect, force_shutdown and graceful_shutdown of these sockets are documented as not thread safe (ssl.h:79, 154): each is one step. That a receive error or a heartbeat time-out leads to a forced shutdown is the default
behaviour of the call backs (server_socket.h:62-65, client_socket.h:151-154).
-/
set_option autoImplicit false
namespace StAsio

/-- tcp/socket.h:79 -/
inductive HLink where
  | connected | forceDown | gracefulDown | broken | handshaking
  deriving DecidableEq, Repr

inductive HkEv where
  | start
  /-- TCP connection established: connected (clients), accepted (servers) -/
  | tcpUp
  /-- the result of handshake number `i`; on_handshake, on_ssl_handshake -/
  | handshake (i : Nat) (ok : Bool)
  | onConnect
  /-- messages handed to async_write -/
  | handOff
  | onClose
  deriving DecidableEq, Repr

structure Hk where
  status : HLink
  started : Bool
  /-- closed, on_close not called yet -/
  closing : Bool
  /-- clients: connect outstanding, or to be repeated -/
  connecting : Bool
  /-- handshake in progress -/
  hs : Option Nat
  /-- clients: need_reconnect -/
  reconnect : Bool
  /-- posted _force_shutdown -/
  force : Nat
  /-- posted async_shutdown / async_close -/
  shut : Nat
  /-- TIMER_ASYNC_SHUTDOWN -/
  atimer : Bool
  /-- threads in send_msg() that found the link ready -/
  atPost : Nat
  /-- posted do_send_msg -/
  posted : Nat
  deriving DecidableEq, Repr

/-- `rc`: ST_ASIO_RECONNECT -/
def Hk.init (rc : Bool) : Hk :=
  { status := .broken, started := false, closing := false, connecting := false, hs := none, reconnect := rc, force := 0, shut := 0, atimer := false, atPost := 0, posted := 0 }

inductive HkAct where
  | start
  /-- connect_handler -/
  | connectDone
  /-- connect_handler with an error, then another attempt or giving up; `sni`: SSL websockets, the connection was established but the SNI host name could not be set -/
  | connectFail (sni again : Bool)
  /-- handle_handshake -/
  | handshakeDone (ok : Bool)
  /-- disconnect, force_shutdown, graceful_shutdown by the user; the argument is for clients -/
  | shutdown (reconnect : Bool)
  | setReconnect (b : Bool)
  /-- receive error; `ssl`: SSL sockets stop the timer -/
  | recvError (ssl : Bool)
  /-- heartbeat time-out -/
  | heartbeatError
  | runForce
  /-- async_shutdown, or the lambda of shutdown_websocket -/
  | runShut
  /-- the handler of async_close (websockets) -/
  | wsClosed
  | tick
  /-- a user sends: send_msg() reads the status -/
  | send
  /-- … and posts do_send_msg -/
  | post
  /-- do_send_msg; `any`: there are messages and nothing is being sent -/
  | runSend (any : Bool)
  /-- end of closing; `busy`: although a thread in send_msg() found the old link ready and has not posted yet -/
  | onClose (busy : Bool)
  deriving DecidableEq, Repr

/-- start(), socket.h:150-162. Server: do_start, ssl.h:160-166, websocket.h:216-232, websocket/ssl/ssl.h:135-146. Client: client_socket.h:125-129. -/
def Hk.start (client : Bool) (s : Hk) : Hk × List HkEv :=
  if s.started ∨ s.closing then (s, [])
  else if client then ({ s with started := true, connecting := true }, [.start])
  else ({ s with started := true, status := .handshaking, hs := some 0 }, [.start, .tcpUp])

/-- close(), socket.h:428-467 -/
def Hk.close (s : Hk) : Hk := if s.started then { s with started := false, closing := true, atimer := false } else s

/-- _force_shutdown, shutdown, tcp/socket.h:299, 318-327 -/
def Hk.forceShutdown (s : Hk) : Hk :=
  if s.status = .forceDown then s else if s.status = .broken then s.close else { s with status := .forceDown }.close

/-- force_shutdown of generic_client_socket / generic_server_socket, client_socket.h:91-101, server_socket.h:39-45, tcp/socket.h:230; `r`: reconnect -/
def Hk.tcpForce (client r : Bool) (s : Hk) : Hk × List HkEv :=
  if client then
    let s := { s with reconnect := r }
    if r ∧ s.status = .broken ∧ s.started = false then s.start client else ({ s with force := s.force + 1 }, [])
  else ({ s with force := s.force + 1 }, [])

/-- force_shutdown = graceful_shutdown, ssl.h:80-91, 155-157, websocket.h:142-153, 211-213; shutdown_ssl ssl.h:46, shutdown_websocket websocket.h:107-119 -/
def Hk.userShutdown (client r : Bool) (s : Hk) : Hk × List HkEv :=
  if s.status = .connected then ({ s with reconnect := if client then r else s.reconnect, status := .gracefulDown, shut := s.shut + 1 }, []) else s.tcpForce client r

/-- handle_handshake, ssl.h:114-118, 171-175, websocket.h:185-189, 237-241, websocket/ssl/ssl.h:113-117, 149-153; then connect_handler (clients) or do_start (servers) of the base class: the next handshake
(websocket.h:158-182, 216-232) or do_start of tcp/socket.h:241-248, which calls on_connect and then send_msg() (socket.h:328). The server's del_socket, tcp/server.h:139-150, calls force_shutdown. -/
def Hk.handleHandshake (client : Bool) (L i : Nat) (ok : Bool) (s : Hk) : Hk × List HkEv :=
  if ok then
    if i + 1 < L then ({ s with status := .handshaking, hs := some (i + 1) }, [.handshake i true])
    else ({ s with status := .connected, hs := none, posted := s.posted + 1 }, [.handshake i true, .onConnect])
  else
    let r := Hk.userShutdown client false { s with hs := none }
    (r.1, .handshake i false :: r.2)

def Hk.step (client : Bool) (L : Nat) (s : Hk) : HkAct → Option (Hk × List HkEv)
  | .start => some (s.start client)
  | .connectDone => if s.connecting then some ({ s with connecting := false, status := .handshaking, hs := some 0 }, [.tcpUp]) else none -- tcp/ssl/ssl.h:102-109, websocket.h:158-182, websocket/ssl/ssl.h:94-111
  | .connectFail sni again => -- client_socket.h:135-146, 194-216; websocket/ssl/ssl.h:105-107
    if s.connecting then
      let s := if sni then { s with status := .handshaking } else s
      if s.closing then some ({ s with connecting := false }, []) -- the timer set here is stopped by the closing timer (socket.h:793)
      else if again && s.reconnect then some (s, []) else some ({ s with connecting := false, force := s.force + 1 }, [])
    else none
  | .handshakeDone ok => match s.hs with
    | none => none
    | some i => some (s.handleHandshake client L i ok)
  | .shutdown r => some (s.userShutdown client r)
  | .setReconnect b => if client then some ({ s with reconnect := b }, []) else none -- client_socket.h:85
  | .recvError ssl => some ({ s with atimer := s.atimer && !ssl, force := s.force + 1 }, []) -- ssl.h:44, client_socket.h:152, server_socket.h:63; a read is outstanding, so the link is not broken
  | .heartbeatError => some ({ s with force := s.force + 1 }, []) -- client_socket.h:154, server_socket.h:65
  | .runForce => if 0 < s.force then some (Hk.forceShutdown { s with force := s.force - 1 }, []) else none
  | .runShut => if 0 < s.shut then some ({ s with shut := s.shut - 1, atimer := true }, []) else none -- ssl.h:49-54, websocket.h:110-113
  | .wsClosed => some ({ s with atimer := false }, []) -- websocket.h:114
  | .tick => -- shutdown_handler(1), tcp/socket.h:234-238, 462-481; on_async_shutdown_error is force_shutdown of the tcp classes (client_socket.h:153, server_socket.h:64)
    if s.atimer then some ({ s with atimer := false, force := if s.status = .gracefulDown then s.force + 1 else s.force }, []) else none
  | .send => some ({ s with atPost := if s.status = .connected then s.atPost + 1 else s.atPost }, []) -- socket.h:176
  | .post => if 0 < s.atPost then some ({ s with atPost := s.atPost - 1, posted := s.posted + 1 }, []) else none
  | .runSend any => if 0 < s.posted then some ({ s with posted := s.posted - 1 }, if any then [.handOff] else []) else none -- tcp/socket.h:384-408
  | .onClose busy => -- socket.h:788-810 (no asynchronous call is left), tcp/socket.h:273-282, client_socket.h:156-172 (on_close, after_close)
    if s.closing ∧ s.connecting = false ∧ s.hs = none ∧ s.shut = 0 ∧ s.posted = 0 ∧ (s.atPost = 0 ↔ busy = false) then
      let s := { s with status := .broken, closing := false, atimer := false }
      let r := if client && s.reconnect then s.start client else (s, [])
      some (r.1, .onClose :: r.2)
    else none

inductive Hk.Run (client : Bool) (L : Nat) : Hk → List HkAct → Hk → List HkEv → Prop where
  | nil (s : Hk) : Hk.Run client L s [] s []
  | snoc (s s1 s2 : Hk) (as : List HkAct) (a : HkAct) (es es' : List HkEv) : Hk.Run client L s as s1 es → Hk.step client L s1 a = some (s2, es') → Hk.Run client L s (as ++ [a]) s2 (es ++ es')

def Hk.exec (client : Bool) (L : Nat) : Hk → List HkAct → Option (Hk × List HkEv)
  | s, [] => some (s, [])
  | s, a :: as => do
    let (s, es) ← Hk.step client L s a
    let (s, es') ← Hk.exec client L s as
    return (s, es ++ es')

end StAsio
