import Verif.Model.Handshake
/-!
The end of a link with handshakes: what happens after disconnect(), force_shutdown() or graceful_shutdown() of SSL sockets, websockets and SSL websockets, until on_close. Model/Handshake with the receiving chain and the outstanding
async_shutdown / async_close: include/tcp/ssl/ssl.h:44-60, include/tcp/websocket/websocket.h:54-95, 107-119, include/tcp/socket.h:231-239, 329-382, 462-481, include/socket.h:165-170, 322-334, 428-467, 471-542, 693-726, 781-818.

What is assumed of asio, SSL and beast: after close() every outstanding operation completes; after async_close completed, an outstanding read completes with an error and no message is received any more. That an async_shutdown or an async_close completes
before close() is not assumed. Simplifications: as in Model/Handshake; a posted do_recv_msg counts as an outstanding read; the messages themselves are left out.
-/
set_option autoImplicit false
namespace StAsio

structure LendCfg where
  /-- client_socket_base, otherwise server_socket_base -/
  client : Bool
  /-- websockets and SSL websockets, otherwise SSL sockets -/
  ws : Bool
  /-- ST_ASIO_PASSIVE_RECV -/
  passive : Bool
  /-- ST_ASIO_SYNC_RECV -/
  sync : Bool
  /-- number of handshakes -/
  L : Nat
  deriving DecidableEq, Repr

structure Lend where
  hk : Hk
  /-- async_read outstanding -/
  reading : Bool
  /-- the receive buffer is full: TIMER_CHECK_RECV is set -/
  idle : Bool
  /-- outstanding async_shutdown / async_close -/
  out : Nat
  /-- websockets: async_close completed -/
  ended : Bool
  deriving DecidableEq, Repr

def Lend.init (rc : Bool) : Lend := { hk := Hk.init rc, reading := false, idle := false, out := 0, ended := false }

inductive LendAct where
  /-- see Model/Handshake; recvError and wsClosed are below -/
  | hk (a : HkAct)
  /-- messages are received; `full`: the receive buffer is full then -/
  | recv (full : Bool)
  /-- a websocket message without content is received, asserts are compiled out (see C69) -/
  | recvEmpty
  /-- TIMER_CHECK_RECV fires and finds space -/
  | resume
  /-- ST_ASIO_PASSIVE_RECV: recv_msg() -/
  | ask
  /-- the read fails: the peer closed, the link broke, ... -/
  | readError
  /-- the read fails because the link ended or the socket was closed -/
  | readEnd
  /-- async_shutdown / async_close completes -/
  | shutDone
  /-- ... because the socket was closed -/
  | shutAbort
  /-- the handshake fails because the socket was closed -/
  | hsAbort
  deriving DecidableEq, Repr

/-- A read fails: recv_handler with an error, tcp/socket.h:347-382, ssl.h:44. -/
def Lend.readFails (c : LendCfg) (s : Lend) : Option (Lend × List HkEv) :=
  (s.hk.step c.client c.L (.recvError (!c.ws))).map fun r => ({ s with reading := false, hk := r.1 }, r.2)

/-- The handlers of async_shutdown (ssl.h:58-60: nothing but a log entry) and async_close (websocket.h:113-117). -/
def Lend.shutEnds (c : LendCfg) (s : Lend) : Option (Lend × List HkEv) :=
  if c.ws then (s.hk.step c.client c.L .wsClosed).map fun r => ({ s with out := s.out - 1, ended := true, hk := r.1 }, r.2) else some ({ s with out := s.out - 1 }, [])

def Lend.step (c : LendCfg) (s : Lend) : LendAct → Option (Lend × List HkEv)
  | .hk (.recvError _) | .hk .wsClosed => none
  | .hk .runShut => (s.hk.step c.client c.L .runShut).map fun r => ({ s with out := s.out + 1, hk := r.1 }, r.2) -- ssl.h:49-54, websocket.h:110-117
  | .hk (.handshakeDone ok) => -- do_start: socket.h:329-331
    (s.hk.step c.client c.L (.handshakeDone ok)).map fun r => ({ s with reading := s.reading || (decide (HkEv.onConnect ∈ r.2) && !(c.passive && c.sync)), hk := r.1 }, r.2)
  | .hk (.onClose busy) => -- no asynchronous call is left, all timers are stopped
    if s.reading ∨ s.idle ∨ s.out ≠ 0 then none else (s.hk.step c.client c.L (.onClose busy)).map fun r => ({ s with ended := false, hk := r.1 }, r.2)
  | .hk a => (s.hk.step c.client c.L a).map fun r => ({ s with hk := r.1 }, r.2)
  | .recv full => -- tcp/socket.h:353-370, socket.h:715-726
    if s.reading = false ∨ s.ended ∨ s.hk.closing then none
    else if c.passive then some ({ s with reading := false }, []) else if full then some ({ s with reading := false, idle := true }, []) else some (s, [])
  | .recvEmpty => if s.reading = false ∨ s.ended ∨ s.hk.closing ∨ c.ws = false then none else some ({ s with reading := false }, []) -- tcp/socket.h:371-375: do_recv_msg is not called
  | .resume => if s.idle then some ({ s with idle := false, reading := s.reading || !s.hk.closing }, []) else none -- socket.h:693-708; closing stops the timer (line 443)
  | .ask => if c.passive ∧ s.hk.status = .connected ∧ s.reading = false then some ({ s with reading := true }, []) else none -- socket.h:166, tcp/socket.h:331-336
  | .readError => if s.reading then s.readFails c else none
  | .readEnd => if s.reading ∧ (s.ended ∨ s.hk.closing) then s.readFails c else none
  | .shutDone => if 0 < s.out then s.shutEnds c else none
  | .shutAbort => if 0 < s.out ∧ s.hk.closing then s.shutEnds c else none
  | .hsAbort => if s.hk.closing then (s.hk.step c.client c.L (.handshakeDone false)).map fun r => ({ s with hk := r.1 }, r.2) else none

inductive Lend.Run (c : LendCfg) : Lend → List LendAct → Lend → List HkEv → Prop where
  | nil (s : Lend) : Lend.Run c s [] s []
  | snoc (s s1 s2 : Lend) (as : List LendAct) (a : LendAct) (es es' : List HkEv) : Lend.Run c s as s1 es → Lend.step c s1 a = some (s2, es') → Lend.Run c s (as ++ [a]) s2 (es ++ es')

def Lend.exec (c : LendCfg) : Lend → List LendAct → Option (Lend × List HkEv)
  | s, [] => some (s, [])
  | s, a :: as => do
    let (s, es) ← s.step c a
    let (s, es') ← Lend.exec c s as
    return (s, es ++ es')

end StAsio
