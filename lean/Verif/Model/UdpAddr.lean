import Verif.Spec.UdpAddr
import Verif.Model.Simple
/-!
Addresses in udp::generic_socket: include/udp/socket.h:60-62 (constructors), 80-90 (reset, set_connect_mode), 92-102 (set_local_addr, set_peer_addr, force_shutdown), 183-207 (do_start), 268-328 (do_recv_msg, recv_handler), 330-393 (do_send_msg,
send_handler), 424-455 (bind, connect of socket_base), include/socket.h:428-467 (close), include/base.h:314-330 (udp_msg), 930-953 (UDP_SEND_MSG).

Simplifications: sending and receiving are taken without the interleavings inside of do_send_msg and the dispatching (Model/UdpSend, Model/RecvDispatch, Model/RecvModes have them). pre_handle_msg does nothing and KCP is not used (Model/ReliableUdp). The unpacker is udp_unpacker.
The kernel: a connected socket lets only datagrams of its peer into its receive queue and sends to its peer; connecting does not drop what is already in the queue (as Linux behaves); a datagram too long is cut off.
-/
set_option autoImplicit false
namespace StAsio

structure Ua where
  /-- connect_mode -/
  mode : Bool
  /-- started_, until closing has ended -/
  live : Bool
  /-- do_start() is between bind and connect -/
  starting : Bool
  /-- is_connected -/
  connected : Bool
  /-- peer_addr -/
  peer : UAddr
  /-- temp_addr -/
  temp : UAddr
  /-- the kernel socket is open -/
  isOpen : Bool
  /-- what the kernel socket is connected to -/
  kpeer : Option UAddr
  /-- receive queue of the kernel -/
  kq : List (UAddr × Bytes)
  /-- raw_buff of the unpacker -/
  raw : Bytes
  /-- async_receive(_from) outstanding -/
  out : Bool
  /-- it completed with so many bytes, recv_handler is to run -/
  done : Option Nat
  /-- reception is suspended, TIMER_CHECK_RECV is armed -/
  susp : Bool
  sendq : List (UAddr × Bytes)
  /-- sending_msg -/
  cur : Option (UAddr × Bytes)
  deriving DecidableEq, Repr

/-- udp/socket.h:60-61. `mode`: ST_ASIO_UDP_CONNECT_MODE -/
def Ua.init (mode : Bool) (raw : Bytes) : Ua :=
  { mode, live := false, starting := false, connected := false, peer := ⟨0, 0⟩, temp := ⟨0, 0⟩, isOpen := false, kpeer := none, kq := [], raw, out := false, done := none, susp := false, sendq := [], cur := none }

inductive AAct where
  | setMode
  | setPeer (a : UAddr)
  /-- start(): do_start() up to bind(), which succeeds or not -/
  | startBind (ok : Bool)
  /-- the rest of do_start(); `ok`: the kernel accepts to connect -/
  | startRest (ok : Bool)
  | arrive (src : UAddr) (d : Bytes)
  /-- the outstanding receive completes with the first datagram of the kernel's queue -/
  | complete
  /-- the outstanding receive fails -/
  | recvError
  /-- recv_handler; `full`: handle_msg() suspends the reception -/
  | recvHandler (full : Bool)
  | resume
  | send (a : UAddr) (m : Bytes) (prior : Bool)
  /-- the sending functions without an address -/
  | sendDefault (m : Bytes) (prior : Bool)
  | take
  | sendDone (ok : Bool)
  /-- close(true) -/
  | close
  /-- every asynchronous call ended, on_close() -/
  | closed
  | reset
  deriving DecidableEq, Repr

/-- `0 != peer_addr.port() || !peer_addr.address().is_unspecified()`, udp/socket.h:442 -/
def UAddr.valid (a : UAddr) : Bool := a.port != 0 || a.ip != 0

/-- recv_handler, udp/socket.h:294-313: the message gets peer_addr if is_connected, temp_addr otherwise. -/
def Ua.deliver (c : Cfg) (s : Ua) (n : Nat) : Option (List AEv) :=
  if n = 0 then some []
  else (Udp.parse c s.raw n).map (fun ms => ms.map (fun m => AEv.delivered (if s.connected then s.peer else s.temp) m))

def Ua.accept (s : Ua) (a : UAddr) (m : Bytes) (prior : Bool) : Option (Ua × List AEv) :=
  if m = [] then some (s, []) -- socket.h:540-544: an empty message is refused
  else some ({ s with sendq := if prior then (a, m) :: s.sendq else s.sendq ++ [(a, m)] }, [.accepted a m prior])

def Ua.step (c : Cfg) (s : Ua) : AAct → Option (Ua × List AEv)
  | .setMode => some ({ s with mode := true }, []) -- udp/socket.h:89
  | .setPeer a => some ({ s with peer := a }, [.peerSet a s.live]) -- udp/socket.h:96-97
  | .startBind ok => -- socket.h:150-162, udp/socket.h:185-203
    if s.live ∨ s.starting then none
    else if ok then some ({ s with isOpen := true, starting := true, kpeer := none, kq := [] }, []) else some ({ s with isOpen := true }, [])
  | .startRest ok => -- udp/socket.h:203-206; super::do_start() begins to receive
    if s.starting = false then none
    else if s.mode then
      if s.peer.valid ∧ ok then some ({ s with starting := false, live := true, connected := true, kpeer := some s.peer, out := true }, [.started (some s.peer)])
      else some ({ s with starting := false, live := true, connected := false, out := true }, [.connectFailed, .started none])
    else some ({ s with starting := false, live := true, out := true }, [.started none])
  | .arrive src d =>
    if (s.live ∧ s.isOpen) ∨ s.starting then
      match s.kpeer with
      | none => some ({ s with kq := s.kq ++ [(src, d)] }, [.got src d s.starting])
      | some p => if src = p then some ({ s with kq := s.kq ++ [(src, d)] }, [.got src d s.starting]) else some (s, [])
    else none
  | .complete => -- udp/socket.h:280-286; the kernel writes the buffer, and temp_addr if receive_from was used
    if s.out = false then none
    else match s.kq with
      | [] => none
      | (src, d) :: kq => do
        let d := d.take s.raw.length
        let raw ← writeAt s.raw 0 d
        some ({ s with kq, raw, temp := if s.connected then s.temp else src, out := false, done := some d.length }, [])
  | .recvError => -- udp/socket.h:316-324: handle_error(), on_recv_error(); reception is not continued
    if s.out = false then none else some ({ s with out := false }, [])
  | .recvHandler full => -- udp/socket.h:299-313, 325-326
    match s.done with
    | none => none
    | some n => (s.deliver c n).map (fun es => ({ s with done := none, out := !full, susp := full }, es))
  | .resume => if s.susp then some ({ s with susp := false, out := true }, []) else none -- socket.h:693-715
  | .send a m prior => s.accept a m prior -- base.h:945-952
  | .sendDefault m prior => s.accept s.peer m prior -- base.h:932, 943-944: peer_addr
  | .take => -- udp/socket.h:336-348
    if s.live = false ∨ s.cur.isSome then none
    else match s.sendq with
      | [] => none
      | x :: q => some ({ s with sendq := q, cur := some x }, [.handed x.1 x.2])
  | .sendDone ok => -- udp/socket.h:340-346 async_send_to or async_send, 355-393 send_handler
    match s.cur with
    | none => none
    | some x =>
      if ok then
        if s.connected then
          match s.kpeer with
          | none => none -- async_send without destination fails
          | some p => some ({ s with cur := none }, [.transmitted p x.2])
        else some ({ s with cur := none }, [.transmitted x.1 x.2])
      else some ({ s with cur := none }, [.sendFailed x.2])
  | .close => -- socket.h:428-467: stop_all_timer(), close the lowest layer
    if s.live ∧ s.isOpen then some ({ s with isOpen := false, kq := [], susp := false }, [.lost (if s.done.getD 0 = 0 then 0 else 1)]) else none
  | .closed => -- udp/socket.h:228-240
    if s.live ∧ s.isOpen = false ∧ s.out = false ∧ s.done = none ∧ s.susp = false ∧ s.cur = none then some ({ s with live := false, kpeer := none }, []) else none
  | .reset => -- udp/socket.h:80-86: between closing and the next start
    if s.live ∨ s.starting then none else some ({ s with connected := false, sendq := [] }, [.cleared])

inductive Ua.Run (c : Cfg) : Ua → List AAct → Ua → List AEv → Prop where
  | nil (s : Ua) : Ua.Run c s [] s []
  | snoc (s s1 s2 : Ua) (as : List AAct) (a : AAct) (es es' : List AEv) : Ua.Run c s as s1 es → Ua.step c s1 a = some (s2, es') → Ua.Run c s (as ++ [a]) s2 (es ++ es')

def Ua.exec (c : Cfg) : Ua → List AAct → Option (Ua × List AEv)
  | s, [] => some (s, [])
  | s, a :: as => do
    let (s, es) ← s.step c a
    let (s, es') ← Ua.exec c s as
    return (s, es ++ es')

end StAsio
