import Verif.Model.ReliableUdp
import Verif.Model.EndToEnd
/-!
One direction between two KCP sockets (include/udp/reliable_socket.h), from the send functions on one side to `on_msg_handle` on the other side: the sender is
Model/ReliableUdp.lean (Model/UdpSend.lean inside), the receiver is recv_handler (include/udp/socket.h:294-328) with pre_handle_msg (include/udp/reliable_socket.h:138-163) and
Model/RecvDispatch.lean.

What is assumed of KCP (ikcp.c, message mode) and the network: messages that ikcp_send took become complete on the other side in order, unchanged, each by some datagram given to ikcp_input;
ikcp_recv gives the first complete message that was not fetched, or a negative value if there is none, or if it is longer than the buffer given to it (then it stays where it is).
Datagrams may get lost, be delayed, repeated, acknowledgements or not KCP's at all (`net 0`).

Simplifications: messages are packed messages, and addresses are left out (C60, C61); the congestion timer is not lost (C32, C49_fails_timer), nobody uses priority, pop, shrink, reset, and
neither socket is closed. A send call refused because the send buffer is full has no effect and is not an action.
-/
set_option autoImplicit false
namespace StAsio

/-- What the two applications can observe. -/
inductive KpEv where
  /-- a send function put this packed message into the send buffer (include/socket.h:538-562) -/
  | sent (m : Bytes)
  /-- on_msg_handle(m) of the receiver returned `ok` (include/socket.h:760) -/
  | handled (m : Bytes) (ok : Bool)
  deriving DecidableEq, Repr

/-- A sending socket, KCP, the network and a receiving socket (include/udp/reliable_socket.h, include/udp/socket.h). -/
structure KPipe where
  kc : Kc
  /-- how many of the messages KCP took are complete at the receiver's KCP -/
  arrived : Nat
  /-- how many of them ikcp_recv gave to the receiver -/
  taken : Nat
  rx : Rx
  /-- a failing assertion: the receiving process ended -/
  bad : Bool
  deriving DecidableEq, Repr

/-- create_kcpcb was called and do_start ran on both sides (reliable_socket.h:42, 100-109, include/udp/socket.h:183-207, include/socket.h:322-334). -/
def KPipe.init (max : Nat) : KPipe :=
  { kc := { Kc.init max with kcp := some 0, ux := { Ux.init with ready := true, atReady := 1 } }, arrived := 0, taken := 0, rx := { Rx.init with rd := .reading }, bad := false }

/-- The messages ikcp_send took, in order (reliable_socket.h:129-133). -/
def Kc.took (s : Kc) : List Bytes := (s.given.filter (fun g => g.2)).map (fun g => g.1.data)

/-- The loop of pre_handle_msg, reliable_socket.h:154-162, with compose_msg, include/ext/unpacker.h:375. `ms`: the complete messages in KCP's queue; `buf`: ST_ASIO_MSG_BUFFER_SIZE; `nd`: NDEBUG.
`none`: a failing assertion. -/
def kcpRecv (nd : Bool) (buf : Nat) : List Bytes → Option (List Bytes)
  | [] => some []
  | m :: ms =>
    if buf < m.length then some [] -- ikcp_recv returns -3
    else if m.isEmpty && !nd then none -- assert(NULL != data && size > 0)
    else (kcpRecv nd buf ms).map (m :: ·)

/-- Actions. -/
inductive KpAct where
  /-- the sending socket, its users and its KCP -/
  | k (a : KAct)
  /-- the outstanding async_receive of the receiver completes with a datagram, by which `n` more messages become complete -/
  | net (n : Nat)
  /-- a step of the receiver -/
  | rx (a : RAct)
  deriving DecidableEq, Repr

/-- What may happen to the sender, see the simplifications above. -/
def KAct.plain : KAct → Bool
  | .u (.send _ false _) | .u .loadReady | .u .loadFlag | .u .runPosted | .u .resumeCheck | .u (.handler _) => true
  | .strand _ | .update _ | .timerCC | .poll | .setMax _ => true
  | _ => false

/-- The sender's events its user sees. -/
def kpTxEv : UEv → Option KpEv
  | .accept m _ => some (.sent m.data)
  | _ => none

/-- The receiver's events its user sees. -/
def kpRxEv : REv → Option KpEv
  | .ret m ok => some (.handled m ok)
  | _ => none

/-- One action. -/
def KPipe.step (nd : Bool) (buf limit : Nat) (s : KPipe) : KpAct → Option (KPipe × List KpEv)
  | .k a => if a.plain then (s.kc.step a).map (fun r => ({ s with kc := r.1 }, r.2.filterMap kpTxEv)) else none
  | .net n => -- recv_handler, include/udp/socket.h:294-313
    if s.bad ∨ s.rx.rd ≠ .reading ∨ s.kc.took.length < s.arrived + n then none
    else match kcpRecv nd buf ((s.kc.took.take (s.arrived + n)).drop s.taken) with
    | none => some ({ s with arrived := s.arrived + n, bad := true }, [])
    | some ms => (s.rx.step limit (.read ms)).map (fun r => ({ s with arrived := s.arrived + n, taken := s.taken + ms.length, rx := r.1 }, r.2.filterMap kpRxEv))
  | .rx a => if s.bad = false ∧ a.healthy then (s.rx.step limit a).map (fun r => ({ s with rx := r.1 }, r.2.filterMap kpRxEv)) else none

/-- Histories. -/
inductive KPipe.Run (nd : Bool) (buf limit : Nat) : KPipe → List KpAct → KPipe → List KpEv → Prop where
  | nil (s : KPipe) : KPipe.Run nd buf limit s [] s []
  | snoc (s s1 s2 : KPipe) (as : List KpAct) (a : KpAct) (es fs : List KpEv) :
      KPipe.Run nd buf limit s as s1 es → KPipe.step nd buf limit s1 a = some (s2, fs) → KPipe.Run nd buf limit s (as ++ [a]) s2 (es ++ fs)

/-- Executes a list of actions; for examples. -/
def KPipe.exec (nd : Bool) (buf limit : Nat) : KPipe → List KpAct → Option (KPipe × List KpEv)
  | s, [] => some (s, [])
  | s, a :: as => do
    let (s, es) ← s.step nd buf limit a
    let (s, fs) ← KPipe.exec nd buf limit s as
    return (s, es ++ fs)

end StAsio
