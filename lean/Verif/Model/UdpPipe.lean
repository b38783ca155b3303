import Verif.Model.UdpSend
import Verif.Model.ModePipe
import Verif.Model.Simple
import Verif.Spec.UdpPipe
/-!
Any number of UDP sockets that send (Model/UdpSend.lean), a network and a UDP socket that receives, from `send_msg` to `on_msg` and `on_msg_handle`, with any combination of ST_ASIO_DISPATCH_BATCH_MSG,
ST_ASIO_SYNC_DISPATCH and ST_ASIO_PASSIVE_RECV (Model/RecvModes.lean).

Sources: include/udp/socket.h:268-328 (do_recv_msg, recv_handler), 330-393 (do_send_msg, send_handler), include/socket.h:483-560, 693-787, include/ext/unpacker.h:369-387 (udp_unpacker).

Simplifications: messages are what the packer made of them. The sockets are started and stay open, they are not connected (ST_ASIO_UDP_CONNECT_MODE off) and KCP is not used (Model/ReliableUdp). Senders are known by numbers, `UMsg.peer` is the number of the receiver; the addresses given
to the receiving application are left out (Model/UdpAddr has them). Nobody pops received messages.
The network: a datagram that left may arrive any number of times, at any time, or never; others may send datagrams too. The kernel delivers datagrams in the order in which they arrived.
-/
set_option autoImplicit false
namespace StAsio

structure UPipe where
  tx : Nat → Ux
  /-- all datagrams that ever left -/
  net : List (Nat × UMsg)
  /-- receive queue of the kernel -/
  kq : List Bytes
  /-- raw_buff of the unpacker, include/ext/unpacker.h:386 -/
  raw : Bytes
  rm : Rm
  bad : Bool

inductive UPAct where
  | tx (i : Nat) (a : UAct)
  | arrive (k : Nat)
  | stranger (d : Bytes)
  /-- the outstanding async_receive_from completes with the first datagram of the kernel's queue, recv_handler begins -/
  | recv
  | rx (a : MAct)
  deriving Repr

/-- The sending socket stays open (no do_start, on_close or reset: include/udp/socket.h:80-86, 183-240). -/
def UAct.stays : UAct → Bool
  | .linkUp | .onClose | .reset => false
  | _ => true

/-- Sockets just started: do_start ran (include/udp/socket.h:183-207, include/socket.h:322-334). `raw`: content of the buffer of the unpacker. -/
def UPipe.init (raw : Bytes) : UPipe :=
  { tx := fun _ => { Ux.init with ready := true, atReady := 1 }, net := [], kq := [], raw, rm := { Rm.init with ready := true, rposted := 1 }, bad := false }

/-- The sender (include/udp/socket.h:330-393, include/socket.h:176, 538-562), the network, recv_handler up to parse_msg (include/udp/socket.h:280-303) and the rest of the receiver (include/socket.h:483-560, 693-787). -/
def UPipe.step (me : Nat) (u : Cfg) (c : MCfg) (limit : Nat) (s : UPipe) : UPAct → Option (UPipe × List UPEv)
  | .tx i a =>
    if a.stays then
      ((s.tx i).step false a).map (fun r =>
        let out := r.1.wire.drop (s.tx i).wire.length
        ({ s with tx := fun j => if j = i then r.1 else s.tx j, net := s.net ++ out.map (fun m => (i, m)) }, r.2.map (.tx i) ++ out.map (.left i)))
    else none
  | .arrive k =>
    match s.net[k]? with
    | none => none
    | some x => if x.2.peer = me then some ({ s with kq := s.kq ++ [x.2.data] }, [.arrived (some k) x.2.data]) else none
  | .stranger d => some ({ s with kq := s.kq ++ [d] }, [.arrived none d])
  | .recv =>
    if s.rm.out ∧ s.rm.hp = .idle then
      match s.kq with
      | [] => none
      | d :: kq =>
        match Udp.datagram u s.raw d with
        | none => some ({ s with bad := true }, [])
        | some (raw, ms) => (s.rm.step c limit (.read ms false)).map (fun r => ({ s with kq, raw, rm := r.1 }, r.2.map .rx))
    else none
  | .rx a => if a.ok s.rm then (s.rm.step c limit a).map (fun r => ({ s with rm := r.1 }, r.2.map .rx)) else none

/-- Any sequence of these steps, with what is observed. -/
inductive UPipe.Run (me : Nat) (u : Cfg) (c : MCfg) (limit : Nat) : UPipe → List UPAct → UPipe → List UPEv → Prop where
  | nil (s : UPipe) : UPipe.Run me u c limit s [] s []
  | snoc (s s1 s2 : UPipe) (as : List UPAct) (a : UPAct) (es fs : List UPEv) :
      UPipe.Run me u c limit s as s1 es → UPipe.step me u c limit s1 a = some (s2, fs) → UPipe.Run me u c limit s (as ++ [a]) s2 (es ++ fs)

/-- The same as a function, for concrete runs. -/
def UPipe.exec (me : Nat) (u : Cfg) (c : MCfg) (limit : Nat) : UPipe → List UPAct → Option (UPipe × List UPEv)
  | s, [] => some (s, [])
  | s, a :: as => do
    let (s, es) ← s.step me u c limit a
    let (s, fs) ← UPipe.exec me u c limit s as
    return (s, es ++ fs)

/-- What goes on without the sending applications: the library's steps and the kernels', which send what they are given, datagrams that left arrive, the receiving application accepts messages; `asks`: it may call recv_msg()
(include/socket.h:166). -/
def UPAct.Goes (asks : Bool) : UPAct → Prop
  | .tx _ a => match a with
    | .loadReady | .loadFlag | .runPosted | .strand _ _ | .timerCC | .resumeCheck | .complete _ true _ | .handler _ => True
    | _ => False
  | .arrive _ => True
  | .stranger _ => False
  | .recv => True
  | .rx a => a.internal = true ∨ (asks = true ∧ a = .userRecv)

end StAsio
