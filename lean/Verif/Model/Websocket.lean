import Verif.Model.EndToEnd
/-!
One direction of a websocket link from `send_msg`/`send_native_msg` on one side to `on_msg_handle` on the other side: include/tcp/websocket/websocket.h:43-95
(stream, reader_writer) under the TCP socket (Model/TcpSend, Model/RecvDispatch) with ext::packer, the default packer of include/ext/websocket.h:19-21.

What is assumed of boost::beast: one async_write of a buffer sequence is one websocket message with the bytes of all buffers; websocket messages arrive whole, in order,
each by one async_read, which appends the payload to the dynamic buffer and gives its length to the handler; is_message_done() is then true. Control frames, the handshake
(C50), the closing handshake and breaking links are left out. A send call refused because the send buffer is full has no effect and is not an action. Nobody uses priority,
pop, shrink or reset.
-/
set_option autoImplicit false
namespace StAsio

/-- What the two applications can observe. -/
inductive WsEv where
  /-- a send function put its message with this content into the send buffer, in these pieces -/
  | sent (b : Bytes) (pieces : List Bytes)
  /-- on_msg_handle(m) of the receiver returned `ok` -/
  | handled (m : Bytes) (ok : Bool)
  deriving DecidableEq, Repr

structure WsPipe where
  tx : Tx
  /-- websocket messages completely written, in order -/
  link : List Bytes
  /-- how many of them the receiver has read -/
  off : Nat
  /-- recv_buff, include/tcp/websocket/websocket.h:75 -/
  recvBuff : Bytes
  rx : Rx
  /-- a failing assertion: the process ended -/
  bad : Bool
  deriving DecidableEq, Repr

/-- Both handshakes are done, do_start of both sockets ran (include/tcp/socket.h:241-248, include/socket.h:322-334). -/
def WsPipe.init : WsPipe :=
  { tx := { Tx.init with ready := true, atReady := 1 }, link := [], off := 0, recvBuff := [], rx := { Rx.init with rd := .reading }, bad := false }

/-- batch_msg_send_size, include/tcp/websocket/websocket.h:88 -/
def wsBatch : Nat := 0

/-- What send_msg (`native = false`) or send_native_msg (`native = true`) puts into the send buffer, include/base.h:703-780, and send_heartbeat, include/tcp/socket.h:90-98.
Outer `none`: a failing assertion or unreadable memory; inner `none`: packing failed. -/
def SendCall.wsPack (c : Cfg) (nd native : Bool) : SendCall → Option (Option (List Bytes))
  | .array ps => (packArray c native (some ps)).map (fun r => some [r.2]) -- base.h:770-779
  | .one m => if native then some (some [m]) else (packOne c nd m []).map (fun p => if p.ok then some p.can else none) -- base.h:704-715
  | .two m1 m2 => if native then some (some [m1, m2]) else (packTwo c nd m1 m2 []).map (fun p => if p.ok then some p.can else none) -- base.h:728-742
  | .list ms => if native then some (some ms) else (packList c nd ms []).map (fun p => if p.ok then some p.can else none) -- base.h:757-768
  | .heartbeat => (packHeartbeat c nd).map (fun b => some [b])

/-- Is it put into the send buffer by do_direct_send_msg(msg), which ignores empty messages, or by do_direct_send_msg(msg_can)? -/
def SendCall.wsSingle (native : Bool) : SendCall → Bool
  | .array _ | .heartbeat => true
  | .one _ => native
  | _ => false

/-- parse_msg, include/tcp/websocket/websocket.h:56-67: the messages appended to msg_can, the result, recv_buff afterwards. -/
def wsParse (buff : Bytes) (isMessageDone : Bool) : List Bytes × Bool × Bytes := (if isMessageDone then [buff] else [], isMessageDone, [])

inductive WsAct where
  /-- a thread calls a send function; `fits`: the memory for the queue's node is available -/
  | send (native : Bool) (call : SendCall) (fits : Bool)
  /-- a step of the sender (strand, kernel or a thread inside send_msg) -/
  | tx (a : TxAct)
  /-- the outstanding async_read of the receiver completes -/
  | net
  /-- a step of the receiver -/
  | rx (a : RAct)
  deriving DecidableEq, Repr

def wsRxEv : REv → Option WsEv
  | .ret m ok => some (.handled m ok)
  | _ => none

/-- The websocket message of a write that was just completed (include/tcp/websocket/websocket.h:68, 89). -/
def wsWritten (t : Tx) : TxAct → List Bytes
  | .complete i _ => ((t.writes[i]?).map (fun w => TxMsg.bytes w.bufs)).toList
  | _ => []

def WsPipe.step (c : Cfg) (nd : Bool) (limit : Nat) (s : WsPipe) : WsAct → Option (WsPipe × List WsEv)
  | .send native call fits =>
    if s.bad then none
    else match call.wsPack c nd native with
    | none => some ({ s with bad := true }, [])
    | some none => some (s, [])
    | some (some bs) =>
      if call.wsSingle native then
        let r := s.tx.send ⟨bs.flatten, none⟩ false fits
        some ({ s with tx := r.1 }, if r.2.isEmpty then [] else [.sent call.body [bs.flatten]])
      else
        let r := s.tx.sendList (bs.map (fun b => ⟨b, none⟩)) false
        some ({ s with tx := r.1 }, if r.2.isEmpty then [] else [.sent call.body bs])
  | .tx a => if s.bad = false ∧ a.healthy then (s.tx.step wsBatch a).map (fun r => ({ s with tx := r.1, link := s.link ++ wsWritten s.tx a }, [])) else none
  | .net => -- recv_handler, include/tcp/socket.h:347-382
    if s.bad ∨ s.rx.rd ≠ .reading then none
    else match s.link[s.off]? with
    | none => none
    | some m =>
      let buff := s.recvBuff ++ m
      if 0 < m.length then
        let p := wsParse buff true
        (s.rx.step limit (.read p.1)).map (fun r => ({ s with off := s.off + 1, recvBuff := p.2.2, rx := r.1 }, r.2.filterMap wsRxEv))
      else if nd then -- lines 372-376: nothing but a log entry, do_recv_msg is not called
        (s.rx.step limit .readError).map (fun r => ({ s with off := s.off + 1, recvBuff := buff, rx := r.1 }, r.2.filterMap wsRxEv))
      else some ({ s with off := s.off + 1, recvBuff := buff, bad := true }, []) -- line 374: assert(false)
  | .rx a => if s.bad = false ∧ a.healthy then (s.rx.step limit a).map (fun r => ({ s with rx := r.1 }, r.2.filterMap wsRxEv)) else none

inductive WsPipe.Run (c : Cfg) (nd : Bool) (limit : Nat) : WsPipe → List WsAct → WsPipe → List WsEv → Prop where
  | nil (s : WsPipe) : WsPipe.Run c nd limit s [] s []
  | snoc (s s1 s2 : WsPipe) (as : List WsAct) (a : WsAct) (es fs : List WsEv) :
      WsPipe.Run c nd limit s as s1 es → WsPipe.step c nd limit s1 a = some (s2, fs) → WsPipe.Run c nd limit s (as ++ [a]) s2 (es ++ fs)

def WsPipe.exec (c : Cfg) (nd : Bool) (limit : Nat) : WsPipe → List WsAct → Option (WsPipe × List WsEv)
  | s, [] => some (s, [])
  | s, a :: as => do
    let (s, es) ← s.step c nd limit a
    let (s, fs) ← WsPipe.exec c nd limit s as
    return (s, es ++ fs)

end StAsio
