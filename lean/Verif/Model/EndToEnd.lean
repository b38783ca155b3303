import Verif.Model.TcpSend
import Verif.Model.RecvDispatch
import Verif.Model.Packer
/-!
One direction of a TCP link from `send_msg` on one side to `on_msg_handle` on the other side: the packer, the sender
(Model/TcpSend.lean), the byte stream, the receiver's `async_read` driven by the default unpacker (Model/Reader.lean,
Model/Unpacker.lean) and the receive buffer with dispatching (Model/RecvDispatch.lean), all running concurrently.

The network is the only new part: TCP delivers the bytes the sender's kernel took, in order, in pieces of any size, each piece when the
receiver has an `async_read_some` outstanding. A send call refused because the send buffer is full (can_overflow = false) has no effect and is
not an action. The link does not break, and nobody uses priority, pop, shrink or reset (these are the
subjects of C20-C29).
-/
set_option autoImplicit false
namespace StAsio

/-- A call of one of the send functions of tcp::socket (TCP_SEND_MSG, include/base.h:703-780; send_heartbeat, include/tcp/socket.h:90-98). -/
inductive SendCall where
  /-- send_msg(pstr, len, num) and everything that is defined by it -/
  | array (ps : List Piece)
  /-- send_msg(msg&&) -/
  | one (m : Bytes)
  /-- send_msg(msg1&&, msg2&&) -/
  | two (m1 m2 : Bytes)
  /-- send_msg(msg_can&&) -/
  | list (ms : List Bytes)
  | heartbeat
  deriving DecidableEq, Repr

/-- The packer call inside a send function (base.h:712, 739, 766, 776; tcp/socket.h:94). Outer `none`: a failing assertion or
unreadable memory; inner `none`: packing failed (the function returns false). Otherwise what goes into the send buffer; line 776 ignores the result,
but then the message is empty and line 778 ignores it. -/
def SendCall.pack (c : Cfg) (nd : Bool) : SendCall → Option (Option (List Bytes))
  | .array ps => (packArray c false (some ps)).map (fun r => some [r.2])
  | .one m => (packOne c nd m []).map (fun p => if p.ok then some p.can else none)
  | .two m1 m2 => (packTwo c nd m1 m2 []).map (fun p => if p.ok then some p.can else none)
  | .list ms => (packList c nd ms []).map (fun p => if p.ok then some p.can else none)
  | .heartbeat => (packHeartbeat c nd).map (fun b => some [b])

/-- Is the packed message put into the send buffer by do_direct_send_msg(msg) (true) or by do_direct_send_msg(msg_can)? -/
def SendCall.single : SendCall → Bool
  | .array _ | .heartbeat => true
  | _ => false

/-- The content of the message a call sends. -/
def SendCall.body : SendCall → Bytes
  | .array ps => (ps.map (fun p => match p.ptr with
    | none => []
    | some mem => mem.take p.len.toNat)).flatten
  | .one m => m
  | .two m1 m2 => m1 ++ m2
  | .list ms => ms.flatten
  | .heartbeat => []

/-- What the two applications can observe. -/
inductive PEv where
  /-- a send function put a message with this content into the send buffer -/
  | sent (b : Bytes)
  /-- on_msg_handle(m) of the receiver returned `ok` -/
  | handled (m : Bytes) (ok : Bool)
  deriving DecidableEq, Repr

structure Pipe where
  tx : Tx
  /-- how many bytes of the stream the receiver has read -/
  off : Nat
  conn : Conn Unp
  rx : Rx
  /-- a failing assertion or undefined behaviour -/
  bad : Bool

/-- A link that was just established: do_start of both sockets ran (include/tcp/socket.h:241-248, include/socket.h:322-334). -/
def Pipe.init (c : Cfg) (raw : Bytes) (stripped : Bool) : Option Pipe := do
  let conn ← startRead (unpackerOps c) (Unp.init raw stripped) []
  return { tx := { Tx.init with ready := true, atReady := 1 }, off := 0, conn, rx := { Rx.init with rd := .reading }, bad := false }

inductive PAct where
  /-- a thread calls a send function; `fits`: the memory for the queue's node is available -/
  | send (call : SendCall) (fits : Bool)
  /-- a step of the sender (strand, kernel or a thread inside send_msg) -/
  | tx (a : TxAct)
  /-- the outstanding async_read_some of the receiver gets `k` bytes -/
  | net (k : Nat)
  /-- a step of the receiver -/
  | rx (a : RAct)
  deriving DecidableEq, Repr

/-- The steps of a healthy sender. -/
def TxAct.healthy : TxAct → Bool
  | .loadReady | .loadFlag | .runPosted | .strand | .transfer _ _ | .complete _ true | .handler _ => true
  | _ => false

/-- The steps of a healthy receiver, without the completion of async_read. -/
def RAct.healthy : RAct → Bool
  | .loadDisp | .handled | .checkTimer | .resume | .run | .begin | .ret _ | .dis | .dtimer => true
  | _ => false

/-- Messages appended to the log. -/
def newMsgs (before after : List RxEvent) : List Bytes :=
  (after.drop before.length).filterMap (fun e => match e with
    | .msg m => some m
    | .unpackError => none)

/-- Did the async_read complete? Then the next one was started, nothing was read by it yet. -/
def readDone : RxPhase → Bool
  | .reading _ got _ => got == 0
  | .stalled => true

def rxEv : REv → Option PEv
  | .ret m ok => some (.handled m ok)
  | _ => none

def Pipe.step (c : Cfg) (nd cwf : Bool) (batch limit : Nat) (s : Pipe) : PAct → Option (Pipe × List PEv)
  | .send call fits =>
    match call.pack c nd with
    | none => some ({ s with bad := true }, [])
    | some none => some (s, [])
    | some (some bs) =>
      let r := if call.single then s.tx.send ⟨bs.flatten, none⟩ false fits else s.tx.sendList (bs.map (fun b => ⟨b, none⟩)) false
      some ({ s with tx := r.1 }, if r.2.isEmpty then [] else [.sent call.body])
  | .tx a => if a.healthy then (s.tx.step batch a).map (fun r => ({ s with tx := r.1 }, [])) else none
  | .net k =>
    match s.rx.rd, s.conn.ph with
    | .reading, .reading cap got want =>
      if 0 < k ∧ k ≤ want ∧ got + k ≤ cap ∧ s.off + k ≤ s.tx.wire.length then
        match readSome (unpackerOps c) cwf s.conn cap got ((s.tx.wire.drop s.off).take k) with
        | none => some ({ s with bad := true }, [])
        | some conn =>
          if readDone conn.ph then
            (s.rx.step limit (.read (newMsgs s.conn.log conn.log))).map (fun r => ({ s with off := s.off + k, conn, rx := r.1 }, r.2.filterMap rxEv))
          else some ({ s with off := s.off + k, conn }, [])
      else none
    | _, _ => none
  | .rx a => if a.healthy then (s.rx.step limit a).map (fun r => ({ s with rx := r.1 }, r.2.filterMap rxEv)) else none

inductive Pipe.Run (c : Cfg) (nd cwf : Bool) (batch limit : Nat) : Pipe → List PAct → Pipe → List PEv → Prop where
  | nil (s : Pipe) : Pipe.Run c nd cwf batch limit s [] s []
  | snoc (s s1 s2 : Pipe) (as : List PAct) (a : PAct) (es fs : List PEv) :
      Pipe.Run c nd cwf batch limit s as s1 es → Pipe.step c nd cwf batch limit s1 a = some (s2, fs) → Pipe.Run c nd cwf batch limit s (as ++ [a]) s2 (es ++ fs)

def Pipe.exec (c : Cfg) (nd cwf : Bool) (batch limit : Nat) : Pipe → List PAct → Option (Pipe × List PEv)
  | s, [] => some (s, [])
  | s, a :: as => do
    let (s, es) ← s.step c nd cwf batch limit a
    let (s, fs) ← Pipe.exec c nd cwf batch limit s as
    return (s, es ++ fs)

end StAsio
