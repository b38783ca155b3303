import Verif.Model.TcpSend
import Verif.Model.UdpSend
/-!
The notifications of the send path: on_msg_send and on_all_msg_send (ST_ASIO_WANT_MSG_SEND_NOTIFY, ST_ASIO_WANT_BATCH_MSG_SEND_NOTIFY, ST_ASIO_WANT_ALL_MSG_SEND_NOTIFY), called by
send_handler (include/tcp/socket.h:410-460, include/udp/socket.h:355-393) around Model/TcpSend.lean and Model/UdpSend.lean.

send_handler is three steps here: on_msg_send; the look into the send buffer with on_all_msg_send; the rest (clear the messages, go on sending). Other threads, and the call backs themselves,
may use the socket in between; the strand does nothing else meanwhile.
Simplification: the promises of synchronous sends are set in the third step instead of before the first one (C23 is about them).
-/
set_option autoImplicit false
namespace StAsio

/-- Which of the macros ST_ASIO_WANT_MSG_SEND_NOTIFY and ST_ASIO_WANT_BATCH_MSG_SEND_NOTIFY is defined (tcp/socket.h:424-428; if both are, the first one counts). -/
inductive NtMode where
  | none
  | one
  | batch
  deriving DecidableEq, Repr

/-- batch_msg_send_size(), tcp/socket.h:45-52, with websocket's (include/tcp/websocket/websocket.h:88) if `ws`; default_max_transfer_size is 65536. -/
def NtMode.size (ws : Bool) : NtMode → Nat
  | .one => 0
  | _ => if ws then 0 else 65536

/-- What the user can observe. -/
inductive NtEv where
  /-- messages put into the send buffer (socket.h:538-577); `prior`: in front of the waiting ones -/
  | accepted (ms : List Bytes) (prior : Bool)
  /-- these messages were written successfully, send_handler runs (tcp/socket.h:412-418) -/
  | written (ms : List Bytes)
  /-- one call of on_msg_send (tcp/socket.h:425, 427; udp/socket.h:369), with the messages before and after the call: the argument is a reference -/
  | onSend (ms left : List Bytes)
  /-- on_all_msg_send (tcp/socket.h:429-443; udp/socket.h:372-373) -/
  | onAll (m : Bytes)
  /-- on_send_error (tcp/socket.h:455; udp/socket.h:382) -/
  | failed (ms : List Bytes)
  /-- popped, discarded or cleared (base.h:687-693, socket.h:408-412, 100-107) -/
  | removed (ms : List Bytes)
  deriving DecidableEq, Repr

/-- Where send_handler is, if it runs for a successful write. -/
inductive NtPh where
  | idle
  /-- on_msg_send returned; `left`: what it left of sending_msgs. Before tcp/socket.h:430, udp/socket.h:372 -/
  | notified (i : Nat) (left : List Bytes)
  /-- before tcp/socket.h:445, udp/socket.h:384 -/
  | rest (i : Nat)
  deriving DecidableEq, Repr

/-- A tcp::socket with the notifications. -/
structure Nt where
  tx : Tx
  ph : NtPh
  /-- `back()` of an empty list was used -/
  bad : Bool
  deriving DecidableEq, Repr

/-- A new socket. -/
def Nt.init : Nt := { tx := Tx.init, ph := .idle, bad := false }

/-- Actions. -/
inductive NtAct where
  /-- a step of Model/TcpSend -/
  | tx (a : TxAct)
  /-- send_handler begins, for the completed write `i`, which succeeded; on_msg_send leaves the messages as `left` -/
  | begin (i : Nat) (left : List Bytes)
  /-- send_buffer.is_empty(), on_all_msg_send -/
  | check
  /-- the rest of send_handler -/
  | finish
  deriving DecidableEq, Repr

/-- The events of Model/TcpSend. -/
def ntTxEv : TxEv → Option NtEv
  | .accept ms prior => some (.accepted (ms.map TxMsg.data) prior)
  | .sendError ms => some (.failed (ms.map TxMsg.data))
  | .popped ms => some (.removed (ms.map TxMsg.data))
  | .discarded ms => some (.removed (ms.map TxMsg.data))
  | .cleared ms => some (.removed (ms.map TxMsg.data))
  | _ => none

/-- Actions of the strand: they wait until send_handler returned. -/
def TxAct.inStrand : TxAct → Bool
  | .runPosted | .strand | .handler _ => true
  | _ => false

/-- send_handler with no error (tcp/socket.h:412). -/
def TxAct.succeeds (s : Tx) : TxAct → Bool
  | .handler i => (s.dones[i]?.map WrDone.ok).getD false
  | _ => false

/-- What on_msg_send can do to the messages: a call with one message may change this message, a call with the container may change the container (tcp/socket.h:425, 427). -/
def NtMode.mayLeave (mode : NtMode) (ms left : List Bytes) : Bool := match mode with
  | .none => left == ms
  | .one => left.length == ms.length && left.drop 1 == ms.drop 1
  | .batch => true

/-- The calls of on_msg_send, tcp/socket.h:424-428. -/
def NtMode.calls (mode : NtMode) (ms left : List Bytes) : List NtEv := match mode with
  | .none => []
  | .one => [.onSend (ms.take 1) (left.take 1)]
  | .batch => [.onSend ms left]

/-- One action. -/
def Nt.step (ws : Bool) (mode : NtMode) (s : Nt) : NtAct → Option (Nt × List NtEv)
  | .tx a =>
    if a.inStrand ∧ s.ph ≠ .idle then none
    else if a.succeeds s.tx then none -- `begin`, `check`, `finish` instead
    else (s.tx.step (mode.size ws) a).map (fun r => ({ s with tx := r.1 }, r.2.filterMap ntTxEv))
  | .begin i left => -- tcp/socket.h:410-428
    match s.tx.dones[i]? with
    | none => none
    | some d =>
      if s.ph ≠ .idle ∨ s.tx.pc ≠ .idle ∨ d.ok = false ∨ mode.mayLeave (s.tx.sendingMsgs.map TxMsg.data) left = false then none
      else some ({ s with ph := .notified i left }, .written (s.tx.sendingMsgs.map TxMsg.data) :: mode.calls (s.tx.sendingMsgs.map TxMsg.data) left)
  | .check => -- tcp/socket.h:429-444
    match s.ph with
    | .notified i left =>
      if s.tx.q.items.isEmpty then
        match left.getLast?, mode with
        | some m, _ => some ({ s with ph := .rest i }, [.onAll m])
        | none, .batch => some ({ s with ph := .rest i }, [.onAll []])
        | none, _ => some ({ s with ph := .rest i, bad := true }, [])
      else some ({ s with ph := .rest i }, [])
    | _ => none
  | .finish => -- tcp/socket.h:445-446
    match s.ph with
    | .rest i => (s.tx.step (mode.size ws) (.handler i)).map (fun r => ({ s with tx := r.1, ph := .idle }, r.2.filterMap ntTxEv))
    | _ => none

/-- Histories. -/
inductive Nt.Run (ws : Bool) (mode : NtMode) : Nt → List NtAct → Nt → List NtEv → Prop where
  | nil (s : Nt) : Nt.Run ws mode s [] s []
  | snoc (s s1 s2 : Nt) (as : List NtAct) (a : NtAct) (es fs : List NtEv) :
      Nt.Run ws mode s as s1 es → Nt.step ws mode s1 a = some (s2, fs) → Nt.Run ws mode s (as ++ [a]) s2 (es ++ fs)

/-- Executes a list of actions; for examples. -/
def Nt.exec (ws : Bool) (mode : NtMode) : Nt → List NtAct → Option (Nt × List NtEv)
  | s, [] => some (s, [])
  | s, a :: as => do
    let (s, es) ← s.step ws mode a
    let (s, fs) ← Nt.exec ws mode s as
    return (s, es ++ fs)

/-- A udp::socket with the notifications. -/
structure Nu where
  ux : Ux
  ph : NtPh
  deriving DecidableEq, Repr

/-- A new socket. -/
def Nu.init : Nu := { ux := Ux.init, ph := .idle }

/-- Actions. -/
inductive NuAct where
  /-- a step of Model/UdpSend -/
  | ux (a : UAct)
  /-- send_handler begins, for the completed async_send(_to) `i`, which succeeded; on_msg_send leaves the message as `left` -/
  | begin (i : Nat) (left : Bytes)
  /-- send_buffer.is_empty(), on_all_msg_send -/
  | check
  /-- the rest of send_handler -/
  | finish
  deriving DecidableEq, Repr

/-- The events of Model/UdpSend. -/
def nuUxEv : UEv → Option NtEv
  | .accept m prior => some (.accepted [m.data] prior)
  | .sendError m => some (.failed [m.data])
  | .popped ms => some (.removed (ms.map UMsg.data))
  | .discarded ms => some (.removed (ms.map UMsg.data))
  | .cleared ms => some (.removed (ms.map UMsg.data))
  | _ => none

/-- Actions of the strand: they wait until send_handler returned. -/
def UAct.inStrand : UAct → Bool
  | .runPosted | .strand _ _ | .handler _ => true
  | _ => false

/-- send_handler with no error (udp/socket.h:357). -/
def UAct.succeeds (s : Ux) : UAct → Bool
  | .handler i => (s.dones[i]?.map UDone.ok).getD false
  | _ => false

/-- One action. `conn`: is_connected; `notify`: ST_ASIO_WANT_MSG_SEND_NOTIFY is defined. -/
def Nu.step (conn notify : Bool) (s : Nu) : NuAct → Option (Nu × List NtEv)
  | .ux a =>
    if a.inStrand ∧ s.ph ≠ .idle then none
    else if a.succeeds s.ux then none
    else (s.ux.step conn a).map (fun r => ({ s with ux := r.1 }, r.2.filterMap nuUxEv))
  | .begin i left => -- udp/socket.h:355-370
    match s.ux.dones[i]?, s.ux.cur with
    | some d, some m =>
      if s.ph ≠ .idle ∨ s.ux.pc ≠ .idle ∨ d.ok = false ∨ (notify = false ∧ left ≠ m.data) then none
      else some ({ s with ph := .notified i [left] }, .written [m.data] :: (if notify then [.onSend [m.data] [left]] else []))
    | _, _ => none
  | .check => -- udp/socket.h:371-374
    match s.ph with
    | .notified i left => some ({ s with ph := .rest i }, if s.ux.q.items.isEmpty then left.map .onAll else [])
    | _ => none
  | .finish => -- udp/socket.h:384-392
    match s.ph with
    | .rest i => (s.ux.step conn (.handler i)).map (fun r => ({ s with ux := r.1, ph := .idle }, r.2.filterMap nuUxEv))
    | _ => none

/-- Histories. -/
inductive Nu.Run (conn notify : Bool) : Nu → List NuAct → Nu → List NtEv → Prop where
  | nil (s : Nu) : Nu.Run conn notify s [] s []
  | snoc (s s1 s2 : Nu) (as : List NuAct) (a : NuAct) (es fs : List NtEv) :
      Nu.Run conn notify s as s1 es → Nu.step conn notify s1 a = some (s2, fs) → Nu.Run conn notify s (as ++ [a]) s2 (es ++ fs)

/-- Executes a list of actions; for examples. -/
def Nu.exec (conn notify : Bool) : Nu → List NuAct → Option (Nu × List NtEv)
  | s, [] => some (s, [])
  | s, a :: as => do
    let (s, es) ← s.step conn notify a
    let (s, fs) ← Nu.exec conn notify s as
    return (s, es ++ fs)

end StAsio
