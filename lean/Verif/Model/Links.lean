import Verif.Model.EndToEnd
/-!
A TCP client whose link breaks and is established again, as often as it takes: `send_msg` and friends may be called at any time,
also while there is no link. The sender is Model/TcpSend.lean; new is what happens to the stream between two links.

Reconnecting (include/tcp/client_socket.h:172 after_close, start) does not call reset (include/socket.h:75-98): the send buffer is kept and the new link
sends what is in it (include/socket.h:328), the messages of a failed write are given to on_send_error and dropped
(include/tcp/socket.h:455-458).

Simplifications: a send call refused because the send buffer is full has no effect and is not an action; a link on which a write
failed takes no more bytes (a TCP connection does not recover); the new link is up only after every asynchronous call of the old one ended
(C29), so a thread that still believes in the old link does not write while the connection is being established. Nobody uses priority, pop, shrink or reset.
-/
set_option autoImplicit false
namespace StAsio

/-- A client socket (include/tcp/client_socket.h, include/tcp/socket.h) and the streams of its links. -/
structure Links where
  tx : Tx
  /-- a write failed on the current link -/
  dead : Bool
  /-- there has been a link -/
  up : Bool
  /-- bytes the kernel took on the previous links -/
  past : List Bytes
  /-- a failing assertion or undefined behaviour -/
  bad : Bool
  deriving DecidableEq, Repr

/-- A fresh client socket, before the first connection (include/tcp/socket.h:29-36, include/socket.h:38-73). -/
def Links.init : Links := { tx := Tx.init, dead := false, up := false, past := [], bad := false }

/-- The streams of all links, the current one last (an observation, no code). -/
def Links.streams (s : Links) : List Bytes := if s.up then s.past ++ [s.tx.wire] else s.past

/-- What the application that owns the client can observe (include/tcp/socket.h:250-269 on_msg_send, on_send_error; the results of the send functions). -/
inductive LinksEv where
  /-- a send function put a message with this content into the send buffer -/
  | sent (b : Bytes)
  /-- on_msg_send: these packed messages were taken by the kernel -/
  | written (ms : List Bytes)
  /-- on_send_error: these packed messages were not sent -/
  | failed (ms : List Bytes)
  deriving DecidableEq, Repr

/-- Actions: calls of the send functions (include/base.h:703-797), and the steps of Model/TcpSend.lean. -/
inductive LinksAct where
  | send (call : SendCall) (fits : Bool)
  /-- a step of the strand, the kernel or a thread inside send_msg; a link that comes up or breaks -/
  | tx (a : TxAct)
  deriving DecidableEq, Repr

/-- What happens to a client without help of its user: the steps inside include/socket.h:322-334, include/tcp/socket.h:384-460, links that break (include/tcp/client_socket.h:120-170) and come up (199-231). -/
def TxAct.linky : TxAct → Bool
  | .loadReady | .loadFlag | .runPosted | .strand | .transfer _ _ | .complete _ _ | .handler _ | .linkUp | .linkDown | .onClose => true
  | _ => false

/-- The kernel takes bytes of an outstanding async_write. -/
def TxAct.isTransfer : TxAct → Bool
  | .transfer _ _ => true
  | _ => false

/-- The call backs among the sender's events (include/tcp/socket.h:435-458). -/
def txLinksEv : TxEv → Option LinksEv
  | .sent ms => some (.written (ms.map TxMsg.data))
  | .sendError ms => some (.failed (ms.map TxMsg.data))
  | _ => none

/-- The user's on_send_error of a socket with `resend`: it puts all messages back in front, `direct_send_msg(msg_can, true, true)` as
the comment in include/tcp/socket.h:265-268 suggests (do_direct_send_msg, include/socket.h:564-577). -/
def Tx.resend (t : Tx) (es : List TxEv) : Tx :=
  es.foldl (fun t e => match e with
    | .sendError ms => (t.sendList ms true).1
    | _ => t) t

/-- A TCP connection on which a write failed takes no more bytes (environment, no code). -/
def Links.deadAfter (dead : Bool) : TxAct → Bool
  | .complete _ false => true
  | .linkUp => false
  | _ => dead

/-- One action; include/base.h:703-797 (packing and queueing), include/tcp/socket.h:384-460 (sending), include/tcp/client_socket.h:172 (the send buffer survives a reconnection).
`resend`: does the user's on_send_error put the messages back? -/
def Links.step (c : Cfg) (nd resend : Bool) (batch : Nat) (s : Links) : LinksAct → Option (Links × List LinksEv)
  | .send call fits =>
    match call.pack c nd with
    | none => some ({ s with bad := true }, [])
    | some none => some (s, [])
    | some (some bs) =>
      let r := if call.single then s.tx.send ⟨bs.flatten, none⟩ false fits else s.tx.sendList (bs.map (fun b => ⟨b, none⟩)) false
      some ({ s with tx := r.1 }, if r.2.isEmpty then [] else [.sent call.body])
  | .tx a =>
    if a.linky = false then none
    else if s.dead && a.isTransfer then none
    else (s.tx.step batch a).map (fun r =>
      ({ s with tx := if resend then r.1.resend r.2 else r.1, dead := Links.deadAfter s.dead a, up := s.up || a == .linkUp,
                past := if a = .linkUp then s.streams else s.past }, r.2.filterMap txLinksEv))

/-- Histories of `Links.step`. -/
inductive Links.Run (c : Cfg) (nd resend : Bool) (batch : Nat) : Links → List LinksAct → Links → List LinksEv → Prop where
  | nil (s : Links) : Links.Run c nd resend batch s [] s []
  | snoc (s s1 s2 : Links) (as : List LinksAct) (a : LinksAct) (es fs : List LinksEv) :
      Links.Run c nd resend batch s as s1 es → Links.step c nd resend batch s1 a = some (s2, fs) → Links.Run c nd resend batch s (as ++ [a]) s2 (es ++ fs)

/-- Executes a list of actions; for examples. -/
def Links.exec (c : Cfg) (nd resend : Bool) (batch : Nat) : Links → List LinksAct → Option (Links × List LinksEv)
  | s, [] => some (s, [])
  | s, a :: as => do
    let (s, es) ← s.step c nd resend batch a
    let (s, fs) ← Links.exec c nd resend batch s as
    return (s, es ++ fs)

end StAsio
