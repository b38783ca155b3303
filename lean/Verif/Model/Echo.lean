import Verif.Model.EndToEnd
/-!
A client and a server that answers every message with the same message, as recommended for congestion control: its on_msg_handle(msg) is `return send_msg(msg);`
(echo_server/echo_server.cpp:154, websocket_test, unix_socket; include/socket.h:759-771 calls it again after a while if it returned false). Both directions of the link are modelled as in
Model/EndToEnd; they are coupled in on_msg_handle of the server.

Simplifications: those of Model/EndToEnd; checking the size of the send buffer and putting the message into it is one step, because besides heartbeats nothing else is sent by the server
(other senders could only delay the answers and let the send buffer grow, C18); the macro ST_ASIO_SHRINK_SEND_BUFFER is not defined; ST_ASIO_DISPATCH_BATCH_MSG
is not defined (with it, echo_server uses the other on_msg_handle).
-/
set_option autoImplicit false
namespace StAsio

structure Echo where
  /-- from the client to the server -/
  up : Pipe
  /-- from the server to the client -/
  down : Pipe

/-- The link was just established. `raw1`, `raw2`: initial contents of the raw buffers of the unpackers; `stripped1`, `stripped2`: their modes. -/
def Echo.init (c : Cfg) (raw1 raw2 : Bytes) (stripped1 stripped2 : Bool) : Option Echo := do
  return { up := ← Pipe.init c raw1 stripped1, down := ← Pipe.init c raw2 stripped2 }

inductive EAct where
  /-- the client calls a send function, or a step of the client's sender, the network or the server's receiver -/
  | up (a : PAct)
  /-- on_msg_handle of the server: `return send_msg(msg);` -/
  | echo
  /-- a step of the server's sender, the network or the client's receiver; or the server sends a heartbeat -/
  | down (a : PAct)
  deriving DecidableEq, Repr

inductive EEv where
  | up (e : PEv)
  | down (e : PEv)
  deriving DecidableEq, Repr

/-- The actions of `up`: on_msg_handle of the server returns only in `echo`. -/
def PAct.isRet : PAct → Bool
  | .rx (.ret _) => true
  | _ => false

/-- The only message the server sends on its own. -/
def PAct.isOtherSend : PAct → Bool
  | .send .heartbeat _ => false
  | .send _ _ => true
  | _ => false

/-- Does send_msg(msg), include/base.h:704-715, accept the message? First the check of the send buffer (include/socket.h:257, 416), then packing. -/
def Echo.accepts (c : Cfg) (nd : Bool) (sendLimit : Nat) (down : Pipe) (m : Bytes) : Bool :=
  if down.tx.q.total < sendLimit then
    match (SendCall.one m).pack c nd with
    | some none => false
    | _ => true
  else false

def Echo.step (c : Cfg) (nd cwf : Bool) (batch limit sendLimit : Nat) (s : Echo) : EAct → Option (Echo × List EEv)
  | .up a => if a.isRet then none else (s.up.step c nd cwf batch limit a).map (fun r => ({ s with up := r.1 }, r.2.map .up))
  | .down a => if a.isOtherSend then none else (s.down.step c nd cwf batch limit a).map (fun r => ({ s with down := r.1 }, r.2.map .down))
  | .echo =>
    match s.up.rx.cur with
    | none => none
    | some m =>
      if Echo.accepts c nd sendLimit s.down m then do
        let d ← s.down.step c nd cwf batch limit (.send (.one m) true)
        let u ← s.up.step c nd cwf batch limit (.rx (.ret true))
        return ({ up := u.1, down := d.1 }, d.2.map .down ++ u.2.map .up)
      else do
        let u ← s.up.step c nd cwf batch limit (.rx (.ret false))
        return ({ s with up := u.1 }, u.2.map .up)

inductive Echo.Run (c : Cfg) (nd cwf : Bool) (batch limit sendLimit : Nat) : Echo → List EAct → Echo → List EEv → Prop where
  | nil (s : Echo) : Echo.Run c nd cwf batch limit sendLimit s [] s []
  | snoc (s s1 s2 : Echo) (as : List EAct) (a : EAct) (es fs : List EEv) :
      Echo.Run c nd cwf batch limit sendLimit s as s1 es → Echo.step c nd cwf batch limit sendLimit s1 a = some (s2, fs) →
      Echo.Run c nd cwf batch limit sendLimit s (as ++ [a]) s2 (es ++ fs)

def Echo.exec (c : Cfg) (nd cwf : Bool) (batch limit sendLimit : Nat) : Echo → List EAct → Option (Echo × List EEv)
  | s, [] => some (s, [])
  | s, a :: as => do
    let (s, es) ← s.step c nd cwf batch limit sendLimit a
    let (s, fs) ← Echo.exec c nd cwf batch limit sendLimit s as
    return (s, es ++ fs)

end StAsio
