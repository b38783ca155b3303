import Verif.Model.Echo
import Verif.Model.Protocols
/-!
Links whose kernels and network hold a limited number of bytes: the sender's kernel takes bytes of an async_write (include/tcp/socket.h:405, 446) only while no more than `W` bytes are on their way, that is, taken and not yet read
by the receiver's async_read. Otherwise everything is as in Model/Protocols.lean (one direction, any packer/unpacker pair) and Model/Echo.lean (a client and a server that answers).

`Duo` is a link both ends of which answer every message with the same message and refuse messages while their own send buffer is full (`return send_msg(msg);` in on_msg_handle, as in Model/Echo.lean; pingpong_client and
pingpong_server, for instance, answer each other). Simplifications as in Model/Echo.lean.
-/
set_option autoImplicit false
namespace StAsio

/-- Is there room for what the sender's kernel is to take? `n`: bytes it has taken so far, `off`: bytes the receiver has read. The buffers of both kernels and the network hold `W` bytes. -/
def PAct.room (W n off : Nat) : PAct → Bool
  | .tx (.transfer _ k) => decide (n - off + k ≤ W)
  | _ => true

/-- One direction of a link (include/tcp/socket.h:329-480). -/
def GPipe.wstep {K : Codec} (W : Nat) (cwf : Bool) (batch limit : Nat) (s : GPipe K) (a : PAct) : Option (GPipe K × List PEv) :=
  if a.room W s.tx.wire.length s.off then s.step cwf batch limit a else none

inductive GPipe.WRun {K : Codec} (W : Nat) (cwf : Bool) (batch limit : Nat) : GPipe K → List PAct → GPipe K → List PEv → Prop where
  | nil (s : GPipe K) : GPipe.WRun W cwf batch limit s [] s []
  | snoc (s s1 s2 : GPipe K) (as : List PAct) (a : PAct) (es fs : List PEv) :
      GPipe.WRun W cwf batch limit s as s1 es → GPipe.wstep W cwf batch limit s1 a = some (s2, fs) → GPipe.WRun W cwf batch limit s (as ++ [a]) s2 (es ++ fs)

def GPipe.wexec {K : Codec} (W : Nat) (cwf : Bool) (batch limit : Nat) : GPipe K → List PAct → Option (GPipe K × List PEv)
  | s, [] => some (s, [])
  | s, a :: as => do
    let (s, es) ← s.wstep W cwf batch limit a
    let (s, fs) ← GPipe.wexec W cwf batch limit s as
    return (s, es ++ fs)

/-- The same for the two directions of an echo link. -/
def EAct.room (W : Nat) (s : Echo) : EAct → Bool
  | .up a => a.room W s.up.tx.wire.length s.up.off
  | .down a => a.room W s.down.tx.wire.length s.down.off
  | .echo => true

/-- A client and a server that answers (echo_server/echo_server.cpp:154). -/
def Echo.wstep (W : Nat) (c : Cfg) (nd cwf : Bool) (batch limit sendLimit : Nat) (s : Echo) (a : EAct) : Option (Echo × List EEv) :=
  if a.room W s then s.step c nd cwf batch limit sendLimit a else none

inductive Echo.WRun (W : Nat) (c : Cfg) (nd cwf : Bool) (batch limit sendLimit : Nat) : Echo → List EAct → Echo → List EEv → Prop where
  | nil (s : Echo) : Echo.WRun W c nd cwf batch limit sendLimit s [] s []
  | snoc (s s1 s2 : Echo) (as : List EAct) (a : EAct) (es fs : List EEv) :
      Echo.WRun W c nd cwf batch limit sendLimit s as s1 es → Echo.wstep W c nd cwf batch limit sendLimit s1 a = some (s2, fs) → Echo.WRun W c nd cwf batch limit sendLimit s (as ++ [a]) s2 (es ++ fs)

def Echo.wexec (W : Nat) (c : Cfg) (nd cwf : Bool) (batch limit sendLimit : Nat) : Echo → List EAct → Option (Echo × List EEv)
  | s, [] => some (s, [])
  | s, a :: as => do
    let (s, es) ← s.wstep W c nd cwf batch limit sendLimit a
    let (s, fs) ← Echo.wexec W c nd cwf batch limit sendLimit s as
    return (s, es ++ fs)

/-! ### two ends that answer each other -/

/-- Steps of a link both ends of which answer (include/base.h:704-715, include/tcp/socket.h:329-480). -/
inductive DAct where
  /-- the application of one end sends a message of its own, or a step of its sender, of the network or of the receiver of the other end; `dir`: from the first to the second end -/
  | pipe (dir : Bool) (a : PAct)
  /-- on_msg_handle: `return send_msg(msg);` of a message which travelled in direction `dir` -/
  | relay (dir : Bool)
  deriving DecidableEq, Repr

/-- What the two applications see. -/
inductive DEv where
  /-- a message was accepted by a send function; `own`: called by the application on its own, not by on_msg_handle -/
  | sent (dir : Bool) (b : Bytes) (own : Bool)
  /-- on_msg_handle returned, for a message which travelled in direction `dir` -/
  | handled (dir : Bool) (m : Bytes) (ok : Bool)
  deriving DecidableEq, Repr

/-- Both directions (`p1`: from the first to the second end). -/
structure Duo where
  p1 : Pipe
  p2 : Pipe

/-- The link was just established. -/
def Duo.init (c : Cfg) (raw1 raw2 : Bytes) : Option Duo := do
  return { p1 := ← Pipe.init c raw1 true, p2 := ← Pipe.init c raw2 true }

def Duo.get (s : Duo) (dir : Bool) : Pipe := if dir then s.p1 else s.p2

def Duo.set (s : Duo) (dir : Bool) (p : Pipe) : Duo := if dir then { s with p1 := p } else { s with p2 := p }

/-- What the applications see of a step in one direction. -/
def DEv.of (dir own : Bool) : PEv → DEv
  | .sent b => .sent dir b own
  | .handled m ok => .handled dir m ok

/-- `Echo.accepts`: does send_msg(msg), include/base.h:704-715, accept the message? -/
def Duo.step (W : Nat) (c : Cfg) (nd cwf : Bool) (batch limit sendLimit : Nat) (s : Duo) : DAct → Option (Duo × List DEv)
  | .pipe dir a =>
    if a.isRet = true ∨ a.room W (s.get dir).tx.wire.length (s.get dir).off = false then none
    else ((s.get dir).step c nd cwf batch limit a).map (fun r => (s.set dir r.1, r.2.map (DEv.of dir true)))
  | .relay dir =>
    match (s.get dir).rx.cur with
    | none => none
    | some m =>
      if Echo.accepts c nd sendLimit (s.get (!dir)) m then do
        let d ← (s.get (!dir)).step c nd cwf batch limit (.send (.one m) true)
        let u ← (s.get dir).step c nd cwf batch limit (.rx (.ret true))
        return ((s.set (!dir) d.1).set dir u.1, d.2.map (DEv.of (!dir) false) ++ u.2.map (DEv.of dir false))
      else do
        let u ← (s.get dir).step c nd cwf batch limit (.rx (.ret false))
        return (s.set dir u.1, u.2.map (DEv.of dir false))

inductive Duo.Run (W : Nat) (c : Cfg) (nd cwf : Bool) (batch limit sendLimit : Nat) : Duo → List DAct → Duo → List DEv → Prop where
  | nil (s : Duo) : Duo.Run W c nd cwf batch limit sendLimit s [] s []
  | snoc (s s1 s2 : Duo) (as : List DAct) (a : DAct) (es fs : List DEv) :
      Duo.Run W c nd cwf batch limit sendLimit s as s1 es → Duo.step W c nd cwf batch limit sendLimit s1 a = some (s2, fs) → Duo.Run W c nd cwf batch limit sendLimit s (as ++ [a]) s2 (es ++ fs)

def Duo.exec (W : Nat) (c : Cfg) (nd cwf : Bool) (batch limit sendLimit : Nat) : Duo → List DAct → Option (Duo × List DEv)
  | s, [] => some (s, [])
  | s, a :: as => do
    let (s, es) ← s.step W c nd cwf batch limit sendLimit a
    let (s, fs) ← Duo.exec W c nd cwf batch limit sendLimit s as
    return (s, es ++ fs)

end StAsio
