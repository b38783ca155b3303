import Verif.Spec.Settings
/-!
Model of the settings of pooled sockets: constructors and first_init (include/socket.h:47-60, tcp/client_socket.h:56-60, 120, 235-240, udp/socket.h:57-59), reset (socket.h:75-98, tcp/socket.h:106, tcp/client_socket.h:69, udp/socket.h:80-86),
set_addr (tcp/client_socket.h:31-53, udp/socket.h:35-55) and the setters (tcp/client_socket.h:71-76, 85, 93, 106, 242, udp/socket.h:89-97, socket.h:216-228, 245-252, ext/callbacks.h),
create_object with and without ST_ASIO_REUSE_OBJECT (object_pool.h:164-193), add_socket (tcp/client.h:47-71, udp/socket_service.h:36-55, socket_service.h:79-91), start again after a link ended (tcp/client_socket.h:172).

Simplifications: the service is running, so that add_socket starts the socket; asserts are compiled out (with them set_addr with an ip that is not valid ends the program). The pool takes any object that is ready to be reused
(deleted, obsoleted, not held by anybody: Model/ObjectPool), not necessarily the first. What happens on the link is left out. Settings are changed by the setters only, by anybody who holds the socket.
-/
set_option autoImplicit false
namespace StAsio

/-- Where an object is. -/
inductive SgPh where
  | absent
  /-- created, not added -/
  | held
  /-- in the pool, started -/
  | pooled
  /-- deleted, obsoleted, not held: ready to be reused or freed -/
  | dead
  deriving DecidableEq, Repr

structure Sg where
  /-- number of objects made -/
  n : Nat
  val : Nat → Setting → SetVal
  ph : Nat → SgPh

inductive SgEv where
  /-- create_object gave this object -/
  | created (o : Nat)
  /-- the socket is started: it connects to the server, is bound to, has the peer, is connected or not -/
  | start (o : Nat) (server loc peer mode : SetVal)
  deriving DecidableEq, Repr

inductive SgAct where
  /-- create_object(); `pick`: the object that is reused -/
  | create (pick : Option Nat)
  /-- a setter whose argument is not an address -/
  | setNum (o : Nat) (m : Setting) (v : Nat)
  /-- set_server_addr, set_local_addr, set_peer_addr -/
  | setAddr (o : Nat) (m : Setting) (port : Nat) (ip : IpArg)
  /-- add_socket(socket_ptr) -/
  | add (o : Nat)
  /-- create, set and add in one -/
  | call (c : AddCall) (pick : Option Nat)
  /-- the link of `o` ended and the socket starts again -/
  | again (o : Nat)
  /-- the link of `o` ended for good, the last reference was given up -/
  | close (o : Nat)
  | free (o : Nat)
  deriving DecidableEq, Repr

/-- `reset()`: the only setting in it is need_reconnect, tcp/client_socket.h:69. -/
def sgReset (dflt : Setting → SetVal) (v : Setting → SetVal) : Setting → SetVal := fun m => if m = .reconnect then dflt m else v m

/-- create_object, object_pool.h:164-193: the object and the state. -/
def Sg.create (dflt : Setting → SetVal) (reuse : Bool) (s : Sg) (pick : Option Nat) : Option (Nat × Sg) := match pick with
  | some o =>
    if reuse ∧ s.ph o = .dead then some (o, { s with val := fun x => if x = o then sgReset dflt (s.val o) else s.val x, ph := fun x => if x = o then .held else s.ph x })
    else none
  | none => some (s.n, { s with n := s.n + 1, val := fun x => if x = s.n then dflt else s.val x, ph := fun x => if x = s.n then .held else s.ph x })

/-- set_addr, tcp/client_socket.h:31-53, udp/socket.h:35-55: an ip that is not valid leaves the endpoint as it is. -/
def sgAddr (cur : SetVal) (port : Nat) (ip : IpArg) : SetVal := match ip with
  | .empty => .ep none port
  | .good a => .ep (some a) port
  | .bad => cur

def Sg.setAddr (s : Sg) (o : Nat) (m : Setting) (port : Nat) (ip : IpArg) : Sg := { s with val := fun x m' => if x = o ∧ m' = m then sgAddr (s.val o m) port ip else s.val x m' }

/-- socket.h:216-228, 245-252, udp/socket.h:89 (can only be switched on), tcp/client_socket.h:85, ext/callbacks.h -/
def Sg.setNum (s : Sg) (o : Nat) (m : Setting) (v : Nat) : Sg :=
  if (m = .sendBuf ∨ m = .recvBuf) ∧ v = 0 then s
  else if m = .connectMode then { s with val := fun x m' => if x = o ∧ m' = m then .num 1 else s.val x m' }
  else { s with val := fun x m' => if x = o ∧ m' = m then .num v else s.val x m' }

/-- add_socket(socket_ptr), socket_service.h:79-91: start() -/
def Sg.add (s : Sg) (o : Nat) : Sg × List SgEv :=
  ({ s with ph := fun x => if x = o then .pooled else s.ph x }, [.start o (s.val o .server) (s.val o .loc) (s.val o .peer) (s.val o .connectMode)])

/-- The setters that the overloads of add_socket call, tcp/client.h:47-71, udp/socket_service.h:36-55. -/
def Sg.setFor (s : Sg) (o : Nat) : AddCall → Sg
  | .tcp0 => s
  | .tcp2 p ip => s.setAddr o .server p ip
  | .tcp4 p lp ip lip => (s.setAddr o .server p ip).setAddr o .loc lp lip
  | .udp2 p ip => s.setAddr o .loc p ip
  | .udp4 p pp ip pip => (s.setAddr o .loc p ip).setAddr o .peer pp pip

/-- Settings whose values are addresses. -/
def Setting.isAddr : Setting → Bool
  | .server | .loc | .peer => true
  | _ => false

def Sg.step (dflt : Setting → SetVal) (reuse : Bool) (s : Sg) : SgAct → Option (Sg × List SgEv)
  | .create pick => (s.create dflt reuse pick).map fun r => (r.2, [.created r.1])
  | .setNum o m v => if (s.ph o = .held ∨ s.ph o = .pooled) ∧ m.isAddr = false then some (s.setNum o m v, []) else none
  | .setAddr o m port ip => if (s.ph o = .held ∨ s.ph o = .pooled) ∧ m.isAddr = true then some (s.setAddr o m port ip, []) else none
  | .add o => if s.ph o = .held then some (s.add o) else none
  | .call c pick => (s.create dflt reuse pick).map fun r => (((r.2.setFor r.1 c).add r.1).1, .created r.1 :: ((r.2.setFor r.1 c).add r.1).2)
  | .again o => if s.ph o = .pooled then some (s, [.start o (s.val o .server) (s.val o .loc) (s.val o .peer) (s.val o .connectMode)]) else none -- tcp/client_socket.h:172, 125-129
  | .close o => if s.ph o = .pooled then some ({ s with ph := fun x => if x = o then .dead else s.ph x }, []) else none
  | .free o => if s.ph o = .dead then some ({ s with ph := fun x => if x = o then .absent else s.ph x }, []) else none

def Sg.init : Sg := { n := 0, val := fun _ _ => .num 0, ph := fun _ => .absent }

inductive Sg.Run (dflt : Setting → SetVal) (reuse : Bool) : Sg → List SgAct → Sg → List SgEv → Prop where
  | nil (s : Sg) : Sg.Run dflt reuse s [] s []
  | snoc (s s1 s2 : Sg) (as : List SgAct) (a : SgAct) (es fs : List SgEv) : Sg.Run dflt reuse s as s1 es → s1.step dflt reuse a = some (s2, fs) → Sg.Run dflt reuse s (as ++ [a]) s2 (es ++ fs)

def Sg.exec (dflt : Setting → SetVal) (reuse : Bool) : Sg → List SgAct → Option (Sg × List SgEv)
  | s, [] => some (s, [])
  | s, a :: as => do
    let (s1, e1) ← s.step dflt reuse a
    let (s2, e2) ← Sg.exec dflt reuse s1 as
    some (s2, e1 ++ e2)

end StAsio
