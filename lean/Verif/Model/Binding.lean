import Verif.Spec.Binding
/-!
Opening, binding and listening: generic_server::start_listen and stop_listen (include/tcp/server.h:84-130), do_start and closing of UDP sockets (include/udp/socket.h:101, 183-207, 258, 428-443, 462-476; include/socket.h:149-162,
428-447), with the kernel's part: one socket (the acceptor, the UDP socket), addresses other programs use, and the files of unix domain sockets, which closing does not remove.

Simplifications: opening never fails. The asserts are off (NDEBUG). SO_REUSEADDR is set, so a closed socket of the program itself never keeps an address from being used again. connect_mode is off (Model/UdpAddr has it). What
start_listen does with sockets is in Model/Accept, closing in Model/Lifecycle: here a UDP socket is closed and ready to be started again in one step.
-/
set_option autoImplicit false
namespace StAsio

/-- A socket of the kernel. -/
structure KSock where
  opened : Option Fam
  bound : Option Addr
  lis : Bool
  deriving DecidableEq, Repr

def KSock.closed : KSock := ⟨none, none, false⟩

structure Bd where
  sock : KSock
  /-- server_addr (tcp/server.h:268), local_addr (udp/socket.h:405) -/
  addr : Addr
  /-- listening (tcp/server.h:272), started_ (socket.h:830) -/
  up : Bool
  /-- addresses used by others -/
  held : List Addr
  /-- files of unix domain sockets -/
  files : List Nat
  deriving DecidableEq, Repr

/-- A new object. -/
def Bd.init (a : Addr) (held : List Addr) (files : List Nat) : Bd := ⟨KSock.closed, a, false, held, files⟩

inductive BdErr where
  | inUse
  | invalidArgument
  | family
  | badDescriptor
  deriving DecidableEq, Repr

/-- bind() of the kernel. `inval`: whether an address of the wrong family is reported as invalid argument (Linux: an IPv4 address for an IPv6 socket) or as a wrong family. A second bind is an invalid argument. -/
def Bd.kbind (s : Bd) (inval : Bool) : Bd × Option BdErr :=
  let a := s.addr
  if s.sock.opened = none then (s, some .badDescriptor)
  else if s.sock.opened ≠ some a.fam then (s, some (if inval then .invalidArgument else .family))
  else if s.sock.bound ≠ none then (s, some .invalidArgument)
  else if a.any = false ∧ (a ∈ s.held ∨ (a.fam = .file ∧ a.key ∈ s.files)) then (s, some .inUse)
  else ({ s with sock := { s.sock with bound := some a }, files := if a.fam = .file ∧ a.any = false then a.key :: s.files else s.files }, none)

/-- Opening unless the socket is open already: tcp/server.h:91, udp/socket.h:186-200. -/
def Bd.open (s : Bd) : Bd := if s.sock.opened = none then { s with sock := { s.sock with opened := some s.addr.fam } } else s

inductive BdAct where
  | setAddr (a : Addr)
  /-- the user opens the acceptor or socket ("user maybe has opened this socket (to set options for example)") -/
  | userOpen (f : Fam)
  /-- `inval`: see `Bd.kbind`; `listens`: the kernel's listen() succeeds -/
  | start (inval listens : Bool)
  | stop
  /-- others -/
  | hold (a : Addr)
  | release (a : Addr)
  | makeFile (k : Nat)
  | removeFile (k : Nat)
  deriving DecidableEq, Repr

/-- start_listen(), tcp/server.h:84-126. -/
def Bd.listen (s : Bd) (inval listens : Bool) : Bd × List BdEv :=
  if s.up then (s, [.ret false])
  else match s.open.kbind inval with
    | (s, some _) => (s, [.ret false])
    | (s, none) =>
      if listens then ({ s with up := true, sock := { s.sock with lis := true } }, [.ret true])
      else ({ s with up := true }, [.ret false])

/-- start() of a UDP socket: socket.h:150-162, udp/socket.h:183-207, 428-443 (462-476 for unix domain sockets): an address that is not given is not bound, and invalid_argument is ignored. -/
def Bd.startUdp (s : Bd) (inval : Bool) : Bd × List BdEv :=
  if s.up then (s, [.ret true])
  else
    let s := s.open
    if s.addr.any then ({ s with up := true }, [.ret true])
    else match s.kbind inval with
      | (s, none) => ({ s with up := true }, [.ret true])
      | (s, some .invalidArgument) => ({ s with up := true }, [.ret true])
      | (s, some _) => (s, [.ret false])

/-- `srv`: the server, otherwise a UDP socket. stop_listen() always closes the acceptor (tcp/server.h:128), close() does nothing if the socket is not started (socket.h:436). -/
def Bd.step (srv : Bool) (s : Bd) : BdAct → Option (Bd × List BdEv)
  | .setAddr a => some ({ s with addr := a }, [.set a])
  | .userOpen f => if s.sock.opened = none then some ({ s with sock := { s.sock with opened := some f } }, []) else none
  | .start inval listens => some (if srv then s.listen inval listens else s.startUdp inval)
  | .stop => some (if srv ∨ s.up then ({ s with up := false, sock := KSock.closed }, [.stopped]) else (s, []))
  | .hold a => some ({ s with held := a :: s.held }, [])
  | .release a => some ({ s with held := s.held.filter (· ≠ a) }, [])
  | .makeFile k => some ({ s with files := k :: s.files }, [])
  | .removeFile k => some ({ s with files := s.files.filter (· ≠ k) }, [])

/-- Any sequence of these steps. -/
inductive Bd.Run (srv : Bool) : Bd → List BdAct → Bd → List BdEv → Prop where
  | nil (s : Bd) : Bd.Run srv s [] s []
  | snoc (s s1 s2 : Bd) (as : List BdAct) (a : BdAct) (es fs : List BdEv) : Bd.Run srv s as s1 es → s1.step srv a = some (s2, fs) → Bd.Run srv s (as ++ [a]) s2 (es ++ fs)

/-- The same as a function. -/
def Bd.exec (srv : Bool) : Bd → List BdAct → Option (Bd × List BdEv)
  | s, [] => some (s, [])
  | s, a :: as => do
    let (s, es) ← s.step srv a
    let (s, fs) ← Bd.exec srv s as
    return (s, es ++ fs)

end StAsio
