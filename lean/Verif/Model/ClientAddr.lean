import Verif.Spec.ClientAddr
import Verif.Model.Reconnect
/-!
Model of the addresses of a TCP client: include/tcp/client_socket.h:31-53 (set_addr), 71-77 (set_server_addr), 125-129 (do_start), 185-192 (connect), 194-216 (prepare_next_reconnect), 234-275 (client_socket_base: constructors, set_local_addr, bind),
include/socket.h:428-467 (close), 790-811 (the closing timer). What the client does and when is Model/Reconnect.lean (`Cli`); here its kernel socket and its addresses are added.

Simplifications: as in Model/Reconnect.lean; not Windows; the program does not open or bind the kernel socket itself; opening it succeeds; the service is not started again after it stopped. The kernel: bind succeeds or fails as it likes (another
program has the address, or it is still in TIME_WAIT); a connection to an address of the other IP version fails; a socket that is not bound gets an address of the kernel's choice.
-/
set_option autoImplicit false
namespace StAsio

/-- The kernel socket: its IP version and what it is bound to. -/
structure KSk where
  v6 : Bool
  bound : Option Ep
  deriving DecidableEq, Repr

structure Ca where
  cli : Cli
  server : Ep
  here : Ep
  sock : Option KSk
  /-- the last async_connect was given an address of the socket's IP version -/
  able : Bool
  deriving DecidableEq, Repr

/-- Constructors, client_socket.h:234-240: set_server_addr(ST_ASIO_SERVER_PORT, ST_ASIO_SERVER_IP); a default constructed endpoint is IPv4, unspecified, port 0. -/
def Ca.init (need : Bool) (server : Ep) : Ca :=
  { cli := Cli.init need, server := server, here := { v6 := false, ip := none, port := 0 }, sock := none, able := true }

/-- set_addr, client_socket.h:31-53. `none`: the assert in line 39 fails (`ndebug`: compiled out). -/
def setAddr (ndebug v6 : Bool) (port : Nat) (ip : IpText) (endpoint : Ep) : Option (Bool × Ep) :=
  match ip with
  | .empty => some (true, { v6 := v6, ip := none, port := port })
  | .addr v a => some (true, { v6 := v, ip := a, port := port })
  | .wrong => if ndebug then some (false, endpoint) else none

/-- bind, client_socket.h:246-271; `free`: the kernel has no objection. A socket that is bound already answers invalid_argument, which counts as success. -/
def Ca.bind (s : Ca) (free : Bool) : Bool × Option KSk :=
  if s.here.port ≠ 0 ∨ s.here.ip ≠ none then
    let k : KSk := match s.sock with
      | none => { v6 := s.here.v6, bound := none }
      | some k => k
    match k.bound with
    | some _ => (true, some k)
    | none => if free then (true, some { k with bound := some s.here }) else (false, some k)
  else (true, s.sock)

/-- Does this action of the client call bind()? start: socket.h:150-162 and client_socket.h:125-129; connect: client_socket.h:187. -/
def Cli.binds (s : Cli) : CliAct → Bool
  | .userStart _ => !s.started && !s.closing && !s.stopped
  | .fireConnect _ => match s.op with
    | .tconn first _ => !first && !s.stopped
    | _ => false
  | .force b _ | .graceful b _ => b && s.status == .broken && !s.started && !s.closing && !s.stopped
  | .onClose _ => s.need && !s.started
  | _ => false

/-- What bind() answered, as the client's model has it. -/
def CliAct.bindSays : CliAct → Bool
  | .userStart b | .fireConnect b | .force _ b | .graceful _ b | .onClose b => b
  | _ => true

/-- Does this action of the client close the kernel socket? prepare_next_reconnect: client_socket.h:202-203; _force_shutdown and _graceful_shutdown of a broken link: tcp/socket.h:318-321 and socket.h:447; the closing timer: socket.h:799-803. -/
def Cli.closes (s : Cli) : CliAct → Bool
  | .fireDelay _ => s.need && s.started
  | .runForce => s.status == .broken && s.started
  | .runGraceful _ => s.status == .broken && s.started
  | .onClose _ => true
  | _ => false

/-- The kernel socket is closed, if the action does so. -/
def Ca.shut (s : Ca) (a : CliAct) : Ca := if s.cli.closes a then { s with sock := none } else s

/-- Then it is bound, if the action calls bind(). -/
def Ca.tie (s : Ca) (a : CliAct) (free : Bool) : Ca := if s.cli.binds a then { s.shut a with sock := ((s.shut a).bind free).2 } else s.shut a

inductive CaAct where
  | setServer (port : Nat) (ip : IpText)
  | setLocal (port : Nat) (ip : IpText)
  /-- the client does something; if it calls bind(): is the address free? -/
  | cli (a : CliAct) (free : Bool)
  deriving DecidableEq, Repr

/-- async_connect, client_socket.h:190: it opens the socket if need be. -/
def Ca.connect (s : Ca) : Ca × List CaEv :=
  let k : KSk := match s.sock with
    | none => { v6 := s.server.v6, bound := none }
    | some k => k
  ({ s with sock := some k, able := k.v6 == s.server.v6 }, [.connect k.bound s.server])

def Ca.step (ndebug v6 : Bool) (s : Ca) : CaAct → Option (Ca × List CaEv)
  | .setServer port ip => (setAddr ndebug v6 port ip s.server).map fun r => ({ s with server := r.2 }, [.setServer port ip])
  | .setLocal port ip => (setAddr ndebug v6 port ip s.here).map fun r => ({ s with here := r.2 }, [.setLocal port ip])
  | .cli a free =>
    if s.cli.binds a ∧ a.bindSays ≠ ((s.shut a).bind free).1 then none
    else if a = .connectDone true ∧ s.able = false then none
    else match s.cli.step a with
      | none => none
      | some (c, es) =>
        let s1 := { s.tie a free with cli := c }
        if 0 < attempts es then some (s1.connect.1, s1.connect.2 ++ es.map .cli) else some (s1, es.map .cli)

inductive Ca.Run (ndebug v6 : Bool) : Ca → List CaAct → Ca → List CaEv → Prop where
  | nil (s : Ca) : Ca.Run ndebug v6 s [] s []
  | snoc (s s1 s2 : Ca) (as : List CaAct) (a : CaAct) (es fs : List CaEv) :
      Ca.Run ndebug v6 s as s1 es → Ca.step ndebug v6 s1 a = some (s2, fs) → Ca.Run ndebug v6 s (as ++ [a]) s2 (es ++ fs)

def Ca.exec (ndebug v6 : Bool) : Ca → List CaAct → Option (Ca × List CaEv)
  | s, [] => some (s, [])
  | s, a :: as => do
    let (s1, e1) ← s.step ndebug v6 a
    let (s2, e2) ← Ca.exec ndebug v6 s1 as
    some (s2, e1 ++ e2)

end StAsio
