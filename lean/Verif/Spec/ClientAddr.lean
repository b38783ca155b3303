import Verif.Spec.Reconnect
/-!
Words for C108: from where and to where a TCP client connects.
-/
set_option autoImplicit false
namespace StAsio

/-- An endpoint; `ip = none`: the unspecified address. -/
structure Ep where
  v6 : Bool
  ip : Option Nat
  port : Nat
  deriving DecidableEq, Repr

/-- The text given as IP: none, an address, or something that is not an address. -/
inductive IpText where
  | empty
  | addr (v6 : Bool) (ip : Option Nat)
  | wrong
  deriving DecidableEq, Repr

/-- The endpoint asked for. `v6`: ST_ASIO_TCP_DEFAULT_IP_VERSION. -/
def wantedEp (v6 : Bool) (port : Nat) : IpText → Option Ep
  | .empty => some { v6 := v6, ip := none, port := port }
  | .addr v ip => some { v6 := v, ip := ip, port := port }
  | .wrong => none

/-- Does this endpoint say anything about where to connect from? -/
def Ep.source (e : Ep) : Option Ep := if e.port = 0 ∧ e.ip = none then none else some e

inductive CaEv where
  /-- set_server_addr(port, ip) -/
  | setServer (port : Nat) (ip : IpText)
  /-- set_local_addr(port, ip) -/
  | setLocal (port : Nat) (ip : IpText)
  /-- an attempt to connect from an address (`none`: the kernel chooses) to another -/
  | connect (src : Option Ep) (dst : Ep)
  /-- what C40 is about: started, attempt, failed, connected, lost, closed -/
  | cli (e : CliEv)
  deriving DecidableEq, Repr

/-- The addresses the program set last, the local address when the client was started last, and whether it is trying again. -/
structure CaSt where
  server : Ep
  here : Ep
  atStart : Ep
  again : Bool
  deriving DecidableEq, Repr

/-- One event; `none`: a connection from or to a wrong address. A second attempt uses the local address of the moment; the first one that of the start (it was bound then). -/
def caAfter (v6 : Bool) (m : CaSt) : CaEv → Option CaSt
  | .setServer port ip => some { m with server := (wantedEp v6 port ip).getD m.server }
  | .setLocal port ip => some { m with here := (wantedEp v6 port ip).getD m.here }
  | .cli .started => some { m with atStart := m.here, again := false }
  | .cli (.asked _) => some { m with again := true }
  | .cli _ => some m
  | .connect src dst => if dst = m.server ∧ src = (if m.again then m.here else m.atStart).source then some m else none

/-- All events in turn. -/
def caRight (v6 : Bool) : CaSt → List CaEv → Option CaSt
  | m, [] => some m
  | m, e :: es => (caAfter v6 m e).bind (caRight v6 · es)

end StAsio
