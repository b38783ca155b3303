import Verif.Spec.Bytes
/-!
What a UDP socket has to do with addresses: the network hands it datagrams with their senders, it hands over messages with addresses; the user hands it messages with addresses, it puts datagrams with destinations on the network.
-/
set_option autoImplicit false
namespace StAsio

/-- An endpoint. `ip = 0`: unspecified. -/
structure UAddr where
  ip : Nat
  port : Nat
  deriving DecidableEq, Repr

inductive AEv where
  /-- start() came through: `conn` = the kernel socket is connected to the peer -/
  | started (conn : Option UAddr)
  /-- the network put a datagram into the kernel's receive queue; `gap`: the socket was bound, but start() had not come through -/
  | got (src : UAddr) (d : Bytes) (gap : Bool)
  /-- the kernel socket was closed: of the messages that came in but were not handed over, only the first `keep` ones are still there -/
  | lost (keep : Nat)
  /-- a message is handed to the dispatching -/
  | delivered (a : UAddr) (m : Bytes)
  /-- set_peer_addr; `live`: between start() and the end of closing -/
  | peerSet (a : UAddr) (live : Bool)
  /-- start() found connect mode, but connecting failed -/
  | connectFailed
  | accepted (a : UAddr) (m : Bytes) (prior : Bool)
  /-- taken from the send buffer -/
  | handed (a : UAddr) (m : Bytes)
  /-- the kernel sent a datagram -/
  | transmitted (dst : UAddr) (m : Bytes)
  | sendFailed (m : Bytes)
  | cleared
  deriving DecidableEq, Repr

/-- The ideal UDP socket. -/
structure IdealUa where
  /-- messages still to be handed over -/
  expect : List (UAddr × Bytes)
  waiting : List (UAddr × Bytes)
  flight : Option (UAddr × Bytes)
  /-- the peer the socket is connected to -/
  peer : Option UAddr
  deriving DecidableEq, Repr

/-- The message a datagram amounts to: its bytes, as far as they fit into the buffer; none if it is empty. -/
def dgramMsg (size : Nat) (src : UAddr) (d : Bytes) : List (UAddr × Bytes) := if d.take size = [] then [] else [(src, d.take size)]

/-- What an ideal socket allows; `none`: forbidden. `size`: size of the receive buffer. -/
def IdealUa.event (size : Nat) (t : IdealUa) : AEv → Option IdealUa
  | .started conn => some { t with peer := conn }
  | .got src d _ => some { t with expect := t.expect ++ dgramMsg size src d }
  | .lost keep => some { t with expect := t.expect.take keep }
  | .delivered a m => match t.expect with
    | [] => none
    | x :: xs => if x = (a, m) then some { t with expect := xs } else none
  | .peerSet _ _ => some t
  | .connectFailed => some t
  | .accepted a m prior => some { t with waiting := if prior then (a, m) :: t.waiting else t.waiting ++ [(a, m)] }
  | .handed a m => match t.waiting, t.flight with
    | x :: xs, none => if x = (a, m) then some { t with waiting := xs, flight := some x } else none
    | _, _ => none
  | .transmitted dst m => match t.flight with
    | none => none
    | some x => if m = x.2 ∧ dst = t.peer.getD x.1 then some { t with flight := none } else none
  | .sendFailed m => match t.flight with
    | none => none
    | some x => if m = x.2 then some { t with flight := none } else none
  | .cleared => some { t with waiting := [] }

def IdealUa.monitor (size : Nat) : IdealUa → List AEv → Option IdealUa
  | t, [] => some t
  | t, e :: es => match t.event size e with
    | none => none
    | some t => IdealUa.monitor size t es

def IdealUa.empty : IdealUa := { expect := [], waiting := [], flight := none, peer := none }

/-- Datagrams that came in, as messages. -/
def aGot (size : Nat) : List AEv → List (UAddr × Bytes)
  | [] => []
  | .got src d _ :: es => dgramMsg size src d ++ aGot size es
  | _ :: es => aGot size es

def aDelivered : List AEv → List (UAddr × Bytes)
  | [] => []
  | .delivered a m :: es => (a, m) :: aDelivered es
  | _ :: es => aDelivered es

def aAccepted : List AEv → List (UAddr × Bytes)
  | [] => []
  | .accepted a m _ :: es => (a, m) :: aAccepted es
  | _ :: es => aAccepted es

/-- What became of the messages taken from the send buffer, in order: the destination (none: failed) and the bytes. -/
def aOutcomes : List AEv → List (Option UAddr × Bytes)
  | [] => []
  | .transmitted dst m :: es => (some dst, m) :: aOutcomes es
  | .sendFailed m :: es => (none, m) :: aOutcomes es
  | _ :: es => aOutcomes es

/-- The messages taken from the send buffer. -/
def aHanded : List AEv → List (UAddr × Bytes)
  | [] => []
  | .handed a m :: es => (a, m) :: aHanded es
  | _ :: es => aHanded es

/-- While the socket is connected to p, everything handed over has the address p (`none`: violated). -/
def peerMon : Option UAddr → List AEv → Option (Option UAddr)
  | p, [] => some p
  | _, .started conn :: es => peerMon conn es
  | p, .delivered a _ :: es => if p = none ∨ p = some a then peerMon p es else none
  | p, _ :: es => peerMon p es

/-- Nobody used priority or reset. -/
def APlainEv : AEv → Prop
  | .accepted _ _ prior => prior = false
  | .cleared => False
  | _ => True

end StAsio
