/-!
Model of the heartbeat logic: include/socket.h:192-210 (check_heartbeat), 319-331 (do_start), the updates of stat.last_recv_time and stat.last_send_time in include/tcp/socket.h:354, 414 and include/udp/socket.h:301, 359,
and on_heartbeat_error of the sockets (include/tcp/server_socket.h:65, tcp/client_socket.h:154, udp/socket.h:221-226).

The clock counts milliseconds, time(NULL) is the number of full seconds. Actions are at the current time, time passes in between.
Simplifications: time() does not fail or go backwards. `interval` and `max_absence` are positive ints (asserted).
-/
set_option autoImplicit false
namespace StAsio

structure Hb where
  /-- the clock in ms -/
  clock : Nat
  /-- stat.last_recv_time; 0: never -/
  lastRecv : Nat
  lastSend : Nat
  ready : Bool
  sending : Bool
  deriving DecidableEq, Repr

/-- time(NULL) -/
def Hb.time (s : Hb) : Nat := s.clock / 1000

inductive HbEv where
  /-- on_heartbeat_error was called -/
  | timeout
  /-- send_heartbeat was called -/
  | heartbeat
  deriving DecidableEq, Repr

/-- What on_heartbeat_error does: shut the link down and return false (TCP), or update last_recv_time and return true (UDP). -/
inductive HbKind where
  | tcp | udp
  deriving DecidableEq, Repr

structure HbCfg where
  kind : HbKind
  interval : Nat
  maxAbsence : Nat
  /-- ST_ASIO_ALWAYS_SEND_HEARTBEAT -/
  always : Bool

/-- check_heartbeat, socket.h:192-210. `none`: the int multiplication overflows. The TCP on_heartbeat_error only requests the shutdown. -/
def Hb.check (c : HbCfg) (s : Hb) : Option (Hb × Bool × List HbEv) :=
  if 0 < s.lastRecv ∧ s.ready then
    if c.interval * c.maxAbsence < 2 ^ 31 then
      let dead : Bool := decide (((c.interval * c.maxAbsence : Nat) : Int) ≤ (s.time : Int) - s.lastRecv)
      if dead ∧ c.kind = .tcp then some (s, false, [.timeout])
      else
        let s' := if dead then { s with lastRecv := s.time } else s
        let beat : List HbEv := if c.always ∨ ((c.interval : Int) ≤ (s.time : Int) - s.lastSend ∧ s.sending = false) then [.heartbeat] else []
        some (s', true, (if dead then [.timeout] else []) ++ beat)
    else none
  else some (s, true, [])

inductive HbAct where
  /-- time passes (ms) -/
  | pass (d : Nat)
  /-- socket::do_start, socket.h:324 -/
  | start
  /-- recv_handler with data -/
  | recv
  /-- data of the peer arrives without completing the read, or while no read is outstanding -/
  | arrive
  | sendBegin
  /-- send_handler -/
  | sendEnd
  | linkUp
  | linkDown
  | check
  deriving DecidableEq, Repr

def Hb.step (c : HbCfg) (s : Hb) : HbAct → Option (Hb × List HbEv)
  | .pass d => some ({ s with clock := s.clock + d }, [])
  | .start => some ({ s with lastRecv := s.time }, [])
  | .recv => some ({ s with lastRecv := s.time }, [])
  | .arrive => some (s, [])
  | .sendBegin => some ({ s with sending := true }, [])
  | .sendEnd => some ({ s with sending := false, lastSend := s.time }, [])
  | .linkUp => some ({ s with ready := true }, [])
  | .linkDown => some ({ s with ready := false }, [])
  | .check => match s.check c with
    | none => none
    | some (s, _, es) => some (s, es)

/-- base.h:401-414; the clock starts at `t` ms. -/
def Hb.init (t : Nat) : Hb := { clock := t, lastRecv := 0, lastSend := 0, ready := false, sending := false }

inductive Hb.Run (c : HbCfg) : Hb → List HbAct → Hb → List HbEv → Prop where
  | nil (s : Hb) : Hb.Run c s [] s []
  | snoc (s s1 s2 : Hb) (as : List HbAct) (a : HbAct) (es es' : List HbEv) :
      Hb.Run c s as s1 es → Hb.step c s1 a = some (s2, es') → Hb.Run c s (as ++ [a]) s2 (es ++ es')

def Hb.exec (c : HbCfg) : Hb → List HbAct → Option (Hb × List HbEv)
  | s, [] => some (s, [])
  | s, a :: as => do
    let (s, es) ← Hb.step c s a
    let (s, es') ← Hb.exec c s as
    return (s, es ++ es')

end StAsio
