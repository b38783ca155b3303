import Verif.Model.Heartbeat
/-!
Model of a TCP link with heartbeats at both ends: at each end the heartbeat timer (include/socket.h:179-186 start_heartbeat, 319-331 do_start, include/timer.h:156-199 start_timer and timer_handler), check_heartbeat
(Model/Heartbeat.lean), the writes (include/tcp/socket.h:383-426 do_send_msg and send_handler) and the receptions (tcp/socket.h:347-381 recv_handler), and the network in between.

The machine is timed: `pass d` lets `d` ms pass at both ends (their clocks run at the same speed, they need not agree). Whatever is due happens in time: a service thread calls the timer's call back at most `J` ms after the expiry, a write
completes at most `W` ms after its beginning, and what was written has been received (recv_handler was called) at most `L` ms after the beginning of the write; an end of the link is started at most `L` ms after the establishment of the
connection. Once the network is cut, nothing is received, and nothing has to complete.
Simplifications: a write begins in the call of the send function if none is outstanding (the time in the strand belongs to `W` and `L`); what queues up during a write goes with the next one (batch_msg_send_size is not modelled here); a call
back of the timer takes no time; the link is closed by on_heartbeat_error only.
-/
set_option autoImplicit false
namespace StAsio

/-- The two ends of the link. -/
inductive KSide where
  | a | b
  deriving DecidableEq, Repr

/-- The peer of an end. -/
def KSide.other : KSide → KSide
  | .a => .b
  | .b => .a

/-- The delays, in ms: of the call backs of timers, of the network, of writes. -/
structure KTime where
  J : Nat
  L : Nat
  W : Nat

/-- One end. `hb` is the state of Model/Heartbeat.lean with the end's own clock; `hb.ready` is is_ready() (include/tcp/socket.h:89: CONNECTED), `hb.sending` is is_sending() (socket.h:212). -/
structure KEnd where
  hb : Hb
  /-- do_start was called -/
  begun : Bool
  /-- when the connection was established -/
  born : Nat
  /-- when the heartbeat timer expires -/
  due : Nat
  /-- when the outstanding write began -/
  wr : Option Nat
  /-- the send buffer contains messages -/
  queued : Bool
  /-- when (by this end's clock) the peer began the writes whose data was not received yet -/
  inbox : List Nat
  deriving DecidableEq, Repr

/-- Both ends, and the state of the network. -/
structure KLink where
  get : KSide → KEnd
  cut : Bool

/-- Change one end. -/
def KLink.set (s : KLink) (e : KSide) (x : KEnd) : KLink := { s with get := fun k => if k = e then x else s.get k }

/-- A connection that was just established; the clocks of the ends show `t e`. base.h:401-414: no times of receptions and sends yet. -/
def KLink.init (t : KSide → Nat) : KLink :=
  { get := fun e => { hb := Hb.init (t e), begun := false, born := t e, due := 0, wr := none, queued := false, inbox := [] }, cut := false }

inductive KlAct where
  /-- `d` ms pass -/
  | pass (d : Nat)
  /-- do_start of an end; a heartbeat timer left from a former connection (start_heartbeat does not restart it, socket.h:183) or a new one expires in `d` ms -/
  | start (e : KSide) (d : Nat)
  /-- recv_handler gets data -/
  | recv (e : KSide)
  /-- a send function puts a message into the send buffer -/
  | send (e : KSide)
  /-- send_handler -/
  | sent (e : KSide)
  /-- the heartbeat timer's call back -/
  | check (e : KSide)
  /-- the network dies -/
  | cut
  deriving DecidableEq, Repr

inductive KEv where
  /-- on_heartbeat_error was called, the link is being shut down -/
  | timeout (e : KSide)
  /-- send_heartbeat was called -/
  | beat (e : KSide)
  deriving DecidableEq, Repr

/-- Nothing of this end is overdue `d` ms from now. -/
def KEnd.canPass (k : KTime) (cut : Bool) (x : KEnd) (d : Nat) : Bool :=
  if x.begun = false then cut || decide (x.hb.clock + d ≤ x.born + k.L)
  else if x.hb.ready then
    decide (x.hb.clock + d ≤ x.due + k.J) && (cut ||
      ((match x.wr with | some t => decide (x.hb.clock + d ≤ t + k.W) | none => true) &&
       (match x.inbox with | t :: _ => decide (x.hb.clock + d ≤ t + k.L) | [] => true)))
  else true

/-- async_write with all that is in the send buffer, include/tcp/socket.h:383-408: its data gets to the peer. -/
def KLink.write (s : KLink) (e : KSide) : KLink :=
  let x := s.get e
  let y := s.get e.other
  (s.set e { x with wr := some x.hb.clock, queued := false, hb := { x.hb with sending := true } }).set e.other { y with inbox := y.inbox ++ [y.hb.clock] }

/-- A send function or send_heartbeat: do_direct_send_msg and send_msg (socket.h:176): a write begins unless one is outstanding. -/
def KLink.send (s : KLink) (e : KSide) : KLink :=
  let x := s.get e
  if x.wr = none then s.write e else s.set e { x with queued := true }

/-- Time passes at an end. -/
def KEnd.pass (x : KEnd) (d : Nat) : KEnd := { x with hb := { x.hb with clock := x.hb.clock + d } }

/-- do_start, socket.h:319-331, after the status became CONNECTED (tcp/socket.h:239-246). -/
def KEnd.start (x : KEnd) (d : Nat) : KEnd :=
  { x with begun := true, due := x.hb.clock + d, hb := { x.hb with lastRecv := x.hb.time, ready := true } }

/-- recv_handler, tcp/socket.h:352-354. -/
def KEnd.recv (x : KEnd) (rest : List Nat) : KEnd := { x with inbox := rest, hb := { x.hb with lastRecv := x.hb.time } }

/-- send_handler, tcp/socket.h:410-414 and 454-462: the next write begins if there are messages. -/
def KLink.sent (s : KLink) (e : KSide) : KLink :=
  let x := s.get e
  let s' := s.set e { x with wr := none, hb := { x.hb with sending := false, lastSend := x.hb.time } }
  if x.queued then s'.write e else s'

/-- start_timer, timer.h:156-170. -/
def KEnd.arm (x : KEnd) (h : Hb) (d : Nat) : KEnd := { x with hb := h, due := d }

/-- timer_handler with check_heartbeat (timer.h:175-199, socket.h:192-210): a time-out closes the link and ends the timer, otherwise a heartbeat may go out and the timer is started again, from now. -/
def KLink.check (c : KSide → HbCfg) (s : KLink) (e : KSide) : Option (KLink × List KEv) :=
  let x := s.get e
  match x.hb.check (c e) with
  | none => none
  | some (h, go, es) =>
    if go then
      let s1 := s.set e (x.arm h (x.hb.clock + 1000 * (c e).interval))
      some (if HbEv.heartbeat ∈ es then s1.send e else s1, es.map fun | .timeout => .timeout e | .heartbeat => .beat e)
    else some (s.set e { x with hb := { h with ready := false } }, es.map fun | .timeout => .timeout e | .heartbeat => .beat e)

def KLink.step (c : KSide → HbCfg) (k : KTime) (s : KLink) : KlAct → Option (KLink × List KEv)
  | .pass d =>
    if (s.get .a).canPass k s.cut d && (s.get .b).canPass k s.cut d then some ({ s with get := fun e => (s.get e).pass d }, []) else none
  | .start e d =>
    if (s.get e).begun = false ∧ d ≤ 1000 * (c e).interval then some (s.set e ((s.get e).start d), []) else none
  | .recv e =>
    if (s.get e).hb.ready ∧ s.cut = false then
      match (s.get e).inbox with
      | [] => none
      | _ :: rest => some (s.set e ((s.get e).recv rest), [])
    else none
  | .send e => if (s.get e).hb.ready then some (s.send e, []) else none
  | .sent e => if (s.get e).wr ≠ none ∧ (s.get e).hb.ready then some (s.sent e, []) else none
  | .check e => if (s.get e).hb.ready ∧ (s.get e).due ≤ (s.get e).hb.clock then s.check c e else none
  | .cut => some ({ s with cut := true }, [])

/-- Executions. -/
inductive KLink.Run (c : KSide → HbCfg) (k : KTime) : KLink → List KlAct → KLink → List KEv → Prop where
  | nil (s : KLink) : KLink.Run c k s [] s []
  | snoc (s s1 s2 : KLink) (as : List KlAct) (a : KlAct) (es es' : List KEv) :
      KLink.Run c k s as s1 es → KLink.step c k s1 a = some (s2, es') → KLink.Run c k s (as ++ [a]) s2 (es ++ es')

/-- The same as a function. -/
def KLink.exec (c : KSide → HbCfg) (k : KTime) : KLink → List KlAct → Option (KLink × List KEv)
  | s, [] => some (s, [])
  | s, a :: as => do
    let (s, es) ← KLink.step c k s a
    let (s, es') ← KLink.exec c k s as
    return (s, es ++ es')

end StAsio
