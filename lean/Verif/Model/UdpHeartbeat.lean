import Verif.Spec.UdpHeartbeat
import Verif.Model.Heartbeat
/-!
Model of heartbeats between two UDP sockets (include/socket.h:179-210 start_heartbeat and check_heartbeat, 319-331 do_start; include/udp/socket.h:66-71 send_heartbeat, 221-226 on_heartbeat_error, 296-328 recv_handler, 330-393 do_send_msg and
send_handler; include/timer.h:157-199). on_heartbeat_error of a UDP socket neither closes it nor keeps it from sending, so each direction is on its own: here one socket talks and the other one listens. Both check.

The machine is timed: `pass d` lets `d` ms pass; the clocks of the two ends run at the same speed, they need not agree. The network may lose datagrams, but of `K` in a row one arrives, at most `L` ms after async_send was called;
datagrams may be reordered and duplicated, and datagrams of others may arrive. A timer's call back is at most `J` ms late, async_send takes at most `W` ms (it may fail), and the talker is started at most `S` ms after the beginning.
Simplifications: a message is handed to async_send in the call of the send function if no other is outstanding (the time in the strand belongs to `W` and `L`); the heartbeat timer expires first at most an interval after the start; a call back of
the timer takes no time; KCP is not used; the listener is reading all the time (C77); the sockets are not closed.
-/
set_option autoImplicit false
namespace StAsio

structure Ub where
  now : Nat
  /-- the talker and its heartbeat timer -/
  tk : Hb
  upT : Bool
  dueT : Nat
  /-- when the outstanding async_send was called -/
  wr : Option Nat
  /-- messages in the talker's send buffer -/
  queue : Nat
  /-- when the datagrams were sent that will arrive -/
  fly : List Nat
  /-- datagrams lost in a row -/
  misses : Nat
  /-- the listener and its heartbeat timer -/
  ls : Hb
  upL : Bool
  dueL : Nat
  deriving DecidableEq, Repr

/-- The clocks of the two ends show `a` and `b` ms. base.h:401-414: no times of receptions and sends yet. -/
def Ub.init (a b : Nat) : Ub :=
  { now := 0, tk := Hb.init a, upT := false, dueT := 0, wr := none, queue := 0, fly := [], misses := 0, ls := Hb.init b, upL := false, dueL := 0 }

inductive UbAct where
  | pass (d : Nat)
  /-- do_start; the timer expires in `d` ms -/
  | startT (d : Nat)
  | startL (d : Nat)
  /-- the talker's program sends a message; if it is sent at once: does it arrive? -/
  | send (arrives : Bool)
  /-- send_handler; the next message in the buffer, if there is one: does it arrive? -/
  | sent (ok arrives : Bool)
  /-- the talker receives something -/
  | heard
  /-- the talker's heartbeat timer -/
  | checkT (arrives : Bool)
  | checkL
  /-- the i-th datagram under way arrives -/
  | deliver (i : Nat)
  /-- a duplicate, or a datagram of somebody else -/
  | stray
  deriving DecidableEq, Repr

/-- Nothing is overdue `d` ms from now. -/
def Ub.canPass (n : UbNet) (s : Ub) (d : Nat) : Bool :=
  (if s.upT then decide (s.now + d ≤ s.dueT + n.J) && (match s.wr with | some w => decide (s.now + d ≤ w + n.W) | none => true) else decide (s.now + d ≤ n.S))
  && (!s.upL || (decide (s.now + d ≤ s.dueL + n.J) && s.fly.all fun q => decide (s.now + d ≤ q + n.L)))

/-- async_send, udp/socket.h:340-348. -/
def Ub.write (n : UbNet) (s : Ub) (arrives : Bool) : Option Ub :=
  let tk := { s.tk with sending := true }
  if arrives then some { s with tk := tk, wr := some s.now, fly := s.fly ++ [s.now], misses := 0 }
  else if s.misses + 1 < n.K then some { s with tk := tk, wr := some s.now, misses := s.misses + 1 }
  else none

/-- A send function or send_heartbeat: do_direct_send_msg (socket.h:538-562) and do_send_msg (udp/socket.h:330-353). -/
def Ub.send (n : UbNet) (s : Ub) (arrives : Bool) : Option Ub :=
  match s.wr with
  | none => s.write n arrives
  | some _ => some { s with queue := s.queue + 1 }

def Ub.step (cT cL : HbCfg) (n : UbNet) (s : Ub) : UbAct → Option (Ub × List UbEv)
  | .pass d =>
    if s.canPass n d then some ({ s with now := s.now + d, tk := { s.tk with clock := s.tk.clock + d }, ls := { s.ls with clock := s.ls.clock + d } }, []) else none
  | .startT d => -- socket.h:319-331
    if s.upT = false ∧ d ≤ 1000 * cT.interval then some ({ s with upT := true, dueT := s.now + d, tk := { s.tk with lastRecv := s.tk.time, ready := true } }, []) else none
  | .startL d => -- what arrived before is gone
    if s.upL = false ∧ d ≤ 1000 * cL.interval then
      some ({ s with upL := true, dueL := s.now + d, fly := [], ls := { s.ls with lastRecv := s.ls.time, ready := true } }, [.up s.now])
    else none
  | .send arrives => if s.upT then (s.send n arrives).map fun s' => (s', []) else none
  | .sent ok arrives => match s.wr with -- udp/socket.h:355-393
    | none => none
    | some _ =>
      let s1 := { s with wr := none, tk := { s.tk with sending := false, lastSend := if ok then s.tk.time else s.tk.lastSend } }
      if 0 < s.queue then (Ub.write n { s1 with queue := s.queue - 1 } arrives).map fun s' => (s', []) else some (s1, [])
  | .heard => if s.upT then some ({ s with tk := { s.tk with lastRecv := s.tk.time } }, []) else none -- udp/socket.h:303
  | .checkT arrives => -- timer.h:175-199 with socket.h:192-210
    if s.upT ∧ s.dueT ≤ s.now then
      match s.tk.check cT with
      | none => none
      | some (h, _, es) =>
        let s1 := { s with tk := h, dueT := s.now + 1000 * cT.interval }
        if HbEv.heartbeat ∈ es then (s1.send n arrives).map fun s' => (s', [.beat s.now]) else some (s1, [])
    else none
  | .checkL =>
    if s.upL ∧ s.dueL ≤ s.now then
      match s.ls.check cL with
      | none => none
      | some (h, _, es) => some ({ s with ls := h, dueL := s.now + 1000 * cL.interval }, if HbEv.timeout ∈ es then [.warn s.now] else [])
    else none
  | .deliver i => -- udp/socket.h:303
    if s.upL ∧ i < s.fly.length then some ({ s with fly := s.fly.eraseIdx i, ls := { s.ls with lastRecv := s.ls.time } }, [.got s.now]) else none
  | .stray => if s.upL then some ({ s with ls := { s.ls with lastRecv := s.ls.time } }, [.got s.now]) else none

inductive Ub.Run (cT cL : HbCfg) (n : UbNet) : Ub → List UbAct → Ub → List UbEv → Prop where
  | nil (s : Ub) : Ub.Run cT cL n s [] s []
  | snoc (s s1 s2 : Ub) (as : List UbAct) (a : UbAct) (es fs : List UbEv) :
      Ub.Run cT cL n s as s1 es → Ub.step cT cL n s1 a = some (s2, fs) → Ub.Run cT cL n s (as ++ [a]) s2 (es ++ fs)

def Ub.exec (cT cL : HbCfg) (n : UbNet) : Ub → List UbAct → Option (Ub × List UbEv)
  | s, [] => some (s, [])
  | s, a :: as => do
    let (s1, e1) ← s.step cT cL n a
    let (s2, e2) ← Ub.exec cT cL n s1 as
    some (s2, e1 ++ e2)

end StAsio
