import Verif.Model.UdpSend
/-!
Model of sending over the life of a UDP socket: start, close, on_close, start again, with or without reset() in between, around the send path of Model/UdpSend.lean (without KCP).

Sources: include/socket.h:149-162 (start), 428-467 (close), include/udp/socket.h:65 (is_ready), 80-86 (reset), 183-207 (do_start), 228-240 (on_close), 330-393 (do_send_msg, send_handler).

Simplifications: as in Model/UdpSend.lean; the socket is started again only when no asynchronous call is pending. An asynchronous send that was outstanding when the socket was closed ends with operation_aborted (unless it was completed
before), one begun on a closed socket ends with bad_descriptor, one begun on an open socket with anything else.
-/
set_option autoImplicit false
namespace StAsio

structure Ul where
  ux : Ux
  /-- lowest_layer().is_open() -/
  isOpen : Bool
  /-- started, on_close() not called yet (started_ of socket.h:439 is cleared earlier) -/
  live : Bool
  /-- the message being sent was given to a closed socket -/
  late : Bool
  deriving DecidableEq, Repr

def Ul.init : Ul := { ux := Ux.init, isOpen := false, live := false, late := false }

inductive UlAct where
  /-- the sending machinery and the senders -/
  | ux (a : UAct)
  | start
  | close
  | onClose
  | reset
  deriving DecidableEq, Repr

inductive UlEv where
  | ux (e : UEv)
  /-- the socket was started -/
  | up
  /-- the socket was closed -/
  | down
  deriving DecidableEq, Repr

/-- What the sending machinery may do: links and resets are separate actions here, and sends end as the socket's state says. -/
def Ul.allows (s : Ul) : UAct → Bool
  | .linkUp | .onClose | .reset | .timerLost => false
  | .complete _ ok fatal => if s.late then !ok && fatal else (s.isOpen || !ok) && !fatal -- asio: bad_descriptor on a closed socket; close() cancels with operation_aborted
  | _ => true

/-- Whether the action gives a message to the socket, udp/socket.h:336-346. -/
def Ul.begins (s : Ul) : UAct → Bool
  | .strand _ _ => s.ux.pc == .move && !s.ux.q.items.isEmpty
  | _ => false

def Ul.step (s : Ul) : UlAct → Option (Ul × List UlEv)
  | .ux a =>
    if s.allows a then (Ux.step false s.ux a).map (fun r => ({ s with ux := r.1, late := if s.begins a then !s.isOpen else s.late }, r.2.map UlEv.ux)) else none
  | .start => -- socket.h:149-162, udp/socket.h:183-207
    if s.live then none else (Ux.step false s.ux .linkUp).map (fun r => ({ s with ux := r.1, isOpen := true, live := true }, [.up]))
  | .close => -- socket.h:428-467
    if s.live ∧ s.isOpen then some ({ s with isOpen := false }, [.down]) else none
  | .onClose => -- udp/socket.h:228-240; when every asynchronous call ended (C29)
    if s.live ∧ s.isOpen = false then (Ux.step false s.ux .onClose).map (fun r => ({ s with ux := r.1, live := false }, r.2.map UlEv.ux)) else none
  | .reset => -- udp/socket.h:80-86
    if s.live then none else (Ux.step false s.ux .reset).map (fun r => ({ s with ux := r.1 }, r.2.map UlEv.ux))

inductive Ul.Run : Ul → List UlAct → Ul → List UlEv → Prop where
  | nil (s : Ul) : Ul.Run s [] s []
  | snoc (s s1 s2 : Ul) (as : List UlAct) (a : UlAct) (es es' : List UlEv) : Ul.Run s as s1 es → Ul.step s1 a = some (s2, es') → Ul.Run s (as ++ [a]) s2 (es ++ es')

def Ul.exec : Ul → List UlAct → Option (Ul × List UlEv)
  | s, [] => some (s, [])
  | s, a :: as => do
    let (s, es) ← s.step a
    let (s, es') ← Ul.exec s as
    return (s, es ++ es')

end StAsio
