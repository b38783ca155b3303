import Verif.Spec.PassiveSync
/-!
Synchronous reception (ST_ASIO_SYNC_RECV) together with ST_ASIO_PASSIVE_RECV, as in udp_test/udp_test.cpp:6-7: nothing is read from the link except on demand, and sync_recv_msg asks for it (socket.h:291-293). The hand-off between the
callers and the receiving strand is `Model/SyncRecv`; what is different:
- starting the socket does not read (socket.h:329-331),
- sync_recv_msg calls recv_msg (socket.h:287-293), which posts do_recv_msg into the strand if the link is ready and no read is outstanding (socket.h:165-166, 420-421); do_recv_msg tests both once more (tcp/socket.h:329-345),
- the end of handle_msg never reads again nor starts a timer (socket.h:717-726),
- a read that brought no message and finds no caller gives an empty message to on_msg_handle (socket.h:516-522).

Simplifications: those of `Model/SyncRecv`; recv_msg is called by sync_recv_msg only. A posted do_recv_msg runs when the strand is idle. A link is established between start() and close(), at most once; for UDP sockets and sockets of servers at
once after start(), for clients when they are connected (tcp/client_socket.h:131-134, which calls do_start of tcp/socket.h:241-247). close() is called for a link that is not ready any more. The unpacker always provides a buffer (C03).
-/
set_option autoImplicit false
namespace StAsio

inductive SpLink where
  /-- neither ready nor going to be -/
  | none
  /-- started, not established yet -/
  | coming
  /-- is_ready() -/
  | up
  deriving DecidableEq, Repr

structure Sp where
  sr : Sr
  /-- do_recv_msg posted and not run yet -/
  posted : Nat
  link : SpLink
  deriving DecidableEq, Repr

/-- Before start(). -/
def Sp.init : Sp := { sr := Sr.init, posted := 0, link := .none }

inductive SpAct where
  /-- callers, strand, close and start as in `Model/SyncRecv` -/
  | sr (a : SAct)
  /-- a posted do_recv_msg runs -/
  | ask
  /-- the link is established -/
  | connect
  /-- the link is not ready any more, or could not be established -/
  | down
  deriving DecidableEq, Repr

/-- Behind these steps no read is outstanding: recv_handler clears the flag first (tcp/socket.h:349-351), handled_msg does not read (socket.h:717-726), do_start neither (socket.h:329-331). -/
def SAct.noRead : SAct → Bool
  | .read _ _ | .readFail | .handle _ | .strandRun _ | .moveAsync _ | .start => true
  | _ => false

/-- Does this call get beyond the DUPLICATE test (socket.h:284-292), and does recv_msg post? socket.h:165-166 -/
def Sp.asks (s : Sp) : SAct → Nat
  | .call _ stopped => if stopped = false ∧ s.sr.sr = .notRequested ∧ s.link = .up ∧ s.sr.rd = .off then 1 else 0
  | _ => 0

/-- An empty message for on_msg_handle, socket.h:517-521. -/
def Sp.idle (s : Sp) : SAct → List SpEv
  | .moveAsync _ => if s.sr.temp = [] then [.nothing] else []
  | _ => []

/-- The link after a step: start() begins to establish it, close() comes with a link that is not ready. -/
def Sp.linkAfter (s : Sp) : SAct → SpLink
  | .start => .coming
  | .closeSet => .none
  | _ => s.link

/-- May this step of `Model/SyncRecv` happen? There is no TIMER_CHECK_RECV (socket.h:719-724); start() only when no asynchronous call is left. -/
def Sp.may (s : Sp) : SAct → Bool
  | .resumeRead => false
  | .start => s.posted == 0
  | _ => true

/-- One step, see above; ask: do_recv_msg, tcp/socket.h:329-345, udp/socket.h:268-292; connect: nothing is read when the link is established, socket.h:329-331. -/
def Sp.step (s : Sp) : SpAct → Option (Sp × List SpEv)
  | .sr a =>
    if s.may a then
      (s.sr.step a).map fun r =>
        ({ sr := if a.noRead then { r.1 with rd := .off } else r.1, posted := s.posted + s.asks a, link := s.linkAfter a }, r.2.map .sr ++ s.idle a)
    else none
  | .ask =>
    if 0 < s.posted ∧ s.sr.strand = .idle then
      if s.link = .up ∧ s.sr.rd = .off then some ({ s with posted := s.posted - 1, sr := { s.sr with rd := .reading } }, [.read])
      else some ({ s with posted := s.posted - 1 }, [])
    else none
  | .connect => if s.link = .coming then some ({ s with link := .up }, []) else none
  | .down => if s.link = .none then none else some ({ s with link := .none }, [])

/-- Runs whose steps all meet p. -/
inductive Sp.Run (p : Sp → SpAct → Bool) : Sp → List SpAct → Sp → List SpEv → Prop
  | nil (s : Sp) : Sp.Run p s [] s []
  | snoc {s s1 s2 : Sp} {as : List SpAct} {a : SpAct} {es fs : List SpEv} : Sp.Run p s as s1 es → p s1 a = true → s1.step a = some (s2, fs) → Sp.Run p s (as ++ [a]) s2 (es ++ fs)

/-- Executes a list of steps that all meet p. -/
def Sp.exec (p : Sp → SpAct → Bool) (s : Sp) : List SpAct → Option (Sp × List SpEv)
  | [] => some (s, [])
  | a :: as => if p s a then (s.step a).bind fun r => (Sp.exec p r.1 as).map fun q => (q.1, r.2 ++ q.2) else none

/-- No restriction. -/
def Sp.any (_ : Sp) (_ : SpAct) : Bool := true

/-- sync_recv_msg is not called between start() and the establishment of the link, and no caller is left over when the socket is started again. -/
def Sp.ready (s : Sp) : SpAct → Bool
  | .sr (.call _ _) => s.link == .up || !s.sr.started
  | .sr .start => s.sr.sr == .notRequested
  | _ => true

/-- sync_recv_msg is called without a duration, and the link works. -/
def Sp.patient (_ : Sp) : SpAct → Bool
  | .sr (.call timed _) => !timed
  | .sr (.read _ ec) => !ec
  | .sr .readFail => false
  | .sr .closeSet => false
  | .down => false
  | _ => true

end StAsio
