import Verif.Model.TcpSend
/-!
Model of the UDP send path (also the reliable, KCP based one) as a concurrent machine, in the style of Model/TcpSend.lean.

Sources: include/udp/socket.h:247 (resume_sending), 330-393 (do_send_msg, send_handler), 183-207 (do_start), 80-86 (reset), 228-240 (on_close),
include/socket.h:176, 538-562 (send_msg, do_direct_send_msg), include/udp/reliable_socket.h:113-137 (check_send_cc, do_send_msg), 170-180 (TIMER_CC).

Simplifications: as in Model/TcpSend.lean. Whether congestion control lets a message pass, and whether KCP takes it over, are
chosen by the environment. A timer runs outside of the strand.
-/
set_option autoImplicit false
namespace StAsio

/-- udp_msg with begin time and promise, include/base.h:314-330, 588-611. -/
structure UMsg where
  peer : Nat
  data : Bytes
  p : Option Nat
  deriving DecidableEq, Repr

def UMsg.sz (m : UMsg) : Nat := m.data.length

inductive UPc where
  | idle
  /-- udp/socket.h:332 -/
  | test
  /-- line 334 -/
  | cc
  /-- line 336 -/
  | move
  /-- line 351 -/
  | clear
  /-- line 352 -/
  | check
  /-- line 387 -/
  | errClear
  deriving DecidableEq, Repr

inductive UEv where
  | accept (m : UMsg) (prior : Bool)
  /-- given to async_send, async_send_to or KCP -/
  | handOff (m : UMsg)
  /-- counted as sent, on_msg_send -/
  | sent (m : UMsg)
  | sendError (m : UMsg)
  | popped (ms : List UMsg)
  | discarded (ms : List UMsg)
  | cleared (ms : List UMsg)
  | resolved (p : Nat) (r : SyncRes)
  deriving DecidableEq, Repr

structure UDone where
  m : UMsg
  ok : Bool
  /-- not_socket or bad_descriptor -/
  fatal : Bool
  deriving DecidableEq, Repr

structure Ux where
  q : Q UMsg
  sending : Bool
  /-- sending_msg; `none` after clear() -/
  cur : Option UMsg
  pc : UPc
  posted : Nat
  atReady : Nat
  atFlag : Nat
  /-- TIMER_CC is set: congestion control suspended sending -/
  ccTimer : Bool
  /-- TIMER_CC was stopped, or lost, before it resumed sending -/
  stopped : Bool
  /-- threads in resume_sending behind clear_sending() -/
  atEmpty : Nat
  /-- outstanding async_send(_to) -/
  writes : List UMsg
  dones : List UDone
  ready : Bool
  /-- datagrams sent, in order -/
  wire : List UMsg
  bad : Bool
  deriving DecidableEq, Repr

def Ux.init : Ux :=
  { q := Q.init, sending := false, cur := none, pc := .idle, posted := 0, atReady := 0, atFlag := 0, ccTimer := false, stopped := false, atEmpty := 0,
    writes := [], dones := [], ready := false, wire := [], bad := false }

inductive UAct where
  | send (m : UMsg) (prior fits : Bool)
  | loadReady
  | loadFlag
  | runPosted
  /-- `ccOk`: check_send_cc(); `custom`: do_send_msg(msg), i.e. KCP took the message -/
  | strand (ccOk custom : Bool)
  | timerCC
  /-- stop_all_timer() when closing, or the race described in Props/C32_C33_Timer -/
  | timerLost
  | resumeCheck
  | complete (i : Nat) (ok fatal : Bool)
  | handler (i : Nat)
  | pop
  | popAll
  | shrink (n : Nat)
  | linkUp
  | onClose
  | reset
  deriving DecidableEq, Repr

def Ux.noAsync (s : Ux) : Bool := s.posted == 0 && s.pc == .idle && s.writes.isEmpty && s.dones.isEmpty && !s.ccTimer && s.atEmpty == 0

/-- Setting the promise of a message. -/
def uPromise (m : UMsg) (r : SyncRes) : List UEv := m.p.toList.map (fun p => UEv.resolved p r)

def uPromises (ms : List UMsg) (r : SyncRes) : List UEv := (ms.map (fun m => uPromise m r)).flatten

/-- do_send_msg, udp/socket.h:330-353. `conn`: is_connected. -/
def Ux.strand (conn : Bool) (s : Ux) (ccOk custom : Bool) : Option (Ux × List UEv) :=
  match s.pc with
  | .idle => none
  | .test => if s.sending then some ({ s with pc := .idle }, []) else some ({ s with sending := true, pc := .cc }, [])
  | .cc => if conn && !ccOk then some ({ s with ccTimer := true, pc := .idle }, []) else some ({ s with pc := .move }, [])
  | .move =>
    match s.q.tryDequeue UMsg.sz with
    | (_, none) => some ({ s with pc := .clear }, [])
    | (q, some m) =>
      if conn && custom then some ({ s with q, cur := some m, dones := s.dones ++ [{ m, ok := true, fatal := false }], wire := s.wire ++ [m], pc := .idle }, [.handOff m])
      else some ({ s with q, cur := some m, writes := s.writes ++ [m], pc := .idle }, [.handOff m])
  | .clear => some ({ s with sending := false, pc := .check }, [])
  | .check => some ({ s with pc := if s.q.items.isEmpty then .idle else .test }, [])
  | .errClear => some ({ s with sending := false, pc := .idle }, [])

/-- send_handler, udp/socket.h:355-393. -/
def Ux.handler (s : Ux) (d : UDone) : Ux × List UEv :=
  match s.cur with
  | none => ({ s with bad := true }, [])
  | some m =>
    let bad := s.bad || m != d.m
    if d.ok then ({ s with cur := none, pc := .cc, bad }, uPromise m .success ++ [.sent m])
    else ({ s with cur := none, pc := if d.fatal then .errClear else .cc, bad }, uPromise m .notApplicable ++ [.sendError m])

def Ux.step (conn : Bool) (s : Ux) : UAct → Option (Ux × List UEv)
  | .send m prior fits => -- socket.h:538-562
    if m.data.isEmpty then some (s, [])
    else
      let r := if prior then s.q.enqueueFront UMsg.sz m fits else s.q.enqueue UMsg.sz m fits
      if r.2 then some ({ s with q := r.1, atReady := s.atReady + 1 }, [.accept m prior]) else some (s, [])
  | .loadReady => -- socket.h:176
    if s.atReady = 0 then none
    else some ({ s with atReady := s.atReady - 1, atFlag := if s.ready then s.atFlag + 1 else s.atFlag }, [])
  | .loadFlag =>
    if s.atFlag = 0 then none
    else some ({ s with atFlag := s.atFlag - 1, posted := if s.sending then s.posted else s.posted + 1 }, [])
  | .runPosted =>
    if s.posted = 0 ∨ s.pc ≠ .idle then none else some ({ s with posted := s.posted - 1, pc := .test }, [])
  | .strand ccOk custom => s.strand conn ccOk custom
  | .timerCC => -- reliable_socket.h:174-179 when the queue of KCP went down; clear_sending() of resume_sending
    if s.ccTimer then some ({ s with ccTimer := false, sending := false, atEmpty := s.atEmpty + 1 }, []) else none
  | .timerLost => -- socket.h:443 / timer.h:197-205: the sending flag stays set
    if s.ccTimer then some ({ s with ccTimer := false, stopped := true }, []) else none
  | .resumeCheck => -- resume_sending: is_empty(), send_msg()
    if s.atEmpty = 0 then none
    else some ({ s with atEmpty := s.atEmpty - 1, atReady := if s.q.items.isEmpty then s.atReady else s.atReady + 1 }, [])
  | .complete i ok fatal => do -- async_send(_to) completes; the datagram was sent if it succeeds
    let m ← s.writes[i]?
    some ({ s with writes := s.writes.eraseIdx i, dones := s.dones ++ [{ m, ok, fatal }], wire := if ok then s.wire ++ [m] else s.wire, bad := s.bad || s.cur != some m }, [])
  | .handler i => do
    let d ← s.dones[i]?
    if s.pc ≠ .idle then none else some ({ s with dones := s.dones.eraseIdx i }.handler d)
  | .pop => -- base.h:688-690
    match s.q.tryDequeue UMsg.sz with
    | (_, none) => some (s, [])
    | (q, some m) => some ({ s with q }, uPromises [m] .notApplicable ++ [.popped [m]])
  | .popAll => -- base.h:691-693
    let r := s.q.swap UMsg.sz []
    some ({ s with q := r.1 }, uPromises r.2 .notApplicable ++ [.popped r.2])
  | .shrink n => -- socket.h:408-412
    let r := s.q.moveOutBytes UMsg.sz [] n
    some ({ s with q := r.1 }, [.discarded r.2])
  | .linkUp => -- do_start, udp/socket.h:183-207, socket.h:322-334; after closing, with or without reset() in between (is_ready() stays true)
    if s.noAsync = false then none else some ({ s with ready := true, atReady := s.atReady + 1, wire := [] }, [])
  | .onClose => -- udp/socket.h:228-240, called when every async call ended and all timers are stopped (is_ready() stays true)
    if s.noAsync = false then none else some (s, s.cur.toList.flatMap (fun m => uPromise m .notApplicable))
  | .reset => -- udp/socket.h:80-86, socket.h:87, 100-107
    if s.noAsync = false ∨ s.atReady ≠ 0 ∨ s.atFlag ≠ 0 then none
    else some ({ s with q := s.q.clear, cur := none, sending := false, stopped := false, ready := false }, [.cleared s.q.items])

inductive Ux.Run (conn : Bool) : Ux → List UAct → Ux → List UEv → Prop where
  | nil (s : Ux) : Ux.Run conn s [] s []
  | snoc (s s1 s2 : Ux) (as : List UAct) (a : UAct) (es es' : List UEv) :
      Ux.Run conn s as s1 es → Ux.step conn s1 a = some (s2, es') → Ux.Run conn s (as ++ [a]) s2 (es ++ es')

def Ux.exec (conn : Bool) : Ux → List UAct → Option (Ux × List UEv)
  | s, [] => some (s, [])
  | s, a :: as => do
    let (s, es) ← s.step conn a
    let (s, es') ← Ux.exec conn s as
    return (s, es ++ es')

end StAsio
