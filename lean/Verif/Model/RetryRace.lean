import Verif.Model.Timer
/-!
A socket that waits for one of its own timers, with the memory accesses of timer_handler and of start_timer one by one: TIMER_DISPATCH_MSG (a message that on_msg_handle refused is to be offered again) and TIMER_CHECK_RECV (receiving
stopped because the receive buffer is full, and is to be resumed).

Sources: include/timer.h:96-127 (create_or_update_timer, set_timer), 157-174 (start_timer), 176-196 (timer_handler), include/socket.h:693-726 (check_receiving, handled_msg), 729-779 (dispatch_msg, do_dispatch_msg), 781-787
(timer_handler).

Simplifications: the replacement of the call back is in Model/TimerFunctor. The sequence number is not reduced modulo 256 (`C32_fails_wrap`). Messages are counted. dispatch_msg is one step (its interleaving with do_dispatch_msg is in
Model/RecvDispatch). No close, no reset: the link stays up.
-/
set_option autoImplicit false
namespace StAsio

/-- Where a handler of the timer is, timer.h:176-196. -/
inductive RrPc where
  /-- in the io_context's queue -/
  | queued
  /-- the call back was invoked -/
  | called
  /-- line 190, second part: the call back returned true, start_timer: before line 162 and before line 170 -/
  | restart
  | rearm
  /-- before line 193 -/
  | check
  /-- before line 194 -/
  | write
  deriving DecidableEq, Repr

/-- A completion handler of async_wait: cancelled or not, prev_seq. -/
structure RrH where
  ec : Bool
  prev : Nat
  pc : RrPc
  deriving DecidableEq, Repr

/-- One timer_info, timer.h:50-69. -/
structure RrT where
  seq : Nat
  status : TStatus
  /-- the outstanding async_wait, with its prev_seq -/
  wait : Option Nat
  hs : List RrH
  deriving DecidableEq, Repr

def RrT.init : RrT := { seq := 0, status := .created, wait := none, hs := [] }

/-- The time has come: timer.h:170 -/
def RrT.expire (t : RrT) : Option RrT := t.wait.map (fun q => { t with wait := none, hs := t.hs ++ [⟨false, q, .queued⟩] })

/-- start_timer, timer.h:162 -/
def RrT.start (t : RrT) : RrT := { t with status := .started }

/-- start_timer, timer.h:163-170: expires_after cancels an outstanding wait -/
def RrT.arm (t : RrT) : RrT :=
  { t with seq := t.seq + 1, wait := some (t.seq + 1), hs := match t.wait with | none => t.hs | some q => t.hs ++ [⟨true, q, .queued⟩] }

/-- One step of handler `i`; `r`: what the call back returns. The second component: the call back was invoked in this step. timer.h:190-194 -/
def RrT.handler (t : RrT) (i : Nat) (r : Bool) : Option (RrT × Bool) :=
  match t.hs[i]? with
  | none => none
  | some h => match h.pc with
    | .queued => -- timer.h:190, first part
      if t.status = .started ∧ h.ec = false then some ({ t with hs := t.hs.set i { h with pc := .called } }, true) else some ({ t with hs := t.hs.set i { h with pc := .check } }, false)
    | .called => -- timer.h:190, second part
      if r = true ∧ t.status = .started then some ({ t with hs := t.hs.set i { h with pc := .restart } }, false) else some ({ t with hs := t.hs.set i { h with pc := .check } }, false)
    | .restart => some ({ t.start with hs := t.hs.set i { h with pc := .rearm } }, false)
    | .rearm => some (({ t with hs := t.hs.eraseIdx i } : RrT).arm, false)
    | .check => if h.prev = t.seq then some ({ t with hs := t.hs.set i { h with pc := .write } }, false) else some ({ t with hs := t.hs.eraseIdx i }, false) -- timer.h:193
    | .write => some ({ t with status := .canceled, hs := t.hs.eraseIdx i }, false) -- timer.h:194

/-- A handler is running (not in the queue). -/
def RrT.busy (t : RrT) : Bool := t.hs.any (fun h => h.pc != .queued)

/-- Where do_dispatch_msg is. -/
inductive RrD where
  | idle
  /-- in on_msg_handle, socket.h:760 -/
  | handling
  /-- set_timer, socket.h:767: before timer.h:162 and before timer.h:170 -/
  | park
  | parkArm
  deriving DecidableEq, Repr

/-- Dispatching with TIMER_DISPATCH_MSG. -/
structure Rd where
  tm : RrT
  buf : Nat
  dispatching : Bool
  posted : Nat
  pc : RrD
  deriving DecidableEq, Repr

def Rd.init : Rd := { tm := RrT.init, buf := 0, dispatching := false, posted := 0, pc := .idle }

inductive RdAct where
  /-- a message was received -/
  | arrive
  /-- dis_strand runs do_dispatch_msg -/
  | run
  /-- on_msg_handle returns -/
  | ret (ok : Bool)
  /-- the next step of set_timer -/
  | park
  /-- the time has come -/
  | expire
  /-- the next step of a handler of the timer -/
  | handler (i : Nat)
  deriving DecidableEq, Repr

inductive RdEv where
  /-- on_msg_handle was called -/
  | offered
  /-- on_msg_handle returned true -/
  | accepted
  deriving DecidableEq, Repr

/-- Some thread of the service is in the middle of a handler. -/
def Rd.busy (s : Rd) : Bool := s.pc != .idle || s.tm.busy

/-- One step; `one`: there is one service thread only, so a handler begins only when no other one is running (messages are received by the same thread). -/
def Rd.step (one : Bool) (s : Rd) : RdAct → Option (Rd × List RdEv)
  | .arrive => -- socket.h:531-532, 729
    if one = true ∧ s.busy = true then none else some ({ s with buf := s.buf + 1, posted := if s.dispatching then s.posted else s.posted + 1 }, [])
  | .run => -- socket.h:755-760, 777-778
    if s.posted = 0 ∨ s.pc ≠ .idle ∨ (one = true ∧ s.busy = true) then none
    else if s.dispatching then some ({ s with posted := s.posted - 1, pc := .handling }, [.offered])
    else if s.buf = 0 then some ({ s with posted := s.posted - 1 }, [])
    else some ({ s with posted := s.posted - 1, buf := s.buf - 1, dispatching := true, pc := .handling }, [.offered])
  | .ret ok => -- socket.h:764-774
    if s.pc ≠ .handling then none
    else if ok then some ({ s with dispatching := false, posted := s.posted + 1, pc := .idle }, [.accepted])
    else some ({ s with pc := .park }, [])
  | .park => match s.pc with -- socket.h:767
    | .park => some ({ s with tm := s.tm.start, pc := .parkArm }, [])
    | .parkArm => some ({ s with tm := s.tm.arm, pc := .idle }, [])
    | _ => none
  | .expire => s.tm.expire.map (fun t => ({ s with tm := t }, []))
  | .handler i => -- the call back: socket.h:785-787, 817; it returns false
    if one = true ∧ s.busy = true ∧ (s.tm.hs[i]?.map (·.pc)) = some .queued then none
    else match s.tm.handler i false with
      | none => none
      | some (t, true) => some ({ s with tm := t, posted := s.posted + 1 }, [])
      | some (t, false) => some ({ s with tm := t }, [])

/-- A sequence of steps, with what the user sees. -/
inductive Rd.Run (one : Bool) (s : Rd) : List RdAct → Rd → List RdEv → Prop where
  | nil : Rd.Run one s [] s []
  | snoc {as : List RdAct} {t t' : Rd} {es es' : List RdEv} (a : RdAct) : Rd.Run one s as t es → t.step one a = some (t', es') → Rd.Run one s (as ++ [a]) t' (es ++ es')

/-- The same, computed. -/
def Rd.exec (one : Bool) (s : Rd) : List RdAct → Option (Rd × List RdEv)
  | [] => some (s, [])
  | a :: as => match s.step one a with
    | none => none
    | some (t, es) => (t.exec one as).map (fun r => (r.1, es ++ r.2))

/-- Where the receiving chain is. -/
inductive RrR where
  /-- a read is outstanding -/
  | reading
  /-- in handled_msg, socket.h:717 -/
  | handled
  /-- set_timer, socket.h:723: before timer.h:162 and before timer.h:170 -/
  | park
  | parkArm
  /-- waiting for TIMER_CHECK_RECV -/
  | paused
  deriving DecidableEq, Repr

/-- Receiving with TIMER_CHECK_RECV. -/
structure Rp where
  tm : RrT
  pc : RrR
  /-- recv_msg() was called by the timer although receiving was not paused -/
  twice : Bool
  deriving DecidableEq, Repr

/-- recv_msg() was called by do_start, socket.h:330 -/
def Rp.init : Rp := { tm := RrT.init, pc := .reading, twice := false }

inductive RpAct where
  /-- a read completes, recv_handler puts the messages into the receive buffer -/
  | read
  /-- is_recv_buffer_available() in handled_msg -/
  | check (avail : Bool)
  | park
  | expire
  /-- the next step of a handler of the timer; `avail`: is_recv_buffer_available(), when the call back is invoked -/
  | handler (i : Nat) (avail : Bool)
  deriving DecidableEq, Repr

/-- rw_strand is in the middle of a handler. -/
def Rp.midway (s : Rp) : Bool := s.pc == .handled || s.pc == .park || s.pc == .parkArm

/-- Some thread of the service is in the middle of a handler. -/
def Rp.busy (s : Rp) : Bool := s.midway || s.tm.busy

/-- One step. The call back resumes receiving and returns false if the buffer is available, and returns true otherwise. Its invocation is the step from `queued` to `called`, the rest of it (check_receiving) is in the step from `called` on. -/
def Rp.step (one : Bool) (s : Rp) : RpAct → Option Rp
  | .read => if s.pc ≠ .reading ∨ (one = true ∧ s.busy = true) then none else some { s with pc := .handled } -- tcp/socket.h:347-369
  | .check avail => if s.pc ≠ .handled then none else some { s with pc := if avail then .reading else .park } -- socket.h:717-721
  | .park => match s.pc with -- socket.h:723
    | .park => some { s with tm := s.tm.start, pc := .parkArm }
    | .parkArm => some { s with tm := s.tm.arm, pc := .paused }
    | _ => none
  | .expire => s.tm.expire.map (fun t => { s with tm := t })
  | .handler i avail =>
    if one = true ∧ s.busy = true ∧ (s.tm.hs[i]?.map (·.pc)) = some .queued then none
    else if (s.tm.hs[i]?.map (·.pc)) = some .called ∧ avail = true then -- socket.h:695-706, 723: recv_msg(), then the call back returns false
      (s.tm.handler i false).map (fun r => { s with tm := r.1, pc := .reading, twice := s.twice || s.pc != .paused })
    else (s.tm.handler i true).map (fun r => { s with tm := r.1 }) -- socket.h:708-714, 723: the call back returns true; or a step without the call back

/-- The states that can be reached from `s`. -/
inductive Rp.Reach (one : Bool) (s : Rp) : Rp → Prop where
  | refl : Rp.Reach one s s
  | step {t t' : Rp} (a : RpAct) : Rp.Reach one s t → t.step one a = some t' → Rp.Reach one s t'

/-- A sequence of steps. -/
def Rp.exec (one : Bool) (s : Rp) : List RpAct → Option Rp
  | [] => some s
  | a :: as => (s.step one a).bind (·.exec one as)

end StAsio
