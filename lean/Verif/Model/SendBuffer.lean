import Verif.Model.Queue
/-!
Model of the decision whether a message is taken into the send buffer: shrink_send_buffer, direct_send_msg, do_direct_send_msg
(include/socket.h:264-269, 389-417, 538-577), the send functions of include/base.h:703-797 and 935-965 and their safe and
synchronous variants (lines 783-797, 835-925).

`α` is the (packed) message, `sz` its size(). `msg.empty()` is size() = 0. The queue is the locked queue of Model/Queue.lean.
-/
set_option autoImplicit false
namespace StAsio
variable {α : Type}

/-- send_buf_size_ and, with ST_ASIO_SHRINK_SEND_BUFFER, calc_shrink_size (virtual, socket.h:390). -/
structure SendCfg where
  limit : Nat
  shrink : Option (Nat → Nat)

/-- Default calc_shrink_size, socket.h:390. -/
def defaultShrink (n : Nat) : Nat := n / 3

/-- is_send_buffer_available, socket.h:257. -/
def sendBufferAvailable (c : SendCfg) (q : Q α) : Bool := decide (q.total < c.limit)

/-- shrink_send_buffer, socket.h:393-417: the buffer afterwards, what on_msg_discard was called with, and the result. -/
def shrinkSendBuffer (sz : α → Nat) (c : SendCfg) (q : Q α) : Q α × Option (List α) × Bool :=
  match c.shrink with
  | none => (q, none, sendBufferAvailable c q)
  | some calcSize =>
    if q.total < c.limit then (q, none, true)
    else if calcSize q.total = 0 then (q, none, false)
    else
      let r := q.moveOutBytes sz [] (calcSize q.total)
      (r.1, some r.2, true)

/-- What is to be sent. -/
inductive SendReq (α : Type) where
  /-- one message: direct_send_msg(msg), send_native_msg(msg), and the array functions of base.h:770-779, 943-951, which
  pack first and ignore packing errors (the message is empty then). `fits = false`: no memory for the queue. -/
  | one (m : α) (fits : Bool)
  /-- direct_send_msg(list) and the native list and two-message functions -/
  | list (ms : List α)
  /-- send_msg of a message, two messages or a list, base.h:704-769: the packer's result, `none` if packing failed -/
  | packed (r : Option (List α))

structure SendOut (α : Type) where
  q : Q α
  ret : Bool
  discarded : Option (List α)
  /-- did it call send_msg() (socket.h:176)? -/
  kicked : Bool

/-- do_direct_send_msg(msg), socket.h:538-562: always true. -/
def doDirectOne (sz : α → Nat) (q : Q α) (m : α) (prior fits : Bool) : Q α × Bool :=
  if sz m = 0 then (q, false) else if prior then q.enqueueFront sz m fits else q.enqueue sz m fits

/-- do_direct_send_msg(list), socket.h:564-577; `none`: failed assertion in the queue. -/
def doDirectList (sz : α → Nat) (q : Q α) (ms : List α) (prior : Bool) : Option (Q α) :=
  let n := getSizeInByte sz ms
  if prior then q.moveInFront sz ms n else q.moveIn sz ms n

/-- One call of a send function. -/
def sendCall (sz : α → Nat) (c : SendCfg) (q : Q α) (req : SendReq α) (canOverflow prior : Bool) : Option (SendOut α) :=
  let s := if canOverflow then (q, none, true) else shrinkSendBuffer sz c q
  if s.2.2 then
    match req with
    | .one m fits => let r := doDirectOne sz s.1 m prior fits; some { q := r.1, ret := true, discarded := s.2.1, kicked := r.2 }
    | .list ms => (doDirectList sz s.1 ms prior).map (fun q => { q, ret := true, discarded := s.2.1, kicked := true })
    | .packed none => some { q := s.1, ret := false, discarded := s.2.1, kicked := false }
    | .packed (some ms) => (doDirectList sz s.1 ms prior).map (fun q => { q, ret := true, discarded := s.2.1, kicked := true })
  else some { q := s.1, ret := false, discarded := s.2.1, kicked := false }

/-- One attempt of a safe send: the send buffer it meets (other threads change it in between) and is_ready() afterwards. -/
structure Attempt (α : Type) where
  q : Q α
  ready : Bool

/-- safe_send_msg etc., base.h:681-685, 785-796: repeats until accepted or not ready. `none`: still looping after the attempts listed.
The calls made are returned as well. -/
def safeSend (sz : α → Nat) (c : SendCfg) (req : SendReq α) (canOverflow prior : Bool) : List (Attempt α) → Option (Option Bool × List (SendOut α))
  | [] => some (none, [])
  | a :: rest => do
    let o ← sendCall sz c a.q req canOverflow prior
    if o.ret then return (some true, [o])
    else if a.ready then
      let (r, os) ← safeSend sz c req canOverflow prior rest
      return (r, o :: os)
    else return (some false, [o])

/-- sync_call_result of one synchronous call: refused, or what waiting for the promise gave (base.h:835-903, socket.h:580-657). -/
inductive WaitRes where
  | success
  | notApplicable
  | timeout
  deriving DecidableEq, Repr

/-- One attempt of a synchronous safe send: additionally what the wait of this call ends with. -/
structure SyncAttempt (α : Type) where
  q : Q α
  wait : WaitRes
  ready : Bool

/-- sync_safe_send_msg etc., base.h:906-923: repeats until SUCCESS. -/
def syncSafeSend (sz : α → Nat) (c : SendCfg) (req : SendReq α) (canOverflow prior : Bool) : List (SyncAttempt α) → Option (Option WaitRes × List (SendOut α))
  | [] => some (none, [])
  | a :: rest => do
    let o ← sendCall sz c a.q req canOverflow prior
    let r := if o.ret then a.wait else .notApplicable
    if r = .success then return (some .success, [o])
    else if a.ready then
      let (r, os) ← syncSafeSend sz c req canOverflow prior rest
      return (r, o :: os)
    else return (some .notApplicable, [o])

/-! ### any number of sender threads

Checking the limit and enqueuing are separate accesses to the (locked) queue. -/

structure SbSt (α : Type) where
  q : Q α
  /-- number of threads that passed the check and have not enqueued yet -/
  passed : Nat
  deriving DecidableEq, Repr

inductive SbAct (α : Type) where
  /-- a thread evaluates shrink_send_buffer() -/
  | check
  /-- a thread that passed the check enqueues (or finds an empty message, or fails to pack) -/
  | put (ms : List α) (prior : Bool)
  /-- the strand takes messages to write them -/
  | take (n : Nat)
  /-- pop_first_pending_send_msg, pop_all_pending_send_msg -/
  | pop
  | popAll

def SbSt.init : SbSt α := { q := Q.init, passed := 0 }

/-- `n`: number of threads that send. -/
def SbSt.step (sz : α → Nat) (c : SendCfg) (n : Nat) (s : SbSt α) : SbAct α → Option (SbSt α)
  | .check =>
    if n ≤ s.passed then none
    else
      let r := shrinkSendBuffer sz c s.q
      some { q := r.1, passed := if r.2.2 then s.passed + 1 else s.passed }
  | .put ms prior =>
    if s.passed = 0 then none
    else (doDirectList sz s.q ms prior).map (fun q => { q, passed := s.passed - 1 })
  | .take k => some { s with q := (s.q.moveOutBytes sz [] k).1 }
  | .pop => some { s with q := (s.q.tryDequeue sz).1 }
  | .popAll => some { s with q := (s.q.swap sz []).1 }

def SbSt.run (sz : α → Nat) (c : SendCfg) (n : Nat) : SbSt α → List (SbAct α) → Option (SbSt α)
  | s, [] => some s
  | s, a :: as => (s.step sz c n a).bind (fun s => SbSt.run sz c n s as)

end StAsio
