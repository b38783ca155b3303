import Verif.Model.Statistic
import Verif.Spec.Delay
/-!
# Durations in the statistics (ST_ASIO_FULL_STATISTIC; include/base.h:538-611, include/socket.h:495-535, 693-785, include/tcp/socket.h:383-420, include/udp/socket.h:331-370)

Messages in the buffers carry begin_time (obj_with_begin_time). A message is a number (given in the order in which messages are made) and its begin_time; contents are left out. Time is what
statistic::now() shows; it passes in steps of its own, between any two others. Each machine has just the parts of the socket that read the clock.
-/
set_option autoImplicit false
namespace StAsio

/-- Runs of a step function. -/
inductive Steps {S A E : Type} (step : S → A → Option (S × List E)) : S → List A → S → List E → Prop
  | nil (s : S) : Steps step s [] s []
  | snoc (s s1 s2 : S) (as : List A) (a : A) (es fs : List E) : Steps step s as s1 es → step s1 a = some (s2, fs) → Steps step s (as ++ [a]) s2 (es ++ fs)

/-- Executes a list of steps. -/
def stepsExec {S A E : Type} (step : S → A → Option (S × List E)) : S → List A → Option (S × List E)
  | s, [] => some (s, [])
  | s, a :: as => (step s a).bind (fun r => (stepsExec step r.1 as).map (fun q => (q.1, r.2 ++ q.2)))

/-- obj_with_begin_time, base.h:543-566: id of the message and begin_time. -/
abbrev Stamped := Nat × Int

/-- `k` new messages; swap(T&), base.h:559 and the constructors, 546-547, read the clock. -/
def stampNew (next k : Nat) (now : Int) : List Stamped := (List.range' next k).map (fun i => (i, now))

/-! ## The way out -/

/-- Where do_send_msg is: not running, after reading end_time (tcp/socket.h:388), after moving messages to sending_msgs (389-395), after async_write (400). -/
inductive DlPc
  | idle
  | look (endTime : Int)
  | taken
  | writing
  deriving Repr, DecidableEq

/-- The sender: messages made and not yet in the buffer (do_direct_send_msg, socket.h:562-575, makes a whole list before it takes the lock), send_buffer, sending_msgs, and the two durations. -/
structure DTx where
  now : Int
  next : Nat
  held : List (List Stamped)
  buf : List Stamped
  sending : List Stamped
  pc : DlPc
  delay : Dur
  time : Dur
  deriving Repr, DecidableEq

/-- Constructor: everything empty; the clock shows `t0`. -/
def DTx.init (t0 : Int) : DTx := ⟨t0, 0, [], [], [], .idle, Dur.zero, Dur.zero⟩

/-- Steps. `insert i front`: enqueue, enqueue_front, move_items_in, move_items_in_front of the i-th of the `held`; `take k`: move_items_out (how many: the batch size); `drop k`: messages
are thrown away by clear() or shrink_send_buffer. -/
inductive DTxAct
  | tick (d : Int)
  | make (k : Nat)
  | insert (i : Nat) (front : Bool)
  | look
  | take (k : Nat)
  | write
  | done (ok : Bool)
  | drop (k : Nat)
  deriving Repr, DecidableEq

/-- `sending_msgs.front().restart()`, tcp/socket.h:399; `sending_msg.restart()`, udp/socket.h:341. -/
def restartFront (now : Int) : List Stamped → List Stamped
  | [] => []
  | m :: ms => (m.1, now) :: ms

/-- One step. `udp`: udp/socket.h:336-345 takes one message and reads the clock after that. -/
def DTx.step (udp : Bool) (s : DTx) : DTxAct → Option (DTx × List DlEv)
  | .tick d => some ({ s with now := s.now + d }, [.tick d])
  | .make k => some ({ s with next := s.next + k, held := s.held ++ [stampNew s.next k s.now] }, [.made (List.range' s.next k)])
  | .insert i front => match s.held[i]? with
    | none => none
    | some b => some ({ s with held := s.held.eraseIdx i, buf := if front then b ++ s.buf else s.buf ++ b }, [])
  | .look => if s.pc = .idle then some ({ s with pc := .look s.now }, [.look]) else none
  | .take k => match s.pc with
    | .look e =>
      if k = 0 then (if s.buf = [] then some ({ s with pc := .idle }, []) else none)
      else if k ≤ s.buf.length ∧ (udp = true → k = 1) then
        some ({ s with buf := s.buf.drop k, sending := s.buf.take k, pc := .taken,
                       delay := (s.buf.take k).foldl (fun d m => d.add ((if udp then s.now else e) - m.2)) s.delay }, [.out ((s.buf.take k).map (·.1))])
      else none
    | _ => none
  | .write => if s.pc = .taken then some ({ s with sending := restartFront s.now s.sending, pc := .writing }, [.write]) else none
  | .done ok => if s.pc = .writing then
      (if ok then some ({ s with pc := .idle, sending := [], time := match s.sending with | m :: _ => s.time.add (s.now - m.2) | [] => s.time }, [.sent])
       else some ({ s with pc := .idle, sending := [] }, [.failed]))
    else none
  | .drop k => some ({ s with buf := s.buf.drop k }, [])

/-! ## The way in -/

/-- The dispatcher, one message at a time: what handle_msg has stamped and not yet moved in (socket.h:526-529), recv_buffer, dispatching_msg (while `dispatching`), begin_time of the running call. -/
structure DRx where
  now : Int
  next : Nat
  held : List Stamped
  buf : List Stamped
  msg : Option Stamped
  call : Option Int
  delay : Dur
  handle : Dur
  deriving Repr, DecidableEq

/-- Constructor. -/
def DRx.init (t0 : Int) : DRx := ⟨t0, 0, [], [], none, none, Dur.zero, Dur.zero⟩

/-- Steps. `ret took ok`: the handler returns; in batch mode it has taken `took` messages from the front. `found`, `count`: the two halves of what precedes the call in batch mode. -/
inductive DRxAct
  | tick (d : Int)
  | parse (k : Nat)
  | insert
  | found
  | count
  | ret (took : Nat) (ok : Bool)
  deriving Repr, DecidableEq

/-- One step without ST_ASIO_DISPATCH_BATCH_MSG: do_dispatch_msg, socket.h:756-784. try_dequeue and the reading of the clock are one step: nobody else touches the message between them. -/
def DRx.step (s : DRx) : DRxAct → Option (DRx × List PlEv)
  | .tick d => some ({ s with now := s.now + d }, [.tick d])
  | .parse k => if s.held = [] then some ({ s with next := s.next + k, held := stampNew s.next k s.now }, [.made (List.range' s.next k)]) else none
  | .insert => some ({ s with held := [], buf := s.buf ++ s.held }, [])
  | .found => match s.call, s.msg, s.buf with
    | some _, _, _ => none
    | none, some m, _ => some ({ s with call := some s.now, delay := s.delay.add (s.now - m.2) }, [.enter, .call [m.1]])
    | none, none, m :: ms => some ({ s with msg := some m, buf := ms, call := some s.now, delay := s.delay.add (s.now - m.2) }, [.enter, .call [m.1]])
    | none, none, [] => none
  | .count => none
  | .ret _ ok => match s.call, s.msg with
    | some b, some m =>
      if ok then some ({ s with msg := none, call := none, handle := s.handle.add (s.now - b) }, [.ret])
      else some ({ s with msg := some (m.1, s.now), call := none, handle := s.handle.add (s.now - b) }, [.ret, .back [m.1]])
    | _, _ => none

/-- The dispatcher with ST_ASIO_DISPATCH_BATCH_MSG; `counted`: do_something_to_all (socket.h:744) has been called. -/
structure DBx where
  now : Int
  next : Nat
  held : List Stamped
  buf : List Stamped
  call : Option Int
  counted : Bool
  delay : Dur
  handle : Dur
  deriving Repr, DecidableEq

/-- Constructor. -/
def DBx.init (t0 : Int) : DBx := ⟨t0, 0, [], [], none, false, Dur.zero, Dur.zero⟩

/-- One step with ST_ASIO_DISPATCH_BATCH_MSG: do_dispatch_msg, socket.h:738-755. on_msg_handle returns 0 or something else (`ok`). -/
def DBx.step (s : DBx) : DRxAct → Option (DBx × List PlEv)
  | .tick d => some ({ s with now := s.now + d }, [.tick d])
  | .parse k => if s.held = [] then some ({ s with next := s.next + k, held := stampNew s.next k s.now }, [.made (List.range' s.next k)]) else none
  | .insert => some ({ s with held := [], buf := s.buf ++ s.held }, [])
  | .found => if s.call = none ∧ s.buf ≠ [] then some ({ s with call := some s.now, counted := false }, [.enter]) else none
  | .count => match s.call with
    | some b => if s.counted then none else some ({ s with counted := true, delay := s.buf.foldl (fun d m => d.add (b - m.2)) s.delay }, [.call (s.buf.map (·.1))])
    | none => none
  | .ret took ok => match s.call with
    | some b => if s.counted then
        some ({ s with call := none, counted := false, buf := if ok then s.buf.drop took else (s.buf.drop took).map (fun m => (m.1, s.now)), handle := s.handle.add (s.now - b) },
          [.ret, .back ((s.buf.drop took).map (·.1))])
      else none
    | none => none

/-- Use of the batch mode in which a handler that takes anything takes everything. -/
def DBx.calm (s : DBx) : DRxAct → Bool
  | .ret took ok => !ok || s.buf.length ≤ took
  | _ => true

/-- Steps of such a use. -/
def DBx.calmStep (s : DBx) (a : DRxAct) : Option (DBx × List PlEv) := if s.calm a then s.step a else none

/-! ## Halts of receiving -/

/-- recv_idle_began and recv_idle_begin_time (socket.h:55, 96, 693-714); `up`: the link exists. -/
structure DIx where
  now : Int
  began : Bool
  beginTime : Int
  up : Bool
  idle : Dur
  deriving Repr, DecidableEq

/-- Constructor, socket.h:55. -/
def DIx.init (t0 : Int) : DIx := ⟨t0, false, t0, true, Dur.zero⟩

/-- `check b`: check_receiving, whether the buffer is available; `close`, `start`: the link breaks, and is up again after a reconnect, neither of which touches the two fields (reset() does). -/
inductive DIxAct
  | tick (d : Int)
  | check (available : Bool)
  | close
  | start
  deriving Repr, DecidableEq

/-- One step. -/
def DIx.step (s : DIx) : DIxAct → Option (DIx × List IlEv)
  | .tick d => some ({ s with now := s.now + d }, [.tick d])
  | .check true => if s.up then
      (if s.began then some ({ s with began := false, idle := s.idle.add (s.now - s.beginTime) }, [.go]) else some (s, [.go]))
    else none
  | .check false => if s.up then
      (if s.began then some (s, []) else some ({ s with began := true, beginTime := s.now }, [.halt]))
    else none
  | .close => if s.up then some ({ s with up := false }, [.close]) else none
  | .start => if s.up then none else some ({ s with up := true }, [.up])

end StAsio
