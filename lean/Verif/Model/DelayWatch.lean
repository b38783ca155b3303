import Verif.Spec.DelayWatch
/-!
A link of concurrent_client (concurrent_client/concurrent_client.cpp:31-107): on_connect sends one message and starts a timer, handle_msg sends every message it gets back once more, and check_delay, called by the timer and by
handle_msg, shuts the link down if more than max_delay passed since the last call of check_delay(true).

Simplifications: time is a natural number in any unit, and `elapsed > max_delay` is compared exactly (the code compares a double with a float). The server echoes messages in order, once each; TCP keeps the order. A time-out of the timer is
handled at most `late` after it is due, and on_connect takes no longer than `late`; everything else may take any time. A call of on_msg and the locking of the mutex by check_delay are one moment. ST_ASIO_DELAY_CLOSE is 5 in this program
(concurrent_client.cpp:9), 5 seconds are taken to be enough for a handler that is running to return, so connecting again begins after it. Connecting itself, with its delays, is C40.
-/
set_option autoImplicit false
namespace StAsio

structure DwCfg where
  /-- max_delay, concurrent_client.cpp:34-35, 151-153 -/
  max : Nat
  /-- the 5000 ms given to set_timer, concurrent_client.cpp:68 -/
  period : Nat
  /-- how late a handler may run -/
  late : Nat
  deriving DecidableEq, Repr

inductive DwPc where
  /-- no handler is running -/
  | idle
  /-- on_connect has started last_send_time, the message is not sent yet -/
  | greet
  /-- handle_msg has returned from check_delay with true, direct_send_msg is not called yet -/
  | reply
  deriving DecidableEq, Repr

/-- A link, concurrent_client.cpp:101-106 and the parts of the socket it uses. -/
structure Dw where
  now : Nat
  /-- the socket is open: connected and not closed -/
  opened : Bool
  /-- is_connected() -/
  up : Bool
  /-- need_reconnect is false -/
  over : Bool
  /-- when last_send_time was started -/
  last : Nat
  /-- when the timer TIMER_END is due -/
  due : Option Nat
  pc : DwPc
  /-- the send buffer -/
  queue : List Nat
  /-- messages written whose echoes have not been read -/
  air : List Nat
  /-- the number of the next message -/
  next : Nat
  deriving DecidableEq, Repr

/-- A new link, concurrent_client.cpp:34. -/
def Dw.init : Dw := { now := 0, opened := false, up := false, over := false, last := 0, due := none, pc := .idle, queue := [], air := [], next := 0 }

inductive DwAct where
  | pass (n : Nat)
  /-- the connection is established, on_connect begins -/
  | connect
  /-- the rest of on_connect -/
  | greet
  /-- the message in front of the send buffer is written -/
  | write (ok : Bool)
  /-- an echo arrives, on_msg is called -/
  | take
  /-- the rest of handle_msg -/
  | reply
  /-- the timer expires -/
  | timer
  /-- the link is lost, or shut down by the peer -/
  | lose
  /-- the socket is closed -/
  | close
  deriving DecidableEq, Repr

/-- May n units of time pass without anything being overdue? See the simplifications above. -/
def Dw.canPass (c : DwCfg) (s : Dw) (n : Nat) : Bool :=
  (match s.due with
    | some d => decide (s.now + n ≤ d + c.late)
    | none => true) && (s.pc != .greet || decide (s.now + n ≤ s.last + c.late))

/-- The test in check_delay, concurrent_client.cpp:41: connected, and more than max_delay since last_send_time was started. -/
def Dw.tooLate (c : DwCfg) (s : Dw) : Bool := s.up && decide (c.max < s.now - s.last)

/-- force_shutdown() in check_delay, concurrent_client.cpp:43; without an argument it gives up reconnecting, tcp/client_socket.h:91-101. -/
def Dw.giveUp (s : Dw) : Dw := { s with up := false, over := true }

/-- send_msg(..., true) and direct_send_msg(..., true): the message is queued, concurrent_client.cpp:65, 99. -/
def Dw.send (s : Dw) : Dw := { s with queue := s.queue ++ [s.next], next := s.next + 1 }

/-- One step. connect, greet: on_connect, concurrent_client.cpp:55-71 (last_send_time is started, then the message is sent, then the timer is set). write: do_send_msg, tcp/socket.h:376-408; it needs is_ready() (tcp/socket.h:89).
take: on_msg and handle_msg up to check_delay(true), concurrent_client.cpp:75-81, 99, 38-53. reply: direct_send_msg, concurrent_client.cpp:99. timer: check_delay(false), concurrent_client.cpp:68, 38-53: the timer goes on if it returns true.
close: close() stops all timers (socket.h:443) and keeps the send buffer; what is on its way is lost with the link. -/
def Dw.step (c : DwCfg) (s : Dw) : DwAct → Option (Dw × List DwEv)
  | .pass n => if s.canPass c n then some ({ s with now := s.now + n }, []) else none
  | .connect =>
    if s.opened = false ∧ s.over = false ∧ s.pc = .idle then some ({ s with opened := true, up := true, last := s.now, pc := .greet }, [.up s.now]) else none
  | .greet => if s.pc = .greet then some ({ s.send with pc := .idle, due := some (s.now + c.period) }, [.sent s.next s.now]) else none
  | .write ok =>
    if s.up then
      match s.queue with
      | [] => none
      | i :: q => if ok then some ({ s with queue := q, air := s.air ++ [i] }, []) else some ({ s with queue := q }, [.gone i])
    else none
  | .take =>
    if s.opened = true ∧ s.pc = .idle then
      match s.air with
      | [] => none
      | i :: r =>
        if s.tooLate c then some ({ s.giveUp with air := r }, [.late i s.now])
        else some ({ s with air := r, last := s.now, pc := .reply }, [if s.up then .back i s.now else .after i s.now])
    else none
  | .reply => if s.pc = .reply then some ({ s.send with pc := .idle }, [.sent s.next s.now]) else none
  | .timer =>
    match s.due with
    | some d =>
      if d ≤ s.now then
        if s.tooLate c then some ({ s.giveUp with due := none }, [.shut s.now]) else some ({ s with due := some (s.now + c.period) }, [])
      else none
    | none => none
  | .lose => if s.up then some ({ s with up := false }, [.down s.now]) else none
  | .close =>
    if s.opened = true ∧ s.up = false ∧ s.pc = .idle then some ({ s with opened := false, due := none, air := [] }, s.air.map .gone) else none

/-- Runs whose steps all meet p. -/
inductive Dw.Run (c : DwCfg) (p : Dw → DwAct → Bool) : Dw → List DwAct → Dw → List DwEv → Prop
  | nil (s : Dw) : Dw.Run c p s [] s []
  | snoc {s s1 s2 : Dw} {as : List DwAct} {a : DwAct} {es fs : List DwEv} : Dw.Run c p s as s1 es → p s1 a = true → s1.step c a = some (s2, fs) → Dw.Run c p s (as ++ [a]) s2 (es ++ fs)

/-- Executes a list of steps that all meet p. -/
def Dw.exec (c : DwCfg) (p : Dw → DwAct → Bool) (s : Dw) : List DwAct → Option (Dw × List DwEv)
  | [] => some (s, [])
  | a :: as => if p s a then (s.step c a).bind fun r => (Dw.exec c p r.1 as).map fun q => (q.1, r.2 ++ q.2) else none

/-- No restriction. -/
def Dw.any (_ : Dw) (_ : DwAct) : Bool := true

/-- Nothing is left in the send buffer when the link is connected. -/
def Dw.clean (s : Dw) : DwAct → Bool
  | .connect => s.queue.isEmpty
  | _ => true

end StAsio
