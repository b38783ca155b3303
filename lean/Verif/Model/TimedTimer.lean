import Verif.Model.Timer
/-!
One timer of include/timer.h with the passage of time and with call backs that take time.

Two clocks, in ticks (`u` ticks are a millisecond): `mono` cannot be set, `sys` is the system clock, which can be set at any time. asio's timer uses the system clock
(boost::asio::system_timer) unless ST_ASIO_USE_STEADY_TIMER is defined (`steady`). `aligned`: ST_ASIO_ALIGNED_TIMER.

asio contract used: a wait expires only when its clock shows the expiry time or later; then, or when it is aborted by expires_after() or cancel(), its handler is queued. Queued handlers
may be run at any time, in any order, by any service thread, also while the call back of the same timer is running on another one.

Simplifications: create_or_update_timer without start is the same as change_timer_interval here (which call back is set is Model/Timer's business). Operations are atomic, as in Model/Timer.
The conversion of milliseconds to the clock's ticks does not overflow.
-/
set_option autoImplicit false
namespace StAsio

/-- An outstanding wait: expiry time on the timer's clock, seq, number of the start. -/
structure TtWait where
  dl : Int
  seq : Nat
  gen : Nat
  deriving DecidableEq, Repr

/-- A running call back: when it began on both clocks, and prev_seq. -/
structure TtCall where
  mono : Nat
  sys : Int
  seq : Nat
  deriving DecidableEq, Repr

/-- timer_info, timer.h:55-69, and the two clocks. -/
structure Tt where
  mono : Nat
  sys : Int
  status : TStatus
  interval : Nat
  hasCb : Bool
  seq : Nat
  armed : Option TtWait
  queue : List TWait
  calls : List TtCall
  gen : Nat
  /-- integer division by zero -/
  crashed : Bool
  deriving DecidableEq, Repr

/-- timer.h:66 -/
def Tt.init (mono : Nat) (sys : Int) : Tt :=
  { mono, sys, status := .created, interval := 0, hasCb := false, seq := 255, armed := none, queue := [], calls := [], gen := 0, crashed := false }

inductive TtEv where
  /-- set_timer or start_timer, called by the program at this time; the timer is to expire after so many milliseconds -/
  | start (t ms : Nat)
  /-- the library starts the timer again at `t`, after a call back which began at `began` and returned true -/
  | again (began t ms : Nat)
  | stop (t : Nat)
  | interval (ms : Nat)
  | clock
  /-- the wait expired, its handler is queued -/
  | expired
  /-- the handler ran but did not invoke the call back -/
  | skipped
  /-- the call back was invoked, because of the start number `g` -/
  | fired (t g : Nat)
  | ended (t : Nat) (ret : Bool)
  | crash
  deriving DecidableEq, Repr

/-- The timer's clock, timer.h:45-49 -/
def Tt.clock (steady : Bool) (s : Tt) : Int := if steady then s.mono else s.sys

/-- asio: the outstanding wait is aborted. -/
def Tt.abort (s : Tt) : Tt :=
  match s.armed with
  | none => s
  | some w => { s with armed := none, queue := s.queue ++ [⟨false, w.seq, w.gen⟩] }

/-- start_timer(timer_info&, unsigned), timer.h:157-173, with a call back set -/
def Tt.startMs (u : Nat) (steady : Bool) (ms : Nat) (s : Tt) : Tt :=
  let s := Tt.abort { s with status := .started }
  let seq := (s.seq + 1) % 256
  { s with seq, gen := s.gen + 1, armed := some ⟨s.clock steady + (ms * u : Nat), seq, s.gen + 1⟩ }

/-- timer.h:184: milliseconds of the call back, rounded towards zero, as unsigned -/
def elapsedMs (u : Nat) (begin end_ : Int) : Nat := ((Int.tdiv (end_ - begin) u) % 4294967296).toNat

/-- timer.h:184-188: how long to wait after a call back which began and ended at these times; none: division by zero -/
def alignedWait (u interval : Nat) (begin end_ : Int) : Option Nat :=
  let e := elapsedMs u begin end_
  if e > interval then
    if interval = 0 then none else some (interval - e % interval)
  else some (interval - e)

inductive TtAct where
  | tick (d : Nat)
  | setClock (x : Int)
  /-- set_timer with this interval -/
  | set (ms : Nat)
  | start
  | stop
  | changeInterval (ms : Nat)
  | expire
  /-- the i-th queued handler begins -/
  | run (i : Nat)
  /-- the i-th running call back returns -/
  | finish (i : Nat) (ret : Bool)
  deriving DecidableEq, Repr

/-- One action of a process that did not crash. -/
def Tt.live (u : Nat) (steady aligned : Bool) (s : Tt) : TtAct → Option (Tt × List TtEv)
  | .tick d => some ({ s with mono := s.mono + d, sys := s.sys + d }, [])
  | .setClock x => some ({ s with sys := x }, [.clock])
  | .set ms => -- timer.h:95-118, 130; interval is an unsigned
    some (Tt.startMs u steady (ms % 4294967296) { s with interval := ms % 4294967296, hasCb := true }, [.start s.mono (ms % 4294967296)])
  | .start => -- timer.h:144
    if s.hasCb then some (Tt.startMs u steady s.interval s, [.start s.mono s.interval]) else some (s, [])
  | .stop => -- timer.h:145, 197-205
    some (if s.status = .started then Tt.abort { s with status := .canceled } else s, [.stop s.mono])
  | .changeInterval ms => some ({ s with interval := ms % 4294967296 }, [.interval (ms % 4294967296)]) -- timer.h:123
  | .expire => match s.armed with
    | none => none
    | some w => if w.dl ≤ s.clock steady then some ({ s with armed := none, queue := s.queue ++ [⟨true, w.seq, w.gen⟩] }, [.expired]) else none
  | .run i => -- timer_handler up to the call back, timer.h:175-183, 190
    match s.queue[i]? with
    | none => none
    | some w =>
      let s' := { s with queue := s.queue.eraseIdx i }
      if s.status = .started ∧ w.ok then some ({ s' with calls := s.calls ++ [⟨s.mono, s.sys, w.seq⟩] }, [.fired s.mono w.gen])
      else some (if w.seq = s.seq then { s' with status := .canceled } else s', if w.ok then [.skipped] else [])
  | .finish i ret => -- timer_handler behind the call back, timer.h:182-194
    match s.calls[i]? with
    | none => none
    | some k =>
      let s' := { s with calls := s.calls.eraseIdx i }
      if ret ∧ s.status = .started then
        match (if aligned then alignedWait u s.interval k.sys s.sys else some s.interval) with
        | none => some ({ s' with crashed := true }, [.ended s.mono ret, .crash])
        | some ms => some (Tt.startMs u steady ms s', [.ended s.mono ret, .again k.mono s.mono ms])
      else some (if k.seq = s.seq then { s' with status := .canceled } else s', [.ended s.mono ret])

/-- After a division by zero nothing happens any more. -/
def Tt.step (u : Nat) (steady aligned : Bool) (s : Tt) (a : TtAct) : Option (Tt × List TtEv) := if s.crashed then none else s.live u steady aligned a

inductive Tt.Run (u : Nat) (steady aligned : Bool) : Tt → List TtAct → Tt → List TtEv → Prop where
  | nil (s : Tt) : Tt.Run u steady aligned s [] s []
  | snoc (s s1 s2 : Tt) (as : List TtAct) (a : TtAct) (es es' : List TtEv) :
      Tt.Run u steady aligned s as s1 es → Tt.step u steady aligned s1 a = some (s2, es') → Tt.Run u steady aligned s (as ++ [a]) s2 (es ++ es')

def Tt.exec (u : Nat) (steady aligned : Bool) : Tt → List TtAct → Option (Tt × List TtEv)
  | s, [] => some (s, [])
  | s, a :: as => do
    let (s, es) ← Tt.step u steady aligned s a
    let (s, es') ← Tt.exec u steady aligned s as
    return (s, es ++ es')

end StAsio
