/-!
Model of the timer table (include/timer.h) on top of asio timers.

asio contract used: a wait started by async_wait completes exactly once, with success after the expiry time, or with operation_aborted when expires_after() or cancel() is called
before it expired; a wait that already expired (its handler is queued) is not affected by them. Handlers are run in any order.

Every start of a timer is one *schedule*; schedules of a timer are numbered 1, 2, ... (`gen`, history only; the code has `seq`, an unsigned char).

Simplifications: time is not modelled (an armed timer may expire at any time). Each operation, and each of the two parts of timer_handler around the call back, is atomic: the header says (timer.h:29)
that manipulating the same timer from several threads is not thread safe; Model/TimerRace looks at what the library itself does across threads.
change_timer_status is only modelled for TIMER_CANCELED (the only use in the library). ST_ASIO_ALIGNED_TIMER only changes the interval of a restart. Running out of memory
in create_or_update_timer is left out.
-/
set_option autoImplicit false
namespace StAsio

/-- timer_info::timer_status, timer.h:57 -/
inductive TStatus where
  | created | started | canceled
  deriving DecidableEq, Repr

/-- A completed wait whose handler was not run yet. -/
structure TWait where
  /-- not aborted -/
  ok : Bool
  seq : Nat
  gen : Nat
  deriving DecidableEq, Repr

/-- timer_info, timer.h:55-69. `cb` names the call back. -/
structure Tm where
  id : Nat
  seq : Nat
  status : TStatus
  interval : Nat
  cb : Option Nat
  /-- outstanding wait: its seq and schedule -/
  armed : Option (Nat × Nat)
  queue : List TWait
  gen : Nat
  deriving DecidableEq, Repr

/-- timer.h:66 -/
def Tm.new (id : Nat) : Tm := { id, seq := 255, status := .created, interval := 0, cb := none, armed := none, queue := [], gen := 0 }

/-- asio: the outstanding wait is aborted. -/
def Tm.abort (t : Tm) : Tm :=
  match t.armed with
  | none => t
  | some (q, g) => { t with armed := none, queue := t.queue ++ [⟨false, q, g⟩] }

/-- start_timer(timer_info&), timer.h:157-173. The second component is the return value. -/
def Tm.start (t : Tm) : Tm × Bool :=
  match t.cb with
  | none => (t, false)
  | some _ =>
    let t := Tm.abort { t with status := .started }
    let seq := (t.seq + 1) % 256
    ({ t with seq, gen := t.gen + 1, armed := some (seq, t.gen + 1) }, true)

/-- stop_timer(timer_info&), timer.h:197-205 -/
def Tm.stop (t : Tm) : Tm := if t.status = .started then Tm.abort { t with status := .canceled } else t

abbrev Tms := List Tm

/-- find_timer, timer.h:133-141 -/
def Tms.find (l : Tms) (id : Nat) : Option Tm := List.find? (fun t => t.id == id) l

/-- An update through the pointer found. -/
def Tms.modify (id : Nat) (f : Tm → Tm) : Tms → Tms
  | [] => []
  | t :: l => if t.id = id then f t :: l else t :: Tms.modify id f l

/-- Operations on the table, from outside or from call backs. -/
inductive TOp where
  /-- create_or_update_timer; set_timer is the one with `start = true` -/
  | createOrUpdate (id interval cb : Nat) (start : Bool)
  | start (id : Nat)
  | stop (id : Nat)
  | stopAll
  | stopAllBut (id : Nat)
  | cancelStatus (id : Nat)
  | changeInterval (id interval : Nat)
  | changeCallBack (id cb : Nat)
  deriving DecidableEq, Repr

def Tms.op (l : Tms) : TOp → Tms
  | .createOrUpdate id interval cb start => -- timer.h:95-118
    let l := match l.find id with
      | none => l ++ [Tm.new id]
      | some _ => l
    let l := Tms.modify id (fun t => { t with interval, cb := some cb }) l
    if start then Tms.modify id (fun t => t.start.1) l else l
  | .start id => Tms.modify id (fun t => t.start.1) l -- timer.h:144
  | .stop id => Tms.modify id Tm.stop l -- timer.h:145
  | .stopAll => l.map Tm.stop -- timer.h:146
  | .stopAllBut id => l.map (fun t => if t.id ≠ id then t.stop else t) -- timer.h:147-151
  | .cancelStatus id => Tms.modify id (fun t => { t with status := .canceled }) l -- timer.h:122
  | .changeInterval id interval => Tms.modify id (fun t => { t with interval }) l -- timer.h:123
  | .changeCallBack id cb => Tms.modify id (fun t => { t with cb := some cb }) l -- timer.h:126

inductive TEv where
  /-- call back `cb` of timer `id` invoked because schedule `gen` expired -/
  | fired (id gen cb : Nat)
  /-- call back missing -/
  | bad
  deriving DecidableEq, Repr

inductive TAct where
  | op (o : TOp)
  /-- the outstanding wait of the timer expires -/
  | expire (id : Nat)
  /-- the i-th queued handler of the timer runs; if it invokes the call back, the call back does `script` and returns `ret` -/
  | run (id i : Nat) (script : List TOp) (ret : Bool)
  deriving DecidableEq, Repr

/-- The part of timer_handler behind the call back, timer.h:190-194. -/
def Tm.after (q : Nat) (ret : Bool) (t : Tm) : Tm :=
  if ret ∧ t.status = .started then t.start.1 else if q = t.seq then { t with status := .canceled } else t

def Tms.step (l : Tms) : TAct → Option (Tms × List TEv)
  | .op o => some (l.op o, [])
  | .expire id => match l.find id with
    | none => none
    | some t => match t.armed with
      | none => none
      | some (q, g) => some (Tms.modify id (fun t => { t with armed := none, queue := t.queue ++ [⟨true, q, g⟩] }) l, [])
  | .run id i script ret => match l.find id with -- timer_handler, timer.h:175-195
    | none => none
    | some t => match t.queue[i]? with
      | none => none
      | some w =>
        let l := Tms.modify id (fun t => { t with queue := t.queue.eraseIdx i }) l
        if t.status = .started ∧ w.ok then
          match t.cb with
          | none => some (l, [.bad])
          | some cb => some (Tms.modify id (Tm.after w.seq ret) (script.foldl Tms.op l), [.fired id w.gen cb])
        else some (Tms.modify id (Tm.after w.seq false) l, [])

inductive Tms.Run : Tms → List TAct → Tms → List TEv → Prop where
  | nil (s : Tms) : Tms.Run s [] s []
  | snoc (s s1 s2 : Tms) (as : List TAct) (a : TAct) (es es' : List TEv) :
      Tms.Run s as s1 es → Tms.step s1 a = some (s2, es') → Tms.Run s (as ++ [a]) s2 (es ++ es')

def Tms.exec : Tms → List TAct → Option (Tms × List TEv)
  | s, [] => some (s, [])
  | s, a :: as => do
    let (s, es) ← Tms.step s a
    let (s, es') ← Tms.exec s as
    return (s, es ++ es')

end StAsio
