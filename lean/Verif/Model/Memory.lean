import Verif.Spec.Memory
/-!
The life of one socket object of an object pool, from its construction until its memory is freed: include/object_pool.h:62-114 (add_object, del_object, finalize), 182-189 (reuse_object), 255-348 (invalid_object_pop,
clear_obsoleted_object, free_object), include/socket.h:75-98 (reset), 143 (obsoleted), 150-162 (start), 428-467 (close), 781-818 (timer_handler) and include/tracked_executor.h.

The handlers of a socket are bound to its plain `this` (e.g. tcp/socket.h, timer.h:170), so nothing but the pool keeps it alive for them. They do hold a copy of `aci` (ST_ASIO_DELAY_CLOSE == 0, `tracked`), and
obsoleted() looks whether there is any.

The object is shared by: object_can (`valid`), invalid_object_can (`invalid`), local variables of del_object and clear_obsoleted_object on the way from one to the other (`moving`), and by everybody else (`user`): the creator,
pending accepts, results of find(), pointers got by shared_from_this() in call backs. It is destroyed with the last one.

`calls` are its pending or running handlers other than that of the closing timer, which is `dc`, then `fin` (behind change_timer_status) and then `tail` (behind `obsoleted_ = true`: the rest of timer::timer_handler, timer.h:193-194).

Simplifications: start() and close() are atomic (Model/Lifecycle interleaves them), so is one handler; a handler that runs when the io_contexts are stopped counts as run before. Running out of memory in emplace_back, which
drops the object (object_pool.h:85, 107, 295), is left out; so are init_object_id and change_object_id (C36). A TCP client is not obsoleted() as long as it is to reconnect (tcp/client_socket.h:68): here it may be, as if set_reconnect(false) had been called before.
-/
set_option autoImplicit false
namespace StAsio

/-- TIMER_DELAY_CLOSE: not started, started, its handler is in on_close -/
inductive OmDc where
  | none | armed | closing
  deriving DecidableEq, Repr

structure Om where
  alive : Bool
  valid : Bool
  invalid : Bool
  moving : Nat
  user : Nat
  /-- a thread in free_object or invalid_object_pop, with invalid_object_can_mutex, saw that unique() is true -/
  chk : Bool
  /-- started_ -/
  up : Bool
  calls : Nat
  dc : OmDc
  fin : Nat
  tail : Nat
  /-- obsoleted_ -/
  obsoleted : Bool
  /-- `aci` of tracked_executor.h:76-89 -/
  calling : Bool
  /-- the io_contexts are stopped -/
  stopped : Bool
  deriving DecidableEq, Repr

/-- make_shared in create_object, object_pool.h:167-195 -/
def Om.init : Om where
  alive := true
  valid := false
  invalid := false
  moving := 0
  user := 1
  chk := false
  up := false
  calls := 0
  dc := .none
  fin := 0
  tail := 0
  obsoleted := false
  calling := false
  stopped := false

/-- Handlers pending or running, each with a copy of `aci`. -/
def Om.pending (s : Om) : Nat := s.calls + (if s.dc = .none then 0 else 1) + s.fin + s.tail

/-- One of the pool's containers, or a function of the pool, has the object. -/
def Om.pooled (s : Om) : Bool := s.valid || s.invalid || decide (0 < s.moving)

/-- obsoleted(), socket.h:143, tracked_executor.h:58, 83 -/
def Om.isObsoleted (tracked : Bool) (s : Om) : Bool := s.obsoleted && if tracked then s.pending == 0 else !s.calling

/-- Some code can call functions of the object: who has a pointer, a loop over object_can, a call back of the object. -/
def Om.reachable (s : Om) : Bool := s.alive && (decide (0 < s.user) || s.valid || decide (0 < s.calls) || decide (s.dc = .closing) || decide (0 < s.fin))

/-- A shared_ptr was dropped: the last one destroys the object. -/
def Om.settle (s : Om) : Om × List OmEv :=
  if s.alive ∧ s.valid = false ∧ s.invalid = false ∧ s.moving = 0 ∧ s.user = 0 then ({ s with alive := false }, [.freed s.pending]) else (s, [])

/-- A handler touches the object. -/
def Om.touch (s : Om) : OmEv := if s.alive then .ran else .wild

/-- No handler is running: after join_all (service_pump.h:418). -/
def Om.joined (s : Om) : Bool := s.stopped && decide (s.dc ≠ .closing) && s.fin == 0 && s.tail == 0

inductive OmAct where
  /-- add_object succeeds -/
  | add
  /-- another pointer: find(), at(), invalid_object_find(), or shared_from_this() in a call back -/
  | take
  | drop
  /-- start(); do_start() returns `ok` and begins `k` asynchronous calls -/
  | start (ok : Bool) (k : Nat)
  /-- an asynchronous call begins: send_msg, set_timer, post, ... -/
  | begin
  /-- a pending handler runs -/
  | run
  /-- close(), from force_shutdown, an error or a stopping service -/
  | close
  /-- the closing timer expired, its handler runs to on_close -/
  | dcRun
  | dcCancel
  | dcEnd
  | tailEnd
  /-- del_object: erased from object_can -/
  | del
  /-- the same in clear_obsoleted_object -/
  | sweep
  /-- put into invalid_object_can -/
  | bury
  /-- unique() is true -/
  | popCheck
  /-- obsoleted() is false -/
  | popFail
  /-- obsoleted() is true: freed by free_object -/
  | popFree
  /-- obsoleted() is true: reused -/
  | popReuse
  /-- the io_contexts stop: out of work, or stop() -/
  | stop
  /-- after stop_service(): finalize() -/
  | finalize
  /-- after stop_service(): the pool is destroyed -/
  | freePool
  /-- start_service() -/
  | startPump
  deriving DecidableEq, Repr

/-- `tracked` is ST_ASIO_DELAY_CLOSE == 0. -/
def Om.step (tracked : Bool) (s : Om) : OmAct → Option (Om × List OmEv)
  | .add => -- object_pool.h:62-70
    if s.alive ∧ 0 < s.user ∧ s.pooled = false then some ({ s with valid := true }, []) else none
  | .take => -- object_pool.h:217-230, 239-252; tcp/server_socket.h:71
    if s.alive ∧ (s.valid ∨ (s.invalid ∧ s.chk = false) ∨ 0 < s.calls ∨ s.dc = .closing ∨ 0 < s.fin) then some ({ s with user := s.user + 1 }, []) else none
  | .drop => if 0 < s.user then some (Om.settle { s with user := s.user - 1 }) else none
  | .start ok k => -- socket.h:150-162
    if s.reachable = false then none
    else if ok = true ∧ s.up = false ∧ s.dc = .none ∧ s.stopped = false then some ({ s with up := true, calls := s.calls + k }, [.started])
    else some (s, [])
  | .begin => if s.reachable then some ({ s with calls := s.calls + 1 }, []) else none
  | .run => if 0 < s.calls ∧ s.stopped = false then some ({ s with calls := s.calls - 1 }, [s.touch]) else none
  | .close => -- socket.h:428-467
    if s.reachable = false then none
    else if s.up = false then some (s, [])
    else if s.stopped then some ({ s with up := false, obsoleted := true }, [.onClose])
    else some ({ s with up := false, dc := .armed, calling := true }, [])
  | .dcRun => -- socket.h:788-806, tracked_executor.h:59-66, 84
    if s.dc = .armed ∧ s.stopped = false then
      if tracked = true ∧ 0 < s.calls + s.fin + s.tail then some (s, [s.touch])
      else some ({ s with dc := .closing }, [s.touch, .onClose])
    else none
  | .dcCancel => if s.dc = .closing then some ({ s with dc := .none, fin := s.fin + 1 }, [s.touch]) else none -- socket.h:807
  | .dcEnd => if 0 < s.fin then some ({ s with fin := s.fin - 1, tail := s.tail + 1, calling := false, obsoleted := true }, [s.touch]) else none -- socket.h:809-810
  | .tailEnd => if 0 < s.tail then some ({ s with tail := s.tail - 1 }, [s.touch]) else none -- timer.h:193-194
  | .del => if s.valid then some ({ s with valid := false, moving := s.moving + 1 }, []) else none -- object_pool.h:78-80, 95-102
  | .sweep => if s.valid = true ∧ s.isObsoleted tracked = true then some ({ s with valid := false, moving := s.moving + 1 }, []) else none -- object_pool.h:291-300
  | .bury => if 0 < s.moving ∧ s.chk = false then some ({ s with moving := s.moving - 1, invalid := true }, []) else none -- object_pool.h:82-86, 104-108, 307-308
  | .popCheck => -- object_pool.h:259, 273, 334
    if s.invalid = true ∧ s.chk = false ∧ s.user = 0 ∧ s.moving = 0 ∧ s.valid = false then some ({ s with chk := true }, []) else none
  | .popFail => if s.chk = true ∧ s.isObsoleted tracked = false then some ({ s with chk := false }, []) else none
  | .popFree => -- object_pool.h:334-338
    if s.chk = true ∧ s.isObsoleted tracked = true then some (Om.settle { s with chk := false, invalid := false }) else none
  | .popReuse => -- object_pool.h:182-189, 273-278, socket.h:75-98
    if s.chk = true ∧ s.isObsoleted tracked = true then
      if s.dc = .none then some ({ s with chk := false, invalid := false, user := s.user + 1, obsoleted := false }, [.reused s.pending s.user s.up])
      else some ((Om.settle { s with chk := false, invalid := false }).1, .threw :: (Om.settle { s with chk := false, invalid := false }).2)
    else none
  | .stop => some ({ s with stopped := true }, []) -- service_pump.h:268
  | .finalize => if s.joined then some (Om.settle { s with valid := false }) else none -- service_pump.h:421, object_pool.h:114
  | .freePool => if s.joined = true ∧ s.chk = false ∧ s.moving = 0 then some (Om.settle { s with valid := false, invalid := false }) else none
  | .startPump => some ({ s with stopped := false }, []) -- service_pump.h:403-409

inductive Om.Run (tracked : Bool) : Om → List OmAct → Om → List OmEv → Prop where
  | nil (s : Om) : Om.Run tracked s [] s []
  | snoc (s s1 s2 : Om) (as : List OmAct) (a : OmAct) (es es' : List OmEv) : Om.Run tracked s as s1 es → s1.step tracked a = some (s2, es') → Om.Run tracked s (as ++ [a]) s2 (es ++ es')

def Om.exec (tracked : Bool) : Om → List OmAct → Option (Om × List OmEv)
  | s, [] => some (s, [])
  | s, a :: as => do
    let (s, es) ← s.step tracked a
    let (s, es') ← Om.exec tracked s as
    return (s, es ++ es')

/-- Runs in which every action is allowed by `p` in the state where it happens. -/
inductive Om.GoodRun (tracked : Bool) (p : Om → OmAct → Bool) : Om → List OmAct → Om → List OmEv → Prop where
  | nil (s : Om) : Om.GoodRun tracked p s [] s []
  | snoc (s s1 s2 : Om) (as : List OmAct) (a : OmAct) (es es' : List OmEv) : Om.GoodRun tracked p s as s1 es → p s1 a = true → s1.step tracked a = some (s2, es') → Om.GoodRun tracked p s (as ++ [a]) s2 (es ++ es')

def Om.goodExec (tracked : Bool) (p : Om → OmAct → Bool) : Om → List OmAct → Option (Om × List OmEv)
  | s, [] => some (s, [])
  | s, a :: as => do
    let (s, es) ← if p s a then s.step tracked a else none
    let (s, es') ← Om.goodExec tracked p s as
    return (s, es ++ es')

/-- What the safety of the memory takes.
* start(), close() and functions that begin asynchronous calls are used on sockets that are in the pool, the latter not while the io_contexts are stopped;
* the io_contexts stop because they are out of work (stop_service()), not because of stop();
* no call back leaves a new pointer behind between the tests of unique() and obsoleted(). -/
def Om.proper (s : Om) : OmAct → Bool
  | .start _ _ => s.pooled
  | .begin => s.pooled && !s.stopped
  | .close => s.pooled
  | .stop => s.pending == 0
  | .popFree => s.user == 0
  | .popReuse => s.user == 0
  | _ => true

/-- The same with the last condition put as a condition on whoever takes pointers, instead of on the moment of the second test: that there is no other pointer at that moment is then up to unique(). -/
def Om.properTake (s : Om) : OmAct → Bool
  | .take => !s.chk
  | .popFree => true
  | .popReuse => true
  | a => s.proper a

/-- The socket is not started again before it was reset: start() neither behind on_close nor on an obsoleted socket. -/
def Om.once (s : Om) : OmAct → Bool
  | .start _ _ => !s.obsoleted && s.fin == 0
  | _ => true

end StAsio
