import Verif.Spec.Services

/-!
# service_pump: the services and their life (include/service_pump.h:24-59, 216-321, 380-437, 524-534)

The calls of the public functions are taken one after the other (the code says that they are not thread safe); run_service is split in its beginning and its end. The answer of init() is chosen by the environment: the action lists the services
whose init() fails. Calling a pump function from init/uninit/finalize is not modelled (service_can_mutex is held and not recursive, so start_service/end_service would block forever).
-/

set_option autoImplicit false

namespace StAsio

/-- i_service (service_pump.h:24-59): id_, started_, and whether the object still exists. -/
structure Svc where
  id : Int
  started : Bool
  alive : Bool
  deriving Repr, DecidableEq

/-- service_pump: all services ever created (index = identity), service_can (service_pump.h:538) as list of identities, `started` (service_pump.h:537), whether run_service is blocked in its threads, and the number of io_contexts. `bad` is set when a started
service is destroyed: ~i_service calls stop_service, and so the pure virtual uninit(), from the destructor of the base class (service_pump.h:28). -/
structure Svcs where
  objs : List Svc
  reg : List Nat
  on : Bool
  blocked : Bool
  contexts : Nat
  bad : Bool
  deriving Repr, DecidableEq

/-- A pump without services (service_pump.h:96-137). -/
def Svcs.init (contexts : Nat) : Svcs := ⟨[], [], false, false, contexts, false⟩

/-- `service_started()` of service k. -/
def Svcs.up (s : Svcs) (k : Nat) : Bool := match s.objs[k]? with | some o => o.started | none => false

/-- `started_ = b` for service k. -/
def Svcs.mark (s : Svcs) (k : Nat) (b : Bool) : Svcs := { s with objs := s.objs.modify k (fun o => { o with started := b }) }

/-- i_service::start_service (service_pump.h:33): `if (!started_) started_ = init();` -/
def Svcs.startSvc (fail : List Nat) (s : Svcs) (k : Nat) : Svcs × List SvcEv := if s.up k then (s, []) else (s.mark k (!fail.contains k), [.init k (!fail.contains k)])

/-- i_service::stop_service (service_pump.h:34): `if (started_) uninit(); started_ = false;` -/
def Svcs.stopSvc (s : Svcs) (k : Nat) : Svcs × List SvcEv := if s.up k then (s.mark k false, [.uninit k]) else (s, [])

/-- i_service::finalize (service_pump.h:49). -/
def Svcs.finalSvc (s : Svcs) (k : Nat) : Svcs × List SvcEv := (s, [.finalize k])

/-- do_something_to_all (base.h:662-663): in the order of the container. -/
def Svcs.all (f : Svcs → Nat → Svcs × List SvcEv) : Svcs → List Nat → Svcs × List SvcEv
  | s, [] => (s, [])
  | s, k :: ks =>
    let (s1, e1) := f s k
    let (s2, e2) := Svcs.all f s1 ks
    (s2, e1 ++ e2)

inductive SvcAct
  | create (id : Int)                        -- i_service(), service_pump.h:27, 524-534
  | setId (k : Nat) (id : Int)               -- id(int), service_pump.h:37
  | destroy (k : Nat)                        -- ~i_service(), service_pump.h:28
  | removePtr (k : Nat)                      -- remove(object_type), service_pump.h:227-236
  | removeId (id : Int)                      -- remove(int), service_pump.h:238-254
  | clear                                    -- clear(), service_pump.h:256-265
  | start (threads : Int) (fail : List Nat)      -- start_service(thread_num), service_pump.h:270
  | run (threads : Int) (fail : List Nat)        -- run_service up to the blocking, service_pump.h:299-303
  | runEnd                                   -- all threads have run out: rest of run_service, service_pump.h:304
  | stop                                     -- stop_service(), service_pump.h:272-279
  | finish                                   -- end_service(), service_pump.h:311-321
  | startOne (k : Nat) (threads : Int) (fail : List Nat)  -- start_service(object_type), service_pump.h:282-290
  | stopOne (k : Nat)                        -- stop_service(object_type), service_pump.h:296
  deriving Repr, DecidableEq

/-- do_service (service_pump.h:380-412) without the threads. -/
def Svcs.doService (s : Svcs) (threads : Int) (fail : List Nat) : Svcs × List SvcEv :=
  if threads ≤ 0 ∨ threads.toNat < s.contexts then (s, []) else Svcs.all (Svcs.startSvc fail) { s with on := true } s.reg

/-- wait_service (service_pump.h:414-428): the threads have been joined, finalize all, `started = false`. -/
def Svcs.waitService (s : Svcs) : Svcs × List SvcEv :=
  let (s1, e1) := Svcs.all Svcs.finalSvc s s.reg
  ({ s1 with on := false, blocked := false }, e1)

/-- end_service (service_pump.h:311-321). -/
def Svcs.endService (s : Svcs) : Svcs × List SvcEv := if s.on then Svcs.all Svcs.stopSvc s s.reg else (s, [])

/-- find (service_pump.h:216-225): the first service with this id, in order of registration. -/
def Svcs.find (s : Svcs) (id : Int) : Option Nat := s.reg.find? (fun k => match s.objs[k]? with | some o => o.id == id | none => false)

/-- Service k exists. -/
def Svcs.exists? (s : Svcs) (k : Nat) : Bool := match s.objs[k]? with | some o => o.alive | none => false

/-- Taking service k out of the container and stopping it (service_pump.h:227-236, 430-436). -/
def Svcs.takeOut (s : Svcs) (k : Nat) : Svcs × List SvcEv := Svcs.stopSvc { s with reg := s.reg.filter (fun j => j != k) } k

/-- One call. Calls with a service that does not exist any more are not made. While run_service blocks, start/run do nothing (`started` is set) and stop_service is not called (the code says end_service is for this case). -/
def Svcs.step (s : Svcs) : SvcAct → Option (Svcs × List SvcEv)
  | .create id => some ({ s with objs := s.objs ++ [⟨id, false, true⟩], reg := s.reg ++ [s.objs.length] }, [])
  | .setId k id => if s.exists? k then some ({ s with objs := s.objs.modify k (fun o => { o with id := id }) }, []) else none
  | .destroy k =>
    if s.exists? k then
      if s.up k then some ({ s with bad := true }, [])
      else some ({ s with reg := s.reg.filter (fun j => j != k), objs := s.objs.modify k (fun o => { o with alive := false }) }, [])
    else none
  | .removePtr k => if s.exists? k then some (s.takeOut k) else none
  | .removeId id => match s.find id with | some k => some (s.takeOut k) | none => some (s, [])
  | .clear => some (Svcs.all Svcs.stopSvc { s with reg := [] } s.reg)
  | .start threads fail => if s.on then some (s, []) else some (s.doService threads fail)
  | .run threads fail =>
    if s.on then some (s, [])
    else if threads ≤ 0 ∨ threads.toNat < s.contexts then
      -- do_service reports an error and returns; wait_service is called nevertheless
      some s.waitService
    else
      let (s1, e1) := s.doService threads fail
      some ({ s1 with blocked := true }, e1)
  | .runEnd => if s.blocked then some s.waitService else none
  | .stop =>
    if s.blocked then none
    else if s.on then
      let (s1, e1) := s.endService
      let (s2, e2) := s1.waitService
      some (s2, e1 ++ e2)
    else some (s, [])
  | .finish => some s.endService
  | .startOne k threads fail =>
    if s.exists? k then
      if s.on then some (s.startSvc fail k) else some (s.doService threads fail)
    else none
  | .stopOne k => if s.exists? k then some (s.stopSvc k) else none

/-- Runs of the machine. -/
inductive Svcs.Run : Svcs → List SvcAct → Svcs → List SvcEv → Prop
  | nil (s : Svcs) : Svcs.Run s [] s []
  | snoc (s s1 s2 : Svcs) (as : List SvcAct) (a : SvcAct) (es fs : List SvcEv) : Svcs.Run s as s1 es → s1.bad = false → s1.step a = some (s2, fs) → Svcs.Run s (as ++ [a]) s2 (es ++ fs)

/-- Executes a list of calls. -/
def Svcs.exec (s : Svcs) : List SvcAct → Option (Svcs × List SvcEv)
  | [] => some (s, [])
  | a :: as => do
    if s.bad then none
    let (s1, e1) ← s.step a
    let (s2, e2) ← Svcs.exec s1 as
    pure (s2, e1 ++ e2)

end StAsio
