import Verif.Spec.MultiService
/-!
A service_pump with one multi_socket_service: include/socket_service.h:58-91 (init, del_socket, add_socket), include/tcp/client.h:46-94 and include/udp/socket_service.h:35-66 (add_socket, shutting down, uninit), include/service_pump.h:33-34 (start_service, stop_service of
i_service), 270-321 (start_service, stop_service, run_service, end_service), 380-428 (do_service, wait_service), include/object_pool.h:62-114 (add_object, del_object, finalize), include/socket.h:150-162 (start), include/base.h:662-663 (do_something_to_all).

Any number of threads call add_socket; its steps are separate. One thread controls the pump. Iterating over the pool holds its mutex, so it is one step as far as the pool is concerned.

Simplifications: start() is one step (Model/Lifecycle has its inner steps); closing is one step, at the end of which the socket leaves the pool (without ST_ASIO_CLEAR_OBJECT_INTERVAL). Reconnecting is not modelled: a client whose link breaks either stays live or closes.
The io_context runs out of work exactly if no socket is live and nothing else keeps it going (`guard`: ST_ASIO_AVOID_AUTO_STOP_SERVICE). finalize clears the pool without its mutex (object_pool.h:114): an add_object at the very same moment is a data race, here the two come one after the other. max_size is not modelled (Model/ObjectPool has it).
-/
set_option autoImplicit false
namespace StAsio

/-- Where the controlling thread is. -/
inductive MsPc where
  | idle
  /-- do_service behind `started = true`, service_pump.h:401 -/
  | restart
  /-- behind io_context.restart(), line 406 or 408 -/
  | init
  /-- behind end_service(), in wait_service: line 416 -/
  | waiting
  /-- behind finalize, line 421 -/
  | final
  deriving DecidableEq, Repr

structure Ms where
  /-- sockets created so far -/
  n : Nat
  /-- object_can -/
  pool : List Nat
  /-- started and not yet closed -/
  live : List Nat
  /-- live and shutting down -/
  shut : List Nat
  /-- add_socket calls behind add_object -/
  adders : List Nat
  /-- add_socket calls behind is_service_started(), which said yes -/
  starters : List Nat
  /-- `started` of service_pump -/
  on : Bool
  /-- `started_` of the service -/
  up : Bool
  /-- the io_context is stopped -/
  ioStopped : Bool
  pc : MsPc
  deriving DecidableEq, Repr

/-- A new pump: an io_context that never ran is not stopped. -/
def Ms.init : Ms := { n := 0, pool := [], live := [], shut := [], adders := [], starters := [], on := false, up := false, ioStopped := false, pc := .idle }

/-- `early` in remove, closed and finalize tells whether add_socket is still at work on a socket that leaves the pool. -/
inductive MsAct where
  /-- create_object and add_object -/
  | add
  /-- is_service_started() in add_socket -/
  | addCheck (k : Nat)
  /-- socket_ptr->start() in add_socket -/
  | addStart (k : Nat) (ok : Bool)
  | pumpStart
  | restart
  /-- i_service::start_service; `fail`: the sockets whose do_start() fails -/
  | initAll (fail : List Nat)
  /-- disconnect(socket_ptr), force_shutdown(socket_ptr): out of the pool, then shut down -/
  | remove (early : Bool) (k : Nat)
  /-- del_socket(id): out of the pool only -/
  | del (k : Nat)
  /-- the link breaks, or the user shuts the socket down -/
  | brk (k : Nat)
  | closed (early : Bool) (k : Nat)
  /-- stop_service(service), start_service(service) -/
  | svcStop
  | svcStart (fail : List Nat)
  | stop
  | ioStop
  | finalize (early : Bool)
  | off
  deriving DecidableEq, Repr

/-- add_socket has not yet finished with socket k -/
def Ms.pending (s : Ms) (k : Nat) : Bool := decide (k ∈ s.adders ∨ k ∈ s.starters)

/-- socket::start(), socket.h:150-162. A socket that is closing has started_ = false, but TIMER_DELAY_CLOSE is set: nothing happens. -/
def Ms.start (s : Ms) (k : Nat) (ok : Bool) : Ms × List SkEv :=
  if s.ioStopped then (s, [])
  else if k ∈ s.live then (s, [.startCalled k])
  else if ok then ({ s with live := k :: s.live }, [.startCalled k, .started k])
  else (s, [.startCalled k])

/-- do_something_to_all(start), socket_service.h:60. -/
def Ms.startAll (fail : List Nat) : Ms → List Nat → Ms × List SkEv
  | s, [] => (s, [])
  | s, k :: ks =>
    let r := s.start k (!fail.contains k)
    let r2 := Ms.startAll fail r.1 ks
    (r2.1, r.2 ++ r2.2)

/-- The sockets of the pool that can be shut down. -/
def Ms.toShut (s : Ms) : List Nat := s.pool.filter (fun k => decide (k ∈ s.live ∧ k ∉ s.shut))

/-- uninit, tcp/client.h:94, udp/socket_service.h:66: stop the timers of the pool, force_shutdown all. -/
def Ms.shutAll (s : Ms) : Ms × List SkEv := ({ s with shut := s.toShut ++ s.shut }, s.toShut.map SkEv.shut)

/-- `guard`: the io_context does not stop on its own before stop_service() -/
def Ms.step (guard : Bool) (s : Ms) : MsAct → Option (Ms × List SkEv)
  | .add => some ({ s with n := s.n + 1, pool := s.n :: s.pool, adders := s.n :: s.adders }, [.added s.n]) -- socket_service.h:81
  | .addCheck k => -- socket_service.h:84
    if k ∈ s.adders then some ({ s with adders := s.adders.filter (· ≠ k), starters := if s.on then k :: s.starters else s.starters }, []) else none
  | .addStart k ok => -- socket_service.h:85
    if k ∈ s.starters then
      let r := { s with starters := s.starters.filter (· ≠ k) }.start k ok
      some r
    else none
  | .pumpStart => if s.pc = .idle ∧ s.on = false then some ({ s with on := true, pc := .restart }, []) else none -- service_pump.h:270, 401
  | .restart => if s.pc = .restart then some ({ s with ioStopped := false, pc := .init }, []) else none -- lines 404-409
  | .initAll fail => -- lines 410 and 33; socket_service.h:58-63
    if s.pc ≠ .init then none
    else if s.up then some ({ s with pc := .idle }, [])
    else
      let r := Ms.startAll fail s s.pool
      some ({ r.1 with up := true, pc := .idle }, r.2)
  | .remove early k => -- tcp/client.h:86-90, udp/socket_service.h:58-62
    if k ∈ s.pool ∧ early = s.pending k then
      if k ∈ s.live ∧ k ∉ s.shut then some ({ s with pool := s.pool.filter (· ≠ k), shut := k :: s.shut }, [.shut k]) else some ({ s with pool := s.pool.filter (· ≠ k) }, [])
    else none
  | .del k => if k ∈ s.pool then some ({ s with pool := s.pool.filter (· ≠ k) }, []) else none -- socket_service.h:73
  | .brk k => if k ∈ s.live ∧ k ∉ s.shut ∧ s.ioStopped = false then some ({ s with shut := k :: s.shut }, [.shut k]) else none
  | .closed early k => -- socket.h:800-807, udp/socket.h:237, tcp/client_socket.h:163: the socket leaves the pool
    if k ∈ s.shut ∧ early = s.pending k then some ({ s with live := s.live.filter (· ≠ k), shut := s.shut.filter (· ≠ k), pool := s.pool.filter (· ≠ k) }, [.closed k]) else none
  | .svcStop => -- service_pump.h:296, 34
    if s.pc = .idle ∧ s.on ∧ s.up then
      let r := s.shutAll
      some ({ r.1 with up := false }, r.2)
    else none
  | .svcStart fail => -- service_pump.h:282-290, 33
    if s.pc = .idle ∧ s.on then
      if s.up then some (s, [])
      else
        let r := Ms.startAll fail s s.pool
        some ({ r.1 with up := true }, r.2)
    else none
  | .stop => -- service_pump.h:272-279, 311-321
    if s.pc = .idle ∧ s.on then
      if s.up then
        let r := s.shutAll
        some ({ r.1 with up := false, pc := .waiting }, .stopCalled :: r.2)
      else some ({ s with pc := .waiting }, [.stopCalled])
    else none
  | .ioStop => -- io_context::run() returns in all threads
    if s.live = [] ∧ s.on ∧ s.ioStopped = false ∧ (s.pc = .waiting ∨ (s.pc = .idle ∧ guard = false)) then some ({ s with ioStopped := true }, []) else none
  | .finalize early => -- lines 416-421; in run_service without stop_service, too
    if s.ioStopped ∧ s.on ∧ (s.pc = .waiting ∨ s.pc = .idle) ∧ early = s.pool.any s.pending then some ({ s with pool := [], pc := .final }, []) else none
  | .off => if s.pc = .final then some ({ s with on := false, pc := .idle }, [.pumpDown]) else none -- line 423

inductive Ms.Run (guard : Bool) : Ms → List MsAct → Ms → List SkEv → Prop where
  | nil (s : Ms) : Ms.Run guard s [] s []
  | snoc (s s1 s2 : Ms) (as : List MsAct) (a : MsAct) (es es' : List SkEv) : Ms.Run guard s as s1 es → Ms.step guard s1 a = some (s2, es') → Ms.Run guard s (as ++ [a]) s2 (es ++ es')

def Ms.exec (guard : Bool) : Ms → List MsAct → Option (Ms × List SkEv)
  | s, [] => some (s, [])
  | s, a :: as => do
    let (s, es) ← s.step guard a
    let (s, es') ← Ms.exec guard s as
    return (s, es ++ es')

end StAsio
