import Verif.Model.SendBuffer
import Verif.Spec.Broadcast
/-!
Functions that go over all sockets of a pool: broadcast_msg, broadcast_native_msg, safe_broadcast_msg, safe_broadcast_native_msg (include/base.h:799-809, include/tcp/server.h:184-189, include/tcp/client.h:75-80), force_shutdown() and uninit() (include/tcp/server.h:193-203,
include/tcp/client.h:88-94), do_something_to_all of object_pool (include/object_pool.h:354-355), and what takes the same mutex: add_object, del_object (lines 62-111). include/socket.h:428-467 (close), include/base.h:681-685 (safe sends).

Threads: `n` service threads run the handlers of the sockets, any number of other threads call the functions. Service threads are counted only as far as they matter: a handler that waits for the pool's mutex (on_close calls del_object), and a function that was called by a handler, occupy one.

Simplifications: a packed message is one element of the send buffer (C52 has the pieces). add_object and del_object are one step. Opening the link of a socket is not modelled: a socket is ready when it is added, and a client socket that reconnects stays closed. Which order the unordered_map has is left open. finalize (object_pool.h:114) is not modelled.
-/
set_option autoImplicit false
namespace StAsio

def bsz (m : BMsg) : Nat := m.size

inductive BJob where
  /-- `size`: of the packed message; `packs = false`: it cannot be packed -/
  | bcast (safe : Bool) (size : Nat) (packs canOverflow prior : Bool)
  /-- force_shutdown() -/
  | shutAll
  deriving DecidableEq, Repr

inductive BPc where
  /-- waits for the pool's mutex -/
  | waiting
  /-- holds it, has these sockets before it -/
  | going (rest : List Nat)
  /-- holds it, and within close() of socket k on_close() waits for it: del_object -/
  | self (k : Nat) (rest : List Nat)
  | done
  deriving DecidableEq, Repr

structure BWork where
  job : BJob
  /-- it was called by a handler, in a service thread -/
  inSvc : Bool
  pc : BPc
  deriving DecidableEq, Repr

def BPc.holds : BPc → Bool
  | .going _ => true
  | .self _ _ => true
  | _ => false

structure Bc where
  /-- sockets created so far -/
  n : Nat
  /-- object_can -/
  pool : List Nat
  /-- send_buffer -/
  q : Nat → Q BMsg
  /-- is_ready() -/
  ready : Nat → Bool
  /-- started_ -/
  live : Nat → Bool
  /-- calls so far, call t is the t-th -/
  work : List BWork
  /-- sockets whose on_close() waits for the pool's mutex, in a service thread each -/
  blocked : List Nat
  /-- the io_context is stopped -/
  stopped : Bool

def Bc.init : Bc := { n := 0, pool := [], q := fun _ => Q.init, ready := fun _ => false, live := fun _ => false, work := [], blocked := [], stopped := false }

def BJob.isBcast : BJob → Bool
  | .bcast .. => true
  | .shutAll => false

/-- `shared`: ST_ASIO_SHARED_MUTEX_TYPE is a shared_mutex and the lock for traversing a shared_lock; the default is mutex and unique_lock (config.h:1372-1377). -/
structure BCfg where
  shared : Bool
  send : SendCfg
  /-- service threads -/
  threads : Nat

inductive BAct where
  | add
  /-- disconnect(socket_ptr) and the like: del_object, then shut down; by a user's thread -/
  | remove (k : Nat)
  /-- the closing of socket k has reached on_close(), in a service thread -/
  | closeBegin (k : Nat)
  | closeEnd (k : Nat)
  | call (job : BJob) (inSvc : Bool)
  /-- the pool is traversed in this order -/
  | lock (t : Nat) (order : List Nat)
  | visit (t : Nat)
  | unlock (t : Nat)
  /-- send_msg to one socket -/
  | send (k size : Nat) (canOverflow prior : Bool)
  /-- a message is handed to the link: send_handler and do_send_msg, in a service thread -/
  | drain (k : Nat)
  /-- the link breaks: recv_handler calls force_shutdown(), in a service thread -/
  | brk (k : Nat)
  /-- the user shuts a socket down -/
  | userShut (k : Nat)
  /-- service_pump::stop(), or the io_context runs out of work -/
  | stopIo
  deriving DecidableEq, Repr

def Bc.holds (s : Bc) : Bool := s.work.any (fun w => w.pc.holds)

/-- Service threads that are occupied. -/
def Bc.busy (s : Bc) : Nat := s.blocked.length + s.work.countP (fun w => w.inSvc && decide (w.pc ≠ .done))

/-- A service thread is there to run a handler. -/
def Bc.free (c : BCfg) (s : Bc) : Bool := decide (s.busy < c.threads) && !s.stopped

def bset {β : Type} (f : Nat → β) (k : Nat) (b : β) : Nat → β := fun j => if j = k then b else f j

/-- send_msg, base.h:703-779, as far as the send buffer is concerned. -/
def bsend (c : BCfg) (q : Q BMsg) (m : BMsg) (packs canOverflow prior : Bool) : Option (SendOut BMsg) := sendCall bsz c.send q (.packed (if packs then some [m] else none)) canOverflow prior

/-- close(), socket.h:428-467, without on_close(). -/
def Bc.close (s : Bc) (k : Nat) : Bc := { s with live := bset s.live k false, ready := bset s.ready k false }

def Bc.setPc (s : Bc) (t : Nat) (w : BWork) (pc : BPc) : Bc := { s with work := s.work.set t { w with pc } }

def Bc.step (c : BCfg) (s : Bc) : BAct → Option (Bc × List BEv)
  | .add => -- add_object, object_pool.h:62-70
    if s.holds then none else some ({ s with n := s.n + 1, pool := s.n :: s.pool, ready := bset s.ready s.n true, live := bset s.live s.n true }, [.added s.n])
  | .remove k => -- server.h:193, 195, 197; client.h:86-90
    if s.holds ∨ k ∉ s.pool then none else some (({ s with pool := s.pool.filter (· ≠ k) } : Bc).close k, [.removed k])
  | .closeBegin k => -- socket.h:800-807 timer_handler, server_socket.h:67-74
    if s.free c = false ∨ s.live k ∨ k ∈ s.blocked ∨ s.n ≤ k then none else some ({ s with blocked := k :: s.blocked }, [])
  | .closeEnd k => -- object_pool.h:74-89, 91-111
    if s.holds ∨ k ∉ s.blocked then none else some ({ s with pool := s.pool.filter (· ≠ k), blocked := s.blocked.filter (· ≠ k) }, if k ∈ s.pool then [.removed k] else [])
  | .call job inSvc => -- a handler calls it if inSvc
    if inSvc = true ∧ s.free c = false then none else some ({ s with work := s.work ++ [{ job, inSvc, pc := .waiting }] }, [.called s.work.length job.isBcast])
  | .lock t order => -- object_pool.h:355
    match s.work[t]? with
    | none => none
    | some w => if w.pc = .waiting ∧ order.isPerm s.pool ∧ (c.shared = true ∨ s.holds = false) then some (s.setPc t w (.going order), []) else none
  | .visit t =>
    match s.work[t]? with
    | none => none
    | some w =>
      match w.pc with
      | .going (k :: rest) =>
        match w.job with
        | .bcast safe size packs canOverflow prior => do -- base.h:800-808, 784-797
          let o ← bsend c (s.q k) ⟨some t, size⟩ packs canOverflow prior
          let s1 := { s with q := bset s.q k o.q }
          if o.ret then return (s1.setPc t w (.going rest), [.accepted k t])
          else if safe ∧ s.ready k then return (s1, [])
          else return (s1.setPc t w (.going rest), [.refused k t])
        | .shutAll =>
          if s.live k then
            if s.stopped then some ((s.close k).setPc t w (.self k rest), [.shut k]) -- socket.h:452-458
            else some ((s.close k).setPc t w (.going rest), [.shut k]) -- socket.h:459-463
          else some (s.setPc t w (.going rest), [])
      | .self k rest => -- del_object needs the mutex for itself
        if s.holds then none else some (({ s with pool := s.pool.filter (· ≠ k) } : Bc).setPc t w (.going rest), [.removed k])
      | _ => none
  | .unlock t =>
    match s.work[t]? with
    | none => none
    | some w => if w.pc = .going [] then some (s.setPc t w .done, [.returned t]) else none
  | .send k size canOverflow prior => do
    let o ← bsend c (s.q k) ⟨none, size⟩ true canOverflow prior
    return ({ s with q := bset s.q k o.q }, [])
  | .drain k =>
    if s.free c = false ∨ s.ready k = false then none
    else match (s.q k).tryDequeue bsz with
      | (_, none) => none
      | (q, some m) => some ({ s with q := bset s.q k q }, [.sent k m])
  | .brk k => if s.free c = false ∨ s.live k = false then none else some (s.close k, [.shut k])
  | .userShut k => -- in a stopped io_context on_close() runs at once: del_object; shutting down and that are one step here
    if s.live k = false then none
    else if s.stopped then if s.holds then none else some (({ s with pool := s.pool.filter (· ≠ k) } : Bc).close k, if k ∈ s.pool then [.removed k] else [.shut k])
    else some (s.close k, [.shut k])
  | .stopIo => some ({ s with stopped := true }, [])

inductive Bc.Run (c : BCfg) : Bc → List BAct → Bc → List BEv → Prop where
  | nil (s : Bc) : Bc.Run c s [] s []
  | snoc (s s1 s2 : Bc) (as : List BAct) (a : BAct) (es es' : List BEv) : Bc.Run c s as s1 es → Bc.step c s1 a = some (s2, es') → Bc.Run c s (as ++ [a]) s2 (es ++ es')

def Bc.exec (c : BCfg) : Bc → List BAct → Option (Bc × List BEv)
  | s, [] => some (s, [])
  | s, a :: as => do
    let (s, es) ← s.step c a
    let (s, es') ← Bc.exec c s as
    return (s, es ++ es')

end StAsio
