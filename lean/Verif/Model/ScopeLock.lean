import Verif.Spec.ScopeLock
/-!
Objects of class scope_atomic_lock on one atomic_flag, and socket::start() and socket::close(), which use them, called by any number of threads.

Sources: include/base.h:91-116 (atomic_flag, scope_atomic_lock), 47-85 (atomic), include/socket.h:148-163 (start), 427-467 (close), 850 (start_atomic).

Simplifications: memory is sequentially consistent; every access of the flag, of started_ and of an object's _locked is a step of its own. Every lock object is used by one thread at a time (they are local variables in the code).
do_start() and the part of close() that stops the timers, shuts the socket down and arranges for after_close are single pieces of code that end at any time; they do not call start() or close() of the same socket (C29_close_inside_start shows
what happens if they do). The conditions !is_timer(TIMER_DELAY_CLOSE) and !stopped() of start() may have any value at any time.
-/
set_option autoImplicit false
namespace StAsio

/-- atomic_flag::test_and_set, the new value and what it returns; base.h:98 (atomic_size_t::exchange(1)) -/
def flagSet (v : Nat) : Nat × Bool := (1, v == 1)

/-- atomic_flag::clear; base.h:97 -/
def flagClear (_ : Nat) : Nat := 0

/-- What is going on in a lock object: it does not exist, nothing, lock() before test_and_set, lock() before the assignment, unlock() before clear (`dies`: called by the destructor), unlock() before the assignment. -/
inductive LkPh where
  | gone
  | rest
  | locking
  | got (ok : Bool)
  | unlocking (dies : Bool)
  | cleared (dies : Bool)
  deriving DecidableEq, Repr

/-- base.h:113 (`_locked`) -/
structure LkObj where
  locked : Bool
  ph : LkPh
  deriving DecidableEq, Repr

structure Lks where
  /-- base.h:114, socket.h:850 -/
  flag : Nat
  obj : Nat → LkObj

/-- base.h:53, 62 (the flag is 0), no lock object exists -/
def Lks.init : Lks := { flag := 0, obj := fun _ => ⟨false, .gone⟩ }

def Lks.set (s : Lks) (i : Nat) (o : LkObj) : Lks := { s with obj := fun j => if j = i then o else s.obj j }

/-- `go i`: the next step of what is going on in object `i`. -/
inductive SlAct where
  | ctor (i : Nat)
  | lock (i : Nat)
  | unlock (i : Nat)
  | dtor (i : Nat)
  | go (i : Nat)
  deriving DecidableEq, Repr

/-- base.h:107-108 -/
def Lks.go (s : Lks) (i : Nat) : Option (Lks × List LkEv) :=
  match (s.obj i).ph with
  | .locking => -- base.h:107
    if (s.obj i).locked then some (s.set i ⟨true, .rest⟩, [.locks i true])
    else some ({ s with flag := (flagSet s.flag).1 }.set i ⟨(s.obj i).locked, .got (!(flagSet s.flag).2)⟩, [])
  | .got ok => some (s.set i ⟨ok, .rest⟩, [.locks i ok])
  | .unlocking d => some ({ s with flag := if (s.obj i).locked then flagClear s.flag else s.flag }.set i ⟨(s.obj i).locked, .cleared d⟩, []) -- base.h:108
  | .cleared d => some (s.set i ⟨false, if d then .gone else .rest⟩, [])
  | _ => none

/-- base.h:104-109 -/
def Lks.step (s : Lks) : SlAct → Option (Lks × List LkEv)
  | .ctor i => if (s.obj i).ph = .gone then some (s.set i ⟨false, .locking⟩, []) else none -- base.h:104
  | .lock i => if (s.obj i).ph = .rest then some (s.set i ⟨(s.obj i).locked, .locking⟩, []) else none
  | .unlock i => if (s.obj i).ph = .rest then some (s.set i ⟨(s.obj i).locked, .unlocking false⟩, [.unlocks i]) else none
  | .dtor i => if (s.obj i).ph = .rest then some (s.set i ⟨(s.obj i).locked, .unlocking true⟩, [.unlocks i]) else none -- base.h:105
  | .go i => s.go i

inductive Lks.Run : Lks → List SlAct → Lks → List LkEv → Prop where
  | nil (s : Lks) : Run s [] s []
  | snoc (s s1 s2 : Lks) (as : List SlAct) (a : SlAct) (es fs : List LkEv) : Run s as s1 es → s1.step a = some (s2, fs) → Run s (as ++ [a]) s2 (es ++ fs)

def Lks.exec (s : Lks) : List SlAct → Option (Lks × List LkEv)
  | [] => some (s, [])
  | a :: as => do
    let (s1, e1) ← s.step a
    let (s2, e2) ← Lks.exec s1 as
    some (s2, e1 ++ e2)

/-- Where a thread is. start(): before the test outside (socket.h:152), in the constructor of the lock (154), before the test inside (155), in do_start (156), before the assignment (156), in the destructor. close(): in the constructor (430),
before the test of the loop (431), asleep (433), in lock() (434), before the test of started_ (436), before the assignment (439), after it (440-464), in the destructor. -/
inductive ScPc where
  | idle
  | sOut
  | sCtor
  | sTest
  | sBody
  | sStore (ok : Bool)
  | sDtor
  | cCtor
  | cTest
  | cSleep
  | cLock
  | cRead
  | cStore
  | cBody
  | cDtor (b : Bool)
  deriving DecidableEq, Repr

/-- Thread `i` uses lock object `i`. -/
structure Scs where
  lk : Lks
  started : Bool
  pc : Nat → ScPc

/-- socket.h:54 (first_init) -/
def Scs.init : Scs := { lk := Lks.init, started := false, pc := fun _ => .idle }

def Scs.at (s : Scs) (i : Nat) (p : ScPc) : Scs := { s with pc := fun j => if j = i then p else s.pc j }

/-- `start i`, `close i`: thread `i` calls; `refuse i`: the conditions outside of the lock are not met (socket.h:152); `started i ok`: do_start() returns `ok`; `go i`: the next step of thread `i`. -/
inductive ScAct where
  | start (i : Nat)
  | close (i : Nat)
  | refuse (i : Nat)
  | started (i : Nat) (ok : Bool)
  | go (i : Nat)
  deriving DecidableEq, Repr

/-- A lock object is used: `x` for the object, then the thread is at `p`. -/
def Scs.use (s : Scs) (i : Nat) (x : SlAct) (p : ScPc) (es : List ScEv) : Option (Scs × List ScEv) :=
  (s.lk.step x).map (fun r => ({ s with lk := r.1 }.at i p, es))

/-- Something is still going on in lock object `i`: its next step; nothing any more: the thread goes on to `p`. -/
def Scs.busy (s : Scs) (i : Nat) (p : ScPc) (es : List ScEv) : Option (Scs × List ScEv) :=
  if (s.lk.obj i).ph = .rest ∨ (s.lk.obj i).ph = .gone then some (s.at i p, es) else s.use i (.go i) (s.pc i) []

/-- socket.h:150-163, 428-467 -/
def Scs.go (s : Scs) (i : Nat) : Option (Scs × List ScEv) :=
  match s.pc i with
  | .sOut => if s.started then some (s.at i .idle, [.startRet i]) else s.use i (.ctor i) .sCtor [] -- socket.h:152-154
  | .sCtor => s.busy i .sTest []
  | .sTest => -- socket.h:155
    if s.started = false ∧ (s.lk.obj i).locked = true then some (s.at i .sBody, [.starting i]) else s.use i (.dtor i) .sDtor []
  | .sStore ok => ({ s with started := ok } : Scs).use i (.dtor i) .sDtor [.up i ok] -- socket.h:156, 159
  | .sDtor => s.busy i .idle [.startRet i]
  | .cCtor => s.busy i .cTest []
  | .cTest => if (s.lk.obj i).locked then some (s.at i .cRead, []) else some (s.at i .cSleep, []) -- socket.h:431
  | .cSleep => s.use i (.lock i) .cLock [] -- socket.h:433-434
  | .cLock => s.busy i .cTest []
  | .cRead => if s.started then some (s.at i .cStore, [.closing i]) else s.use i (.dtor i) (.cDtor false) [.found i] -- socket.h:436-437
  | .cStore => some ({ s with started := false }.at i .cBody, []) -- socket.h:439
  | .cBody => s.use i (.dtor i) (.cDtor true) [.closed i] -- socket.h:440-466
  | .cDtor b => s.busy i .idle [.closeRet i b]
  | .idle => none
  | .sBody => none

/-- socket.h:150-163, 428-467 -/
def Scs.step (s : Scs) : ScAct → Option (Scs × List ScEv)
  | .start i => if s.pc i = .idle then some (s.at i .sOut, []) else none
  | .close i => if s.pc i = .idle then s.use i (.ctor i) .cCtor [] else none
  | .refuse i => if s.pc i = .sOut then some (s.at i .idle, [.startRet i]) else none
  | .started i ok => if s.pc i = .sBody then some (s.at i (.sStore ok), []) else none
  | .go i => s.go i

inductive Scs.Run : Scs → List ScAct → Scs → List ScEv → Prop where
  | nil (s : Scs) : Run s [] s []
  | snoc (s s1 s2 : Scs) (as : List ScAct) (a : ScAct) (es fs : List ScEv) : Run s as s1 es → s1.step a = some (s2, fs) → Run s (as ++ [a]) s2 (es ++ fs)

def Scs.exec (s : Scs) : List ScAct → Option (Scs × List ScEv)
  | [] => some (s, [])
  | a :: as => do
    let (s1, e1) ← s.step a
    let (s2, e2) ← Scs.exec s1 as
    some (s2, e1 ++ e2)

end StAsio
