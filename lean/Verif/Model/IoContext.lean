/-!
Model of the distribution of objects and threads over the io_contexts: include/service_pump.h:140-214 (assign_io_context, return_io_context, get_io_context_refs), 336-372 (add_service_thread), 503-522 (assign_thread) and of the
references an object holds, include/timer.h:72-92, 207 (add_io_context_refs, sub_io_context_refs, clear_io_context_refs, reset_io_context_refs; the acceptor's own in include/tcp/server.h:53-79 is alike).

io_contexts are numbered in the order of context_can, objects in the order of their construction. `unsigned` is modulo 2^32.
Simplification: an object's own counter and the pump's are changed in one step (the code asks the user to protect these calls).
-/
set_option autoImplicit false
namespace StAsio

/-- The loop that is in assign_io_context (service_pump.h:162-176) and in assign_thread (service_pump.h:505-519): `cur` is the least number so far, `best` where it was; both start with 0 / NULL. -/
def pickLoop : Nat → List Nat → Nat → Option Nat → Option Nat
  | _, [], _, best => best
  | i, r :: rs, cur, best =>
    let take := r = 0 ∨ cur = 0 ∨ r < cur
    let cur' := if take then r else cur
    let best' := if take then some i else best
    if r = 0 then best' else pickLoop (i + 1) rs cur' best'

structure IoPump where
  /-- single_ctx -/
  single : Bool
  /-- context::refs of every io_context -/
  refs : List Nat
  /-- the objects: their io_context and their io_context_refs -/
  objs : List (Nat × Nat)
  deriving DecidableEq, Repr

inductive IoEv where
  /-- n references to the i-th io_context were taken / given back (whether counted or not) -/
  | assigned (i n : Nat)
  | returned (i n : Nat)
  deriving DecidableEq, Repr

inductive IoAct where
  /-- an object is constructed on assign_io_context() -/
  | create
  /-- assign_io_context(false): just look -/
  | look
  | addRefs (j n : Nat)
  | subRefs (j n : Nat)
  | clearRefs (j : Nat)
  | resetRefs (j : Nat)
  /-- the user calls assign_io_context(io_context, n) or return_io_context(io_context, n) directly -/
  | userAssign (i n : Nat)
  | userReturn (i n : Nat)
  /-- add_service_thread with io_context_num = n > 0 -/
  | addContexts (n : Nat)
  deriving DecidableEq, Repr

/-- `iter->refs += refs` -/
def bumpUp (l : List Nat) (i n : Nat) : List Nat := l.modify i (fun r => (r + n) % 2 ^ 32)

/-- `iter->refs -= refs`, unsigned -/
def bumpDown (l : List Nat) (i n : Nat) : List Nat := l.modify i (fun r => (r + (2 ^ 32 - n % 2 ^ 32)) % 2 ^ 32)

/-- assign_io_context(const execution_context&, unsigned), service_pump.h:202-214 -/
def IoPump.assignTo (s : IoPump) (i n : Nat) : IoPump := if s.single then s else { s with refs := bumpUp s.refs i n }

/-- return_io_context, service_pump.h:189-201 -/
def IoPump.returnTo (s : IoPump) (i n : Nat) : IoPump := if s.single then s else { s with refs := bumpDown s.refs i n }

/-- assign_io_context(bool), service_pump.h:157-187: which io_context. `none`: throws. -/
def IoPump.pick (s : IoPump) : Option Nat := if s.single then some 0 else pickLoop 0 s.refs 0 none

/-- timer.h:84-91 -/
def IoPump.sub (s : IoPump) (j n : Nat) : Option (IoPump × List IoEv) :=
  match s.objs[j]? with
  | some (i, r) =>
    if 0 < n ∧ n ≤ r then some (({ s with objs := s.objs.set j (i, r - n) } : IoPump).returnTo i n, [.returned i n])
    else some (s, [])
  | none => none

/-- timer.h:76-83 -/
def IoPump.add (s : IoPump) (j n : Nat) : Option (IoPump × List IoEv) :=
  match s.objs[j]? with
  | some (i, r) =>
    if 0 < n then some (({ s with objs := s.objs.set j (i, (r + n) % 2 ^ 32) } : IoPump).assignTo i n, [.assigned i n])
    else some (s, [])
  | none => none

def IoPump.step (s : IoPump) : IoAct → Option (IoPump × List IoEv)
  | .create =>
    match s.pick with
    | some i => some (({ s with objs := s.objs ++ [(i, 1)] } : IoPump).assignTo i 1, [.assigned i 1])
    | none => none
  | .look => match s.pick with | some _ => some (s, []) | none => none
  | .addRefs j n => s.add j (n % 2 ^ 32)
  | .subRefs j n => s.sub j (n % 2 ^ 32)
  | .clearRefs j => match s.objs[j]? with | some (_, r) => s.sub j r | none => none
  | .resetRefs j => match s.objs[j]? with | some (_, r) => if r = 0 then s.add j 1 else some (s, []) | none => none
  | .userAssign i n => if i < s.refs.length then some (s.assignTo i (n % 2 ^ 32), [.assigned i (n % 2 ^ 32)]) else none
  | .userReturn i n => if i < s.refs.length then some (s.returnTo i (n % 2 ^ 32), [.returned i (n % 2 ^ 32)]) else none
  | .addContexts n => if 0 < n then some ({ s with single := false, refs := s.refs ++ List.replicate n 0 }, []) else some (s, [])

/-- The constructors and set_io_context_num, service_pump.h:96-137; `multi`: multi_ctx or more than one io_context. -/
def IoPump.init (num : Nat) (multi : Bool) : IoPump where
  single := !multi
  refs := List.replicate num 0
  objs := []

inductive IoPump.Run : IoPump → List IoAct → IoPump → List IoEv → Prop where
  | nil (s : IoPump) : IoPump.Run s [] s []
  | snoc (s s1 s2 : IoPump) (as : List IoAct) (a : IoAct) (es fs : List IoEv) : IoPump.Run s as s1 es → s1.step a = some (s2, fs) → IoPump.Run s (as ++ [a]) s2 (es ++ fs)

def IoPump.exec : IoPump → List IoAct → Option (IoPump × List IoEv)
  | s, [] => some (s, [])
  | s, a :: as => do
    let (s1, e1) ← s.step a
    let (s2, e2) ← IoPump.exec s1 as
    some (s2, e1 ++ e2)

/-- add_service_thread, service_pump.h:362-371: the numbers of threads (thread_group::size) of the io_contexts after n more threads were distributed. -/
def addThreads : Nat → List Nat → Option (List Nat)
  | 0, t => some t
  | n + 1, t =>
    match pickLoop 0 t 0 none with
    | some i => addThreads n (t.modify i (· + 1))
    | none => none

end StAsio
