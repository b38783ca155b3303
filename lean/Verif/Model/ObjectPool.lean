/-!
Model of the object pool: include/object_pool.h:27-348, restore_socket of include/tcp/server.h:153-180.

Objects are numbered in the order of their allocation. `refs` counts the shared_ptr copies held outside the pool's two containers (by the user, by asynchronous calls, by parameters), obsoleted() is decided by the environment.
The critical sections of object_can_mutex and invalid_object_can_mutex are the atomic steps: del_object, clear_obsoleted_object and change_object_id consist of two.
Simplifications: the order of the unordered_map is the order of insertion; null pointers (add_object returns false) are left out; the object that was replaced by restore_socket is dropped when restore_socket returns (take_over
does not keep it); statistics and logging are left out.
-/
set_option autoImplicit false
namespace StAsio

structure Pool where
  /-- cur_id: counts without bound, ids are taken modulo 2^64 -/
  cur : Nat
  /-- number of objects allocated so far -/
  next : Nat
  /-- object_can: (id, object) -/
  can : List (Nat × Nat)
  /-- invalid_object_can -/
  invalid : List Nat
  /-- erased from object_can, not yet in invalid_object_can (local variables of del_object and clear_obsoleted_object) -/
  moving : List Nat
  /-- inside change_object_id: (object_ptr, id, old_object_ptr) -/
  changing : List (Nat × Nat × Nat)
  maxSize : Nat
  /-- Object::id() -/
  id : Nat → Nat
  /-- references held elsewhere -/
  refs : Nat → Nat
  /-- Object::obsoleted() -/
  obs : Nat → Bool

/-- unordered_map::emplace: false if the key exists. -/
def canEmplace (m : List (Nat × Nat)) (k o : Nat) : List (Nat × Nat) × Bool :=
  if m.any (fun p => p.1 == k) then (m, false) else (m ++ [(k, o)], true)

/-- unordered_map::erase(key) -/
def canErase (m : List (Nat × Nat)) (k : Nat) : List (Nat × Nat) := m.filter (fun p => p.1 != k)

/-- unordered_map::find -/
def canFind (m : List (Nat × Nat)) (k : Nat) : Option Nat := (m.find? (fun p => p.1 == k)).map (·.2)

def upd {α : Type} (f : Nat → α) (k : Nat) (v : α) : Nat → α := fun x => if x = k then v else f x

/-- shared_ptr::use_count -/
def Pool.count (s : Pool) (o : Nat) : Nat :=
  s.refs o + (s.can.map (·.2)).count o + s.invalid.count o + s.moving.count o + (s.changing.map (·.2.2)).count o

/-- `(*iter).unique() && (*iter)->obsoleted()`, object_pool.h:259, 273, 334 -/
def Pool.dead (s : Pool) (o : Nat) : Bool := s.count o == 1 && s.obs o

inductive PoolEv where
  /-- create_object returned this object with this id -/
  | created (o id : Nat)
  | createFailed
  /-- add_object(object with this id) returned -/
  | addCall (o id : Nat) (ok : Bool)
  /-- del_object(object_ptr), whose id is this, has erased (true) or not -/
  | delCall (o id : Nat) (ok : Bool)
  /-- del_object(id) has erased or not -/
  | delIdCall (id : Nat) (ok : Bool)
  /-- init_object_id(object_ptr with id `old`, id) returned, called directly or by change_object_id -/
  | initCall (o old id : Nat) (ok : Bool)
  /-- clear_obsoleted_object has erased this object -/
  | kicked (o id : Nat)
  /-- taken out of the invalid list to be reused -/
  | reused (o : Nat)
  /-- taken out of the invalid list and freed -/
  | freed (o : Nat)
  /-- taken out of the invalid list by invalid_object_pop or change_object_id -/
  | popped (o : Nat)
  | finalized
  deriving DecidableEq, Repr

inductive PoolAct where
  /-- create_object; `alloc`: make_shared succeeds -/
  | create (alloc : Bool)
  | add (o : Nat)
  /-- del_object(object_ptr), first critical section -/
  | delObj (o : Nat)
  /-- del_object(id), first critical section -/
  | delId (id : Nat)
  /-- del_object and clear_obsoleted_object, second critical section, for the i-th object on the way; `hold`: emplace_back succeeds -/
  | bury (i : Nat) (hold : Bool)
  /-- restore_socket(socket_ptr, id, true) -/
  | initId (o id : Nat)
  /-- change_object_id, first critical section -/
  | changeBegin (o id : Nat)
  /-- change_object_id, second part, of the i-th call on the way -/
  | changeEnd (i : Nat)
  /-- clear_obsoleted_object, first critical section -/
  | clear
  | free (num : Nat)
  /-- invalid_object_pop() and invalid_object_pop(id), called by the user -/
  | pop
  | popId (id : Nat)
  /-- somebody copies a reference to an object it holds or finds in the pool or the invalid list (find, at, invalid_object_find, invalid_object_at) -/
  | hold (o : Nat)
  | drop (o : Nat)
  /-- obsoleted() changes -/
  | obsolete (o : Nat) (b : Bool)
  /-- max_size(n) -/
  | setMax (n : Nat)
  /-- finalize, after the service has ended -/
  | finalize
  deriving DecidableEq, Repr

/-- invalid_object_pop(), object_pool.h:269-280 -/
def Pool.popAny (s : Pool) : Option (Nat × Pool) :=
  match s.invalid.find? s.dead with
  | some o => some (o, { s with invalid := s.invalid.erase o })
  | none => none

/-- invalid_object_pop(id), object_pool.h:255-266 -/
def Pool.popById (s : Pool) (id : Nat) : Option (Nat × Pool) :=
  match s.invalid.find? (fun o => s.id o == id) with
  | some o => if s.dead o then some (o, { s with invalid := s.invalid.erase o }) else none
  | none => none

/-- init_object, object_pool.h:119-128, and the reference returned by create_object -/
def Pool.initObject (s : Pool) (o : Nat) : Pool :=
  { s with cur := s.cur + 1, id := upd s.id o ((1 + s.cur) % 2 ^ 64), refs := upd s.refs o (s.refs o + 1) }

/-- init_object_id, object_pool.h:130-144 -/
def Pool.initObjectId (s : Pool) (o id : Nat) : Pool × Bool :=
  if s.id o = id then (s, true)
  else
    let e := canEmplace s.can id o
    if e.2 then ({ s with can := canErase e.1 (s.id o), id := upd s.id o id }, true)
    else (s, false)

/-- The loop of free_object, object_pool.h:325-341, over the rest `l` of the list, `s.invalid = kept ++ l`. Result: the freed objects and the list afterwards. -/
def freeLoop (s : Pool) : Nat → List Nat → List Nat → List Nat × List Nat
  | _, kept, [] => ([], kept)
  | 0, kept, l => ([], kept ++ l)
  | num + 1, kept, o :: l =>
    if ({ s with invalid := kept ++ o :: l } : Pool).dead o then
      let r := freeLoop s num kept l
      (o :: r.1, r.2)
    else freeLoop s (num + 1) (kept ++ [o]) l

/-- One step; `reuse`: ST_ASIO_REUSE_OBJECT without ST_ASIO_RESTORE_OBJECT. `none`: not possible in this state. -/
def Pool.step (reuse : Bool) (s : Pool) : PoolAct → Option (Pool × List PoolEv)
  | .create alloc =>
    match (if reuse then s.popAny else none) with
    | some (o, s1) => some (s1.initObject o, [.reused o, .created o ((1 + s.cur) % 2 ^ 64)])
    | none =>
      if alloc then some (({ s with next := s.next + 1 } : Pool).initObject s.next, [.created s.next ((1 + s.cur) % 2 ^ 64)])
      else some (s, [.createFailed])
  | .add o =>
    if s.refs o = 0 then none
    else if s.can.length < s.maxSize then
      let e := canEmplace s.can (s.id o) o
      some ({ s with can := e.1 }, [.addCall o (s.id o) e.2])
    else some (s, [.addCall o (s.id o) false])
  | .delObj o =>
    if s.refs o = 0 then none
    else if s.can.any (fun p => p.1 == s.id o) then
      some ({ s with can := canErase s.can (s.id o), moving := s.moving ++ [o] }, [.delCall o (s.id o) true])
    else some (s, [.delCall o (s.id o) false])
  | .delId id =>
    match canFind s.can id with
    | some o => some ({ s with can := canErase s.can id, moving := s.moving ++ [o] }, [.delIdCall id true])
    | none => some (s, [.delIdCall id false])
  | .bury i hold =>
    match s.moving[i]? with
    | some o => some ({ s with moving := s.moving.eraseIdx i, invalid := if hold then s.invalid ++ [o] else s.invalid }, [])
    | none => none
  | .initId o id =>
    if s.refs o = 0 then none
    else
      let r := s.initObjectId o id
      some (r.1, [.initCall o (s.id o) id r.2])
  | .changeBegin o id =>
    if s.refs o = 0 then none
    else
      match s.popById id with
      | some (old, s1) => some ({ s1 with changing := s1.changing ++ [(o, id, old)], refs := upd s1.refs o (s1.refs o + 1) }, [.popped old])
      | none => some (s, [])
  | .changeEnd i =>
    match s.changing[i]? with
    | some (o, id, old) =>
      let r := s.initObjectId o id
      let s1 := { r.1 with changing := s.changing.eraseIdx i, refs := upd s.refs o (s.refs o - 1) }
      if r.2 then some (s1, [.initCall o (s.id o) id true])
      else some ({ s1 with invalid := s1.invalid ++ [old] }, [.initCall o (s.id o) id false])
    | none => none
  | .clear =>
    let gone := s.can.filter (fun p => s.obs p.2)
    some ({ s with can := s.can.filter (fun p => !s.obs p.2), moving := s.moving ++ gone.map (·.2) }, gone.map (fun p => .kicked p.2 p.1))
  | .free num =>
    let r := freeLoop s num [] s.invalid
    some ({ s with invalid := r.2 }, r.1.map .freed)
  | .pop =>
    match s.popAny with
    | some (o, s1) => some ({ s1 with refs := upd s1.refs o (s1.refs o + 1) }, [.popped o])
    | none => some (s, [])
  | .popId id =>
    match s.popById id with
    | some (o, s1) => some ({ s1 with refs := upd s1.refs o (s1.refs o + 1) }, [.popped o])
    | none => some (s, [])
  | .hold o =>
    if 0 < s.refs o ∨ o ∈ s.can.map (·.2) ∨ o ∈ s.invalid then some ({ s with refs := upd s.refs o (s.refs o + 1) }, []) else none
  | .drop o =>
    -- the parameters of change_object_id are held until it returns
    if (s.changing.map (·.1)).count o < s.refs o then some ({ s with refs := upd s.refs o (s.refs o - 1) }, []) else none
  | .obsolete o b => some ({ s with obs := upd s.obs o b }, [])
  | .setMax n => some ({ s with maxSize := n }, [])
  | .finalize => some ({ s with can := [] }, [.finalized])

/-- The constructor, object_pool.h:44-45: `start` is ST_ASIO_START_OBJECT_ID - 1 or set by set_start_object_id. -/
def Pool.init (start maxSize : Nat) : Pool where
  cur := start
  next := 0
  can := []
  invalid := []
  moving := []
  changing := []
  maxSize := maxSize
  id := fun _ => 0
  refs := fun _ => 0
  obs := fun _ => false

inductive Pool.Run (reuse : Bool) : Pool → List PoolAct → Pool → List PoolEv → Prop where
  | nil (s : Pool) : Pool.Run reuse s [] s []
  | snoc (s s1 s2 : Pool) (as : List PoolAct) (a : PoolAct) (es fs : List PoolEv) : Pool.Run reuse s as s1 es → s1.step reuse a = some (s2, fs) → Pool.Run reuse s (as ++ [a]) s2 (es ++ fs)

def Pool.exec (reuse : Bool) : Pool → List PoolAct → Option (Pool × List PoolEv)
  | s, [] => some (s, [])
  | s, a :: as => do
    let (s1, e1) ← s.step reuse a
    let (s2, e2) ← Pool.exec reuse s1 as
    some (s2, e1 ++ e2)

end StAsio
