import Verif.Model.SendBuffer
import Verif.Model.Packer
import Verif.Spec.Wrapped
/-!
Messages that are objects: object_buffer, unique_buffer, shared_buffer (include/base.h:154-196), packer2 (include/ext/packer.h:152-240) and unpacker2, udp_unpacker2 (include/ext/unpacker.h:389-461), together with the part of the send functions that moves
messages into the send buffer (include/base.h:704-779, include/socket.h:538-577, include/container.h:106-231).

A message (`Hdl`) is a pointer to a buffer object or null. Objects are numbered; a number is not used again. The pointer is a scoped_ptr (unique_buffer) or a shared_ptr (shared_buffer, `shared = true`); an object lives as long as some message points to it
(boost's contract), so that reading through a message is always possible.

Simplifications: no `prior`, no shrinking, memory is always available (Model/SendApi has these for plain messages); array functions are left out (they pack into a new object that nobody else knows); a socket writes all messages it has taken at once, and the link
does not break.
-/
set_option autoImplicit false
namespace StAsio

/-- object_buffer::buffer, base.h:180; `none`: null. -/
abbrev Hdl := Option Nat

/-- data() and size(), base.h:174-175. -/
def hval (objs : List Bytes) : Hdl → Bytes
  | none => []
  | some o => objs.getD o []

/-- size(), base.h:174; empty() (line 173) is size() = 0. -/
def hsize (objs : List Bytes) (h : Hdl) : Nat := (hval objs h).length

structure WSock where
  /-- send_buffer -/
  q : Q Hdl
  /-- sending_msgs: handed to async_write -/
  flight : List Hdl
  /-- written -/
  wire : Bytes
  deriving DecidableEq, Repr

structure Wb where
  /-- content of the buffer objects -/
  objs : List Bytes
  vars : List Hdl
  can : List Hdl
  socks : List WSock
  /-- an object was changed while async_write read it -/
  bad : Bool
  deriving DecidableEq, Repr

def Wb.init (n k : Nat) : Wb := { objs := [], vars := List.replicate n none, can := [], socks := List.replicate k { q := Q.init, flight := [], wire := [] }, bad := false }

def Wb.var (s : Wb) (v : Nat) : Hdl := s.vars.getD v none

/-- packer2::pack_msg of one message, two messages or a list, packer.h:180-222, after the messages have been swapped out of the caller's variables: the total length is checked, a new object for the head comes first. Outer `none`: a failing assertion;
inner `none`: refused, nothing was swapped. -/
def pack2 (c : Cfg) (nd : Bool) (objs : List Bytes) (hs : List Hdl) : Option (Option (List Bytes × List Hdl)) :=
  let len := sizeInByte (hs.map (hval objs))
  if maxMsgSize c < len then some none
  else (packHeader c nd len).map (fun head => some (objs ++ [head], some objs.length :: hs))

/-- Puts packed messages into the send buffer: do_direct_send_msg(list), socket.h:564-577. -/
def Wb.enqueueList (s : Wb) (i : Nat) (k : WSock) (hs : List Hdl) : Option Wb :=
  (doDirectList (hsize s.objs) k.q hs false).map (fun q => { s with socks := s.socks.set i { k with q } })

/-- do_direct_send_msg(msg), socket.h:538-562; the Boolean: was the message taken (enqueue swaps it out of a non-const variable, container.h:128)? -/
def Wb.enqueueOne (s : Wb) (i : Nat) (k : WSock) (h : Hdl) : Wb × Bool :=
  let r := doDirectOne (hsize s.objs) k.q h false true
  ({ s with socks := s.socks.set i { k with q := r.1 } }, r.2)

/-- A step: new state and returned value. `none`: not possible (a const message of type unique_buffer does not compile), or a failed assertion. -/
def Wb.step (c : Cfg) (nd shared : Bool) (limit : Nat) (s : Wb) : WAct → Option (Wb × Bool)
  | .make v b => -- base.h:164, 165
    if v < s.vars.length then some ({ s with objs := s.objs ++ [b], vars := s.vars.set v (some s.objs.length) }, true) else none
  | .clear v => if v < s.vars.length then some ({ s with vars := s.vars.set v none }, true) else none -- base.h:177
  | .copy v w => if shared = true ∧ v < s.vars.length ∧ w < s.vars.length then some ({ s with vars := s.vars.set w (s.var v) }, true) else none -- base.h:191
  | .swap v w => if v < s.vars.length ∧ w < s.vars.length then some ({ s with vars := (s.vars.set v (s.var w)).set w (s.var v) }, true) else none -- base.h:176
  | .change v b => -- base.h:167
    match s.var v with
    | none => none
    | some o => some ({ s with objs := s.objs.set o b, bad := s.bad || s.socks.any (fun k => k.flight.contains (some o)) }, true)
  | .push v => if v < s.vars.length then some ({ s with vars := s.vars.set v none, can := s.can ++ [s.var v] }, true) else none
  | .send i native ovf byRef v =>
    if (shared = true ∨ byRef = true) ∧ v < s.vars.length then
      match s.socks[i]? with
      | none => none
      | some k =>
        if ovf = false ∧ ¬ k.q.total < limit then some (s, false) -- base.h:706
        else if native then -- base.h:708, 720
          let r := s.enqueueOne i k (s.var v)
          some ({ r.1 with vars := if byRef ∧ r.2 then s.vars.set v none else s.vars }, true)
        else
          match pack2 c nd s.objs [s.var v] with -- base.h:712, 724; a const message is copied, base.h:244
          | none => none
          | some none => some (s, false)
          | some (some (objs, hs)) => ({ s with objs, vars := if byRef then s.vars.set v none else s.vars }.enqueueList i k hs).map (·, true)
    else none
  | .send2 i native ovf byRef v w =>
    if (shared = true ∨ byRef = true) ∧ v < s.vars.length ∧ w < s.vars.length then
      match s.socks[i]? with
      | none => none
      | some k =>
        if ovf = false ∧ ¬ k.q.total < limit then some (s, false)
        else
          -- swap(msg1) comes before swap(msg2), packer.h:204-205, base.h:735-736, 750-751
          let taken := [s.var v, if byRef = true ∧ v = w then none else s.var w]
          let vars := if byRef then (s.vars.set v none).set w none else s.vars
          if native then ({ s with vars }.enqueueList i k taken).map (·, true)
          else
            -- the length is computed before the swaps, packer.h:196; a const message is copied, base.h:245
            match pack2 c nd s.objs [s.var v, s.var w] with
            | none => none
            | some none => some (s, false)
            | some (some (objs, hs)) => ({ s with objs, vars }.enqueueList i k (hs.take 1 ++ taken)).map (·, true)
    else none
  | .sendList i native ovf =>
    match s.socks[i]? with
    | none => none
    | some k =>
      if ovf = false ∧ ¬ k.q.total < limit then some (s, false)
      else if native then ({ s with can := s.can.map (fun _ => none) }.enqueueList i k s.can).map (·, true) -- socket.h:571: the elements stay
      else
        match pack2 c nd s.objs s.can with
        | none => none
        | some none => some (s, false)
        | some (some (objs, hs)) => ({ s with objs, can := [] }.enqueueList i k hs).map (·, true) -- splice, packer.h:219
  | .take i max => -- tcp/socket.h:390, container.h:214-231
    match s.socks[i]? with
    | none => none
    | some k =>
      if k.flight = [] then
        let r := k.q.moveOutBytes (hsize s.objs) [] max
        some ({ s with socks := s.socks.set i { k with q := r.1, flight := r.2 } }, true)
      else none
  | .wrote i => -- tcp/socket.h:410-460
    match s.socks[i]? with
    | none => none
    | some k => some ({ s with socks := s.socks.set i { k with flight := [], wire := k.wire ++ (k.flight.map (hval s.objs)).flatten } }, true)

/-- All messages that exist. -/
def Wb.handles (s : Wb) : List Hdl := s.vars ++ s.can ++ s.socks.flatMap (fun k => k.q.items ++ k.flight)

/-- use_count() of the object's shared_ptr. -/
def Wb.useCount (s : Wb) (o : Nat) : Nat := s.handles.count (some o)

/-- Executions in which every step satisfies `P`; with the returned values. -/
inductive Wb.Run (c : Cfg) (nd shared : Bool) (limit : Nat) (P : Wb → WAct → Prop) : Wb → List (WAct × Bool) → Wb → Prop where
  | nil (s : Wb) : Wb.Run c nd shared limit P s [] s
  | snoc (s s1 s2 : Wb) (as : List (WAct × Bool)) (a : WAct) (ok : Bool) :
      Wb.Run c nd shared limit P s as s1 → P s1 a → Wb.step c nd shared limit s1 a = some (s2, ok) → Wb.Run c nd shared limit P s (as ++ [(a, ok)]) s2

def Wb.exec (c : Cfg) (nd shared : Bool) (limit : Nat) : Wb → List WAct → Option (Wb × List (WAct × Bool))
  | s, [] => some (s, [])
  | s, a :: as => do
    let (s, ok) ← s.step c nd shared limit a
    let (s, l) ← Wb.exec c nd shared limit s as
    return (s, (a, ok) :: l)

/-- unpacker2::parse_msg, unpacker.h:405-418: every message of the inner unpacker is swapped into a new object. -/
def wrapMsgs (objs : List Bytes) : List Bytes → List Bytes × List Hdl
  | [] => (objs, [])
  | m :: ms =>
    let r := wrapMsgs (objs ++ [m]) ms
    (r.1, some objs.length :: r.2)

/-- unpacker2, unpacker.h:393-429: everything is forwarded to `unpacker_` (lines 400-420); the objects made by parse_msg are kept in the second component; the messages are shown as what their data() and size() are. -/
def unpacker2Ops {σ : Type} (o : UnpackerOps σ) : UnpackerOps (σ × List Bytes) where
  prepare := fun u => (o.prepare u.1).map (fun r => ((r.1, u.2), r.2))
  write := fun u got d => (o.write u.1 got d).map (·, u.2)
  cond := fun u got => (o.cond u.1 got).map (fun r => ((r.1, u.2), r.2))
  parse := fun u got => (o.parse u.1 got).map (fun r =>
    let w := wrapMsgs u.2 r.2.1
    ((r.1, w.1), w.2.map (hval w.1), r.2.2))
  reset := fun u => (o.reset u.1, u.2)

end StAsio
