import Verif.Model.Reader
/-!
Model of `ext::unpacker` (include/ext/unpacker.h:51-174), protocol "length + body".
`size_t` is 64 bits wide (so the 32 bit special case of lines 87-90 cannot occur).
-/
set_option autoImplicit false
namespace StAsio

/-- Compile-time configuration (include/ext/ext.h:23-54): `huge` = ST_ASIO_HUGE_MSG is defined,
`bufSize` = ST_ASIO_MSG_BUFFER_SIZE. -/
structure Cfg where
  huge : Bool
  bufSize : Nat
  deriving DecidableEq, Repr

/-- ST_ASIO_HEAD_LEN = sizeof(ST_ASIO_HEAD_TYPE), uint32_t or uint16_t (include/ext/ext.h:39-54). -/
def Cfg.headLen (c : Cfg) : Nat := if c.huge then 4 else 2

/-- The `#error` checks of include/ext/ext.h:25-26,43-45,50-52. -/
def Cfg.Valid (c : Cfg) : Prop := c.headLen ≤ c.bufSize ∧ c.bufSize ≤ 100 * 1024 * 1024

instance (c : Cfg) : Decidable c.Valid := by unfold Cfg.Valid; infer_instance

/-- `raw_buff` (fixed array), `cur_msg_len` (-1 is `none`), `remain_len`, `stripped()`;
include/ext/unpacker.h:170-173, include/base.h:262-294. -/
structure Unp where
  raw : Bytes
  cur : Option Nat
  remain : Nat
  stripped : Bool
  deriving Repr

/-- A message position found in the buffer: offset and length (`pos_list`, include/ext/ext.h:33-37). -/
abbrev Pos := Nat × Nat

/-- The loop of `parse_msg(pos_list&)`, include/ext/unpacker.h:65-93. Arguments: the offset `pnext`,
`cur_msg_len`, `remain_len`; result: found positions, final `pnext`, `cur_msg_len`, `remain_len`, `unpack_ok`. -/
def Unp.loop (c : Cfg) (raw : Bytes) (pnext : Nat) (cur : Option Nat) (remain : Nat) :
    Option (List Pos × Nat × Option Nat × Nat × Bool) :=
  match cur with
  | some n =>
    if c.bufSize < n ∨ n < c.headLen then some ([], pnext, cur, remain, false)
    else if n ≤ remain then do
      let (ps, r) ← Unp.loop c raw (pnext + n) none (remain - n)
      return ((pnext, n) :: ps, r)
    else some ([], pnext, cur, remain, true)
  | none =>
    if c.headLen ≤ remain then
      match readAt raw pnext c.headLen with
      | none => none
      | some head => Unp.loop c raw pnext (some (beVal head)) remain
    else some ([], pnext, cur, remain, true)
termination_by 2 * remain + (if cur.isNone then 1 else 0)
decreasing_by
  · have : 2 ≤ c.headLen := by unfold Cfg.headLen; split <;> omega
    simp; omega
  · simp

/-- `parse_msg(pos_list&)`, include/ext/unpacker.h:63-99. -/
def Unp.parsePos (c : Cfg) (u : Unp) : Option (List Pos × Unp × Bool) := do
  let (ps, pnext, cur, remain, ok) ← Unp.loop c u.raw 0 u.cur u.remain
  return (ps, { u with cur, remain }, if pnext = 0 then false else ok)

/-- Copy the found messages out of the buffer, ignoring heartbeats (include/ext/unpacker.h:112-119). -/
def Unp.collect (c : Cfg) (raw : Bytes) (stripped : Bool) : List Pos → Option (List Bytes)
  | [] => some []
  | (off, len) :: ps => do
    let rest ← Unp.collect c raw stripped ps
    if c.headLen < len then
      let m ← if stripped then readAt raw (off + c.headLen) (len - c.headLen) else readAt raw off len
      return m :: rest
    else return rest

/-- The part of `parse_msg(bytes_transferred, msg_can)` after `remain_len` has been updated, include/ext/unpacker.h:110-128
(the same statements are in flexible_unpacker, include/ext/unpacker.h:260-275). -/
def Unp.parseBody (c : Cfg) (u : Unp) : Option (Unp × List Bytes × Bool) := do
  let (ps, u, ok) ← u.parsePos c
  let msgs ← Unp.collect c u.raw u.stripped ps
  match ps.getLast? with
  | some (off, len) =>
    if 0 < u.remain then
      let left ← readAt u.raw (off + len) u.remain
      let raw ← writeAt u.raw 0 left
      return ({ u with raw }, msgs, ok)
    else return (u, msgs, ok)
  | none => return (u, msgs, ok)

/-- `parse_msg(bytes_transferred, msg_can)`, include/ext/unpacker.h:104-129. -/
def Unp.parse (c : Cfg) (u : Unp) (bytes : Nat) : Option (Unp × List Bytes × Bool) :=
  let u := { u with remain := u.remain + bytes }
  if c.bufSize < u.remain then none -- assert, line 108
  else u.parseBody c

/-- `completion_condition(no error, bytes_transferred)`, include/ext/unpacker.h:134-153. -/
def Unp.cond (c : Cfg) (u : Unp) (bytes : Nat) : Option (Unp × Nat) := do
  let dataLen := u.remain + bytes
  if c.bufSize < dataLen then failure -- assert, line 140
  match u.cur with
  | none =>
    if c.headLen ≤ dataLen then
      let head ← readAt u.raw 0 c.headLen
      let n := beVal head
      let u := { u with cur := some n }
      if c.bufSize < n ∨ n < c.headLen then return (u, 0)
      return (u, if n ≤ dataLen then 0 else c.bufSize)
    else return (u, c.bufSize) -- data_len < (size_t) -1
  | some n => return (u, if n ≤ dataLen then 0 else c.bufSize)

/-- `prepare_next_recv`, include/ext/unpacker.h:155-163: the free part of the buffer. -/
def Unp.prepare (c : Cfg) (u : Unp) : Option (Unp × Nat) :=
  if u.remain < c.bufSize then some (u, u.raw.length - u.remain) else none

/-- asio writes into the offered buffer, which starts at `raw_buff + remain_len`. -/
def Unp.write (u : Unp) (got : Nat) (d : Bytes) : Option Unp := do
  let raw ← writeAt u.raw (u.remain + got) d
  return { u with raw }

/-- `reset()`, include/ext/unpacker.h:102. -/
def Unp.reset (u : Unp) : Unp := { u with cur := none, remain := 0 }

/-- A freshly constructed unpacker; the content of the fixed array is indeterminate, any `raw` will do
(include/ext/unpacker.h:60). -/
def Unp.init (raw : Bytes) (stripped : Bool) : Unp := { raw, cur := none, remain := 0, stripped }

def unpackerOps (c : Cfg) : UnpackerOps Unp where
  prepare := Unp.prepare c
  write := Unp.write
  cond := Unp.cond c
  parse := Unp.parse c
  reset := Unp.reset

end StAsio
