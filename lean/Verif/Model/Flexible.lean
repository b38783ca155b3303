import Verif.Model.Unpacker
/-!
Model of `ext::flexible_unpacker` (include/ext/unpacker.h:176-365), protocol "length + body": a fixed buffer of 4000 bytes
for small messages and a dynamic buffer for a message that does not fit.
-/
set_option autoImplicit false
namespace StAsio

/-- `boost::array<char, 4000> raw_buff`, include/ext/unpacker.h:361. -/
def flexSize : Nat := 4000

/-- include/ext/unpacker.h:361-364; `big = []` is `big_msg.empty()`. -/
structure Flex where
  raw : Bytes
  big : Bytes
  cur : Option Nat
  remain : Nat
  stripped : Bool

/-- `reset()`, include/ext/unpacker.h:229. -/
def Flex.reset (u : Flex) : Flex := { u with big := [], cur := none, remain := 0 }

/-- `big_msg.empty() ? raw_buff.size() : big_msg.size()`, include/ext/unpacker.h:235,293,305,314. -/
def Flex.size (u : Flex) : Nat := if u.big = [] then flexSize else u.big.length

/-- `extend_buffer()`, include/ext/unpacker.h:346-358. `junk n` is the indeterminate content of a freshly resized buffer of
`n` bytes (basic_buffer does not fill it). A `size_t` underflow of `cur_msg_len`/`remain_len` is `none`. -/
def Flex.extend (c : Cfg) (junk : Nat → Bytes) (u : Flex) : Option Flex := do
  let step := if u.stripped then c.headLen else 0
  let cur ← u.cur
  if cur < step ∨ u.remain < step then none
  else
    let cur := cur - step
    let remain := u.remain - step
    let head ← readAt u.raw step remain
    let big ← writeAt (junk cur) 0 head
    return { u with cur := some cur, remain, big }

/-- Read the head if it has arrived and is not known yet, include/ext/unpacker.h:247-252. -/
def Flex.peekHead (c : Cfg) (u : Flex) : Option Flex :=
  match u.cur with
  | some _ => some u
  | none =>
    if c.headLen ≤ u.remain then (readAt u.raw 0 c.headLen).map (fun head => { u with cur := some (beVal head) })
    else some u

/-- `parse_msg(bytes_transferred, msg_can)`, include/ext/unpacker.h:231-282. -/
def Flex.parse (c : Cfg) (junk : Nat → Bytes) (u : Flex) (bytes : Nat) : Option (Flex × List Bytes × Bool) :=
  let u := { u with remain := u.remain + bytes }
  if u.size < u.remain then none -- assert, line 235
  else if u.big ≠ [] then
    if u.remain ≠ u.big.length then some (u, [], false)
    else some (u.reset, [u.big], true)
  else do
    let u ← u.peekHead c
    if u.cur.any (fun n => decide (n ≤ c.bufSize ∧ flexSize < n)) then -- line 254
      return (← u.extend c junk, [], true)
    else
      let (b, msgs, ok) ← Unp.parseBody c { raw := u.raw, cur := u.cur, remain := u.remain, stripped := u.stripped } -- lines 260-275
      let u := { u with raw := b.raw, cur := b.cur, remain := b.remain }
      if ok && u.cur.any (fun n => decide (flexSize < n)) then -- line 277
        return (← u.extend c junk, msgs, ok)
      else return (u, msgs, ok)

/-- `completion_condition(no error, bytes_transferred)`, include/ext/unpacker.h:287-307. -/
def Flex.cond (c : Cfg) (u : Flex) (bytes : Nat) : Option (Flex × Nat) :=
  let dataLen := u.remain + bytes
  if u.size < dataLen then none -- assert, line 293
  else match u.cur with
    | none =>
      if c.headLen ≤ dataLen then do
        let head ← readAt u.raw 0 c.headLen
        let n := beVal head
        let u := { u with cur := some n }
        if c.bufSize < n ∨ n < c.headLen ∨ flexSize < n then return (u, 0)
        return (u, if n ≤ dataLen then 0 else u.size)
      else some (u, u.size) -- data_len < (size_t) -1
    | some n => some (u, if n ≤ dataLen then 0 else u.size)

/-- `prepare_next_recv`, include/ext/unpacker.h:312-337: the free part of the active buffer. -/
def Flex.prepare (u : Flex) : Option (Flex × Nat) :=
  if u.remain < u.size then some (u, u.size - u.remain) else none

/-- asio writes into the offered buffer. -/
def Flex.write (u : Flex) (got : Nat) (d : Bytes) : Option Flex :=
  if u.big = [] then do return { u with raw := ← writeAt u.raw (u.remain + got) d }
  else do return { u with big := ← writeAt u.big (u.remain + got) d }

/-- A freshly constructed unpacker; the content of the fixed buffer is indeterminate. -/
def Flex.init (raw : Bytes) (stripped : Bool) : Flex := { raw, big := [], cur := none, remain := 0, stripped }

def flexOps (c : Cfg) (junk : Nat → Bytes) : UnpackerOps Flex where
  prepare := Flex.prepare
  write := Flex.write
  cond := Flex.cond c
  parse := Flex.parse c junk
  reset := Flex.reset

end StAsio
