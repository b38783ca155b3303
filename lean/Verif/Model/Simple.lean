import Verif.Model.Unpacker
/-!
Models of the simple unpackers of include/ext/unpacker.h: non_copy_unpacker, fixed_length_unpacker, stream_unpacker,
udp_unpacker. `junk n` is the indeterminate content of a basic_buffer resized to `n` bytes (basic_buffer does not fill
extended buffers, include/ext/ext.h:194).
-/
set_option autoImplicit false
namespace StAsio

/-! ### non_copy_unpacker (include/ext/unpacker.h:467-560) -/

/-- `head` is the memory of the integer `head` (`headLen` bytes); `step` 0 = want the head, 1 = want the body. -/
structure NonCopy where
  head : Bytes
  raw : Bytes
  step : Nat

/-- `reset()`, line 480. -/
def NonCopy.reset (u : NonCopy) : NonCopy := { u with raw := [], step := 0 }

/-- `parse_msg`, lines 481-518. The subtraction of line 492 is done in `size_t` (modulo 2^64). -/
def NonCopy.parse (c : Cfg) (junk : Nat → Bytes) (u : NonCopy) (bytes : Nat) : Option (NonCopy × List Bytes × Bool) :=
  if u.step = 0 then
    if u.raw ≠ [] then none -- assert, line 485
    else if c.headLen ≠ bytes then some (u, [], false)
    else
      let n := (beVal u.head + 2 ^ 64 - c.headLen) % 2 ^ 64
      if c.bufSize - c.headLen < n then some (u, [], false)
      else if 0 < n then some ({ u with raw := junk n, step := 1 }, [], true)
      else some (u, [], true)
  else if u.step = 1 then
    if u.raw = [] then none -- assert, line 506
    else if bytes ≠ u.raw.length then some (u, [], false)
    else some ({ u with raw := [], step := 0 }, [u.raw], true)
  else some (u, [], true)

/-- `completion_condition`, lines 522-541. -/
def NonCopy.cond (c : Cfg) (u : NonCopy) (_bytes : Nat) : Option (NonCopy × Nat) :=
  if u.step = 0 then (if u.raw ≠ [] then none else some (u, c.headLen))
  else if u.step = 1 then (if u.raw = [] then none else some (u, u.raw.length))
  else none -- assert(false)

/-- `prepare_next_recv`, lines 546-548. -/
def NonCopy.prepare (c : Cfg) (u : NonCopy) : Option (NonCopy × Nat) :=
  some (u, if u.raw = [] then c.headLen else u.raw.length)

/-- asio writes into the offered buffer. -/
def NonCopy.write (u : NonCopy) (got : Nat) (d : Bytes) : Option NonCopy :=
  if u.raw = [] then do return { u with head := ← writeAt u.head got d }
  else do return { u with raw := ← writeAt u.raw got d }

def NonCopy.init (head : Bytes) : NonCopy := { head, raw := [], step := 0 }

def nonCopyOps (c : Cfg) (junk : Nat → Bytes) : UnpackerOps NonCopy where
  prepare := NonCopy.prepare c
  write := NonCopy.write
  cond := NonCopy.cond c
  parse := NonCopy.parse c junk
  reset := NonCopy.reset

/-! ### fixed_length_unpacker (include/ext/unpacker.h:567-605) -/

/-- The state is `raw_buff`. -/
abbrev Fixed := Bytes

/-- `parse_msg`, lines 577-587. -/
def Fixed.parse (u : Fixed) (bytes : Nat) : Option (Fixed × List Bytes × Bool) :=
  if bytes ≠ u.length then some (u, [], false) else some ([], [u], true)

/-- `completion_condition`, lines 591-592; `len` is `_fixed_length`. -/
def Fixed.cond (len : Nat) (u : Fixed) (bytes : Nat) : Option (Fixed × Nat) := some (u, if bytes = u.length then 0 else len)

/-- `prepare_next_recv`, lines 597-599: `raw_buff` is resized first. -/
def Fixed.prepare (junk : Nat → Bytes) (len : Nat) (_u : Fixed) : Option (Fixed × Nat) := some (junk len, (junk len).length)

def fixedOps (junk : Nat → Bytes) (len : Nat) : UnpackerOps Fixed where
  prepare := Fixed.prepare junk len
  write := writeAt
  cond := Fixed.cond len
  parse := Fixed.parse
  reset := id -- line 576

/-! ### stream_unpacker (include/ext/unpacker.h:736-763) -/

/-- The state is the fixed buffer `raw_buff` of ST_ASIO_MSG_BUFFER_SIZE bytes. -/
abbrev Strm := Bytes

/-- `parse_msg`, lines 740-749. -/
def Strm.parse (c : Cfg) (u : Strm) (bytes : Nat) : Option (Strm × List Bytes × Bool) :=
  if bytes = 0 then some (u, [], false)
  else if c.bufSize < bytes then none -- assert, line 745
  else do return (u, [← readAt u 0 bytes], true)

/-- `completion_condition`, line 751. -/
def Strm.cond (c : Cfg) (u : Strm) (bytes : Nat) : Option (Strm × Nat) := some (u, if 0 < bytes then 0 else c.bufSize)

def streamOps (c : Cfg) : UnpackerOps Strm where
  prepare := fun u => some (u, u.length) -- line 758
  write := writeAt
  cond := Strm.cond c
  parse := Strm.parse c
  reset := id -- line 739

/-! ### udp_unpacker (include/ext/unpacker.h:369-387; udp_unpacker2: 433-461) -/

/-- `parse_msg`, lines 373-374 (443-446). -/
def Udp.parse (c : Cfg) (raw : Bytes) (bytes : Nat) : Option (List Bytes) :=
  if c.bufSize < bytes then none -- assert
  else do return [← readAt raw 0 bytes]

/-- A datagram arrives: asio stores it at the beginning of the buffer (a datagram that does not fit is cut off, as
`recvfrom` does), then `recv_handler` (include/udp/socket.h:294-328) hands out what `parse_msg` finds; a datagram of
0 bytes is skipped. Result: new buffer content, messages handed out. -/
def Udp.datagram (c : Cfg) (raw : Bytes) (d : Bytes) : Option (Bytes × List Bytes) := do
  let d := d.take raw.length
  let raw ← writeAt raw 0 d
  if d.length = 0 then return (raw, [])
  return (raw, ← Udp.parse c raw d.length)

def Udp.datagrams (c : Cfg) : Bytes → List Bytes → Option (List Bytes)
  | _, [] => some []
  | raw, d :: ds => do
    let (raw, ms) ← Udp.datagram c raw d
    return ms ++ (← Udp.datagrams c raw ds)

end StAsio
