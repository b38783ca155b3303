import Verif.Model.Unpacker
/-!
Model of the packers (include/ext/packer.h). `size_t` is 64 bits wide; arithmetic on lengths supplied by the
caller is done modulo 2^64 as in C++. Arithmetic on sizes of existing containers uses `Nat` (their sum cannot
reach 2^64; the source says "not considered overflow").
-/
set_option autoImplicit false
namespace StAsio

def sizeMod : Nat := 2 ^ 64

/-- One element of the arrays `pstr[]`/`len[]` given to `pack_msg`: `ptr = none` is a null pointer, otherwise the
memory that can be read through the pointer; `len` is the `size_t` in `len[]`. -/
structure Piece where
  ptr : Option Bytes
  len : UInt64
  deriving DecidableEq, Repr

/-- The loop of `packer_helper::msg_size_check`, include/ext/packer.h:29-43; arguments `total_len` (= `last_total_len`
at the top of the loop) and the rest of the arrays; `none` is `(size_t) -1`. -/
def msgSizeLoop (c : Cfg) : Nat → List Piece → Option Nat
  | total, [] => some total
  | total, p :: ps =>
    match p.ptr with
    | none => msgSizeLoop c total ps
    | some _ =>
      let total' := (total + p.len.toNat) % sizeMod
      if total' < total ∨ c.bufSize < total' then none
      else msgSizeLoop c total' ps

/-- `packer_helper::msg_size_check`, include/ext/packer.h:24-44; `arr = none` models a null `pstr` or `len`. -/
def msgSizeCheck (c : Cfg) (preLen : Nat) (arr : Option (List Piece)) : Option Nat :=
  match arr with
  | none => none
  | some ps => msgSizeLoop c preLen ps

/-- `packer_helper::pack_header`, include/ext/packer.h:46-55. Result: the bytes of the head as they lie in memory
(`ST_ASIO_HEAD_H2N` makes them big-endian). `ndebug`: asserts are compiled out; otherwise a failing assert is `none`.
The conversion to ST_ASIO_HEAD_TYPE truncates. -/
def packHeader (c : Cfg) (ndebug : Bool) (len : Nat) : Option Bytes := do
  if !ndebug && !decide (len < c.bufSize) then failure
  let total := c.headLen + len
  if !ndebug && !decide (total ≤ c.bufSize) then failure
  let head := total % 256 ^ c.headLen
  if !ndebug && !decide (head = total) then failure
  return be c.headLen head

/-- The appends of `pack_msg`, include/ext/packer.h:97-99: all non-null pieces; reading beyond a piece is `none`. -/
def appendPieces : List Piece → Option Bytes
  | [] => some []
  | p :: ps => do
    let rest ← appendPieces ps
    match p.ptr with
    | none => return rest
    | some mem => return (← readAt mem 0 p.len.toNat) ++ rest

/-- `packer::pack_msg(msg, pstr, len, num, native)`, include/ext/packer.h:72-103. Result: return value and the final `msg`.
`reserve` is not modelled (it does not change the content). -/
def packArray (c : Cfg) (native : Bool) (arr : Option (List Piece)) : Option (Bool × Bytes) :=
  let preLen := if native then 0 else c.headLen
  match msgSizeCheck c preLen arr, arr with
  | none, _ => some (false, [])
  | some _, none => some (false, []) -- not possible
  | some total, some ps =>
    if preLen < total then
      if !native then
        let head := total % 256 ^ c.headLen
        if total ≠ head then some (false, [])
        else do return (true, be c.headLen head ++ (← appendPieces ps))
      else do return (true, ← appendPieces ps)
    else some (true, [])

/-- `get_max_msg_size`, include/ext/packer.h:67,163. -/
def maxMsgSize (c : Cfg) : Nat := c.bufSize - c.headLen

/-- Result of a container version of `pack_msg`: return value, what is left in the inputs, the output container. -/
structure Packed where
  ok : Bool
  left : List Bytes
  can : List Bytes
  deriving DecidableEq, Repr

/-- `packer::pack_msg(msg, msg_can)`, include/ext/packer.h:104-115 (packer2: 180-193; the head is then wrapped into a
buffer object, which does not change the bytes). After `swap` with a fresh element the input is empty. -/
def packOne (c : Cfg) (ndebug : Bool) (msg : Bytes) (can : List Bytes) : Option Packed := do
  if maxMsgSize c < msg.length then return { ok := false, left := [msg], can }
  let head ← packHeader c ndebug msg.length
  return { ok := true, left := [[]], can := can ++ [head] ++ [msg] }

/-- `packer::pack_msg(msg1, msg2, msg_can)`, include/ext/packer.h:116-128 (packer2: 194-208). -/
def packTwo (c : Cfg) (ndebug : Bool) (msg1 msg2 : Bytes) (can : List Bytes) : Option Packed := do
  let len := msg1.length + msg2.length
  if maxMsgSize c < len then return { ok := false, left := [msg1, msg2], can }
  let head ← packHeader c ndebug len
  return { ok := true, left := [[], []], can := can ++ [head] ++ [msg1] ++ [msg2] }

/-- `get_size_in_byte(container)`, include/base.h:646-656. -/
def sizeInByte : List Bytes → Nat
  | [] => 0
  | m :: ms => m.length + sizeInByte ms

/-- `packer::pack_msg(in, out)`, include/ext/packer.h:129-140 (packer2: 209-222). `splice` moves all of `in`. -/
def packList (c : Cfg) (ndebug : Bool) (inp : List Bytes) (out : List Bytes) : Option Packed := do
  let len := sizeInByte inp
  if maxMsgSize c < len then return { ok := false, left := inp, can := out }
  let head ← packHeader c ndebug len
  return { ok := true, left := [], can := out ++ [head] ++ inp }

/-- `packer::packer()` and `pack_heartbeat`, include/ext/packer.h:69,141 (packer2: 223-236). -/
def packHeartbeat (c : Cfg) (ndebug : Bool) : Option Bytes := packHeader c ndebug 0

/-! ### fixed_length_packer (include/ext/packer.h:245-254) -/

/-- Line 249: always native. -/
def flPackArray (c : Cfg) (arr : Option (List Piece)) : Option (Bool × Bytes) := packArray c true arr
/-- Line 250. -/
def flPackOne (msg : Bytes) (can : List Bytes) : Packed := { ok := true, left := [[]], can := can ++ [msg] }
/-- Line 251. -/
def flPackTwo (msg1 msg2 : Bytes) (can : List Bytes) : Packed := { ok := true, left := [[], []], can := can ++ [msg1] ++ [msg2] }
/-- Line 252: `in.swap(out)`. -/
def flPackList (inp out : List Bytes) : Packed := { ok := true, left := out, can := inp }

/-! ### prefix_suffix_packer (include/ext/packer.h:257-341) -/

/-- The assertion of `prefix_suffix()`, include/ext/packer.h:261. -/
structure PsCfg where
  pre : Bytes
  suf : Bytes
  deriving DecidableEq, Repr

def PsCfg.Valid (c : Cfg) (p : PsCfg) : Prop := p.suf ≠ [] ∧ p.pre.length + p.suf.length < c.bufSize

/-- `prefix_suffix_packer::pack_msg(msg, pstr, len, num, native)`, include/ext/packer.h:267-287. -/
def psPackArray (c : Cfg) (p : PsCfg) (native : Bool) (arr : Option (List Piece)) : Option (Bool × Bytes) :=
  let preLen := if native then 0 else p.pre.length + p.suf.length
  match msgSizeCheck c preLen arr, arr with
  | none, _ => some (false, [])
  | some _, none => some (false, []) -- not possible
  | some total, some ps =>
    if preLen < total then do
      let body ← appendPieces ps
      return (true, if native then body else p.pre ++ body ++ p.suf)
    else some (true, [])

/-- `if (!_prefix.empty()) msg_can.emplace_back(_prefix)`, include/ext/packer.h:294-295 etc. -/
def emplaceNonEmpty (s : Bytes) (can : List Bytes) : List Bytes := if s = [] then can else can ++ [s]

/-- include/ext/packer.h:288-301 -/
def psPackOne (c : Cfg) (p : PsCfg) (msg : Bytes) (can : List Bytes) : Packed :=
  if c.bufSize < p.pre.length + msg.length + p.suf.length then { ok := false, left := [msg], can }
  else { ok := true, left := [[]], can := emplaceNonEmpty p.suf (emplaceNonEmpty p.pre can ++ [msg]) }

/-- include/ext/packer.h:302-316 -/
def psPackTwo (c : Cfg) (p : PsCfg) (msg1 msg2 : Bytes) (can : List Bytes) : Packed :=
  if c.bufSize < p.pre.length + msg1.length + msg2.length + p.suf.length then { ok := false, left := [msg1, msg2], can }
  else { ok := true, left := [[], []], can := emplaceNonEmpty p.suf (emplaceNonEmpty p.pre can ++ [msg1] ++ [msg2]) }

/-- include/ext/packer.h:317-330 -/
def psPackList (c : Cfg) (p : PsCfg) (inp out : List Bytes) : Packed :=
  if c.bufSize < p.pre.length + p.suf.length + sizeInByte inp then { ok := false, left := inp, can := out }
  else { ok := true, left := [], can := emplaceNonEmpty p.suf (emplaceNonEmpty p.pre out ++ inp) }

/-- include/ext/packer.h:261,331 -/
def psPackHeartbeat (p : PsCfg) : Bytes := p.pre ++ p.suf

end StAsio
