import Verif.Model.Flexible
import Verif.Model.Simple
import Verif.Model.PrefixSuffix
import Verif.Spec.Dump
/-!
What is written to the log when a byte stream cannot be unpacked: unpacker_helper::dump_left_data (include/ext/unpacker.h:22-47) and its users.
A text is the result of formatting, before unified_out puts it into a line (Model/Log.lean).
-/
set_option autoImplicit false
namespace StAsio

/-- The digits that `std::hex` gives, unpacker.h:39. -/
def hexDigit (n : Nat) : Char := if n < 10 then Char.ofNat ('0'.toNat + n) else Char.ofNat ('a'.toNat + (n - 10))

/-- `std::setfill('0') << std::setw(2) << std::hex << (int) (unsigned char) *data`, unpacker.h:39. -/
def hexByte (b : UInt8) : List Char := [hexDigit (b.toNat / 16), hexDigit (b.toNat % 16)]

/-- What is put before byte `i`, unpacker.h:30-38. -/
def dumpSep (i : Nat) : List Char :=
  if 0 < i then
    if i % 8 = 0 then ['\n']
    else if i % 4 = 0 then [' ', ' ']
    else [' ']
  else []

/-- The loop, unpacker.h:28-40: `n` iterations are left, `i` is the current one; reading behind the end of the buffer is none. -/
def dumpGo (data : Bytes) : Nat → Nat → Option (List Char)
  | 0, _ => some []
  | n + 1, i => do
    let b ← data[i]?
    return dumpSep i ++ hexByte b ++ (← dumpGo data n (i + 1))

/-- `unpacker_helper::dump_left_data(data, cur_msg_len, remain_len)`, unpacker.h:23-46: the texts that are logged (none or one). `(size_t) -1` is 2^64 - 1. `data` is not NULL. -/
def dumpLeft (data : Bytes) (cur remain : Nat) : Option (List (List Char)) :=
  if 0 < remain then do
    let os ← dumpGo data remain 0
    let cur := if cur = 2 ^ 64 - 1 then 0 else cur -- shorten the logs
    return ["unparsed data (current msg length is: ".toList ++ (toString cur).toList ++ ") are:\n".toList ++ os]
  else return []

/-- The value of the variable cur_msg_len: -1 is none in the models of the unpackers. -/
def curMsgLen (cur : Option Nat) : Nat := cur.getD (2 ^ 64 - 1)

/-- `unpacker::dump_left_data`, unpacker.h:103. -/
def Unp.dump (u : Unp) : Option (List (List Char)) := dumpLeft u.raw (curMsgLen u.cur) u.remain

/-- `flexible_unpacker::dump_left_data`, unpacker.h:230. -/
def Flex.dump (u : Flex) : Option (List (List Char)) := dumpLeft (if u.big = [] then u.raw else u.big) (curMsgLen u.cur) u.remain

/-- `prefix_suffix_unpacker::dump_left_data`, unpacker.h:666. -/
def Ps.dump (u : Ps) : Option (List (List Char)) := dumpLeft u.raw (curMsgLen u.cur) u.remain

/-- What `non_copy_unpacker::parse_msg` logs before it returns false, unpacker.h:486-511; `u` is the state before. The inherited dump_left_data
does nothing (base.h:280). -/
def NonCopy.dump (c : Cfg) (u : NonCopy) (bytes : Nat) : Option (List (List Char)) :=
  if u.step = 0 then
    if c.headLen ≠ bytes then dumpLeft u.head c.headLen bytes
    else dumpLeft u.head ((beVal u.head + 2 ^ 64 - c.headLen) % 2 ^ 64) bytes
  else dumpLeft u.raw u.raw.length bytes

/-- An unpacker together with what has been logged. on_unpack_error() (tcp/client_socket.h:151, tcp/server_socket.h:62) calls dump_left_data() between a
parse_msg that returned false and reset() (tcp/socket.h:359-365); `dump u n v` is what is logged if `parse_msg(n)` failed and turned `u` into `v`. -/
def dumpOps {σ : Type} (o : UnpackerOps σ) (dump : σ → Nat → σ → Option (List (List Char))) : UnpackerOps (σ × List (List Char)) where
  prepare u := (o.prepare u.1).map fun r => ((r.1, u.2), r.2)
  write u got d := (o.write u.1 got d).map fun r => (r, u.2)
  cond u got := (o.cond u.1 got).map fun r => ((r.1, u.2), r.2)
  parse u n := (o.parse u.1 n).bind fun r =>
    if r.2.2 then some ((r.1, u.2), r.2)
    else (dump u.1 n r.1).map fun t => ((r.1, u.2 ++ t), r.2)
  reset u := (o.reset u.1, u.2)

end StAsio
