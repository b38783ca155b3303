import Verif.Model.Reader
import Verif.Model.Packer
/-!
Model of prefix_suffix_unpacker, include/ext/unpacker.h:608-732.
-/
set_option autoImplicit false
namespace StAsio

/-- `cur`: `none` is -1 (prefix not received), `some 0` prefix received, otherwise the message length (line 730). -/
structure Ps where
  raw : Bytes
  cur : Option Nat
  remain : Nat
  stripped : Bool

/-- The `for` loop of `memmem`, lines 656-658: `n` iterations left, `i` the current one. -/
def memmemGo (mem sub : Bytes) : Nat → Nat → Option (Option Nat)
  | 0, _ => some none
  | n + 1, i => do
    let b ← readAt mem i sub.length
    if b = sub then some (some i) else memmemGo mem sub n (i + 1)

/-- `memmem`, lines 651-662; the result is an offset. -/
def memmem (mem sub : Bytes) : Option (Option Nat) :=
  if sub.length ≤ mem.length then memmemGo mem sub (mem.length - sub.length + 1) 0 else some none

/-- Second half of `peek_msg`, lines 634-647. `pos` is the offset of `buff` in `raw_buff`. Result: new `cur_msg_len`, return value. -/
def Ps.search (c : Cfg) (p : PsCfg) (raw : Bytes) (pos len : Nat) (cur : Option Nat) : Option (Option Nat × Nat) :=
  if p.pre.length + p.suf.length < len then do
    let mem ← readAt raw (pos + p.pre.length) (len - p.pre.length)
    match ← memmem mem p.suf with
    | some i => return (some (p.pre.length + i + p.suf.length), 0)
    | none => return (cur, if c.bufSize ≤ len then 0 else c.bufSize)
  else return (cur, c.bufSize)

/-- `peek_msg`, lines 617-648. -/
def Ps.peek (c : Cfg) (p : PsCfg) (raw : Bytes) (pos len : Nat) : Option Nat → Option (Option Nat × Nat)
  | none =>
    if p.pre.length ≤ len then do
      let b ← readAt raw pos p.pre.length
      if p.pre = b then Ps.search c p raw pos len (some 0) else return (none, 0)
    else Ps.search c p raw pos len none
  | some 0 => Ps.search c p raw pos len (some 0)
  | some (n + 1) => some (some (n + 1), 0)

/-- The bytes put into the message container, lines 680-683. -/
def Ps.body (p : PsCfg) (raw : Bytes) (stripped : Bool) (pos len : Nat) : Option Bytes :=
  if stripped then readAt raw (pos + p.pre.length) (len - (p.pre.length + p.suf.length)) else readAt raw pos len

/-- The `while` loop of `parse_msg`, lines 675-688. First argument: fuel; running out of it (endless loop) is `none`.
Result: final `pnext` offset, `cur_msg_len`, `remain_len`, messages. -/
def Ps.loop (c : Cfg) (p : PsCfg) (raw : Bytes) (stripped : Bool) : Nat → Nat → Option Nat → Nat → List Bytes →
    Option (Nat × Option Nat × Nat × List Bytes)
  | 0, _, _, _, _ => none
  | fuel + 1, pos, cur, remain, ms => do
    let (cur, ret) ← Ps.peek c p raw pos remain cur
    match ret, cur with
    | 0, some (n + 1) =>
      let len := n + 1
      let min := p.pre.length + p.suf.length
      if len < min then none -- assert, line 677
      else if remain < len then none -- unsigned underflow, line 685
      else
        let m ← Ps.body p raw stripped pos len
        Ps.loop c p raw stripped fuel (pos + len) none (remain - len) (if min < len then ms ++ [m] else ms)
    | _, _ => return (pos, cur, remain, ms)

/-- `parse_msg`, lines 667-696. -/
def Ps.parse (c : Cfg) (p : PsCfg) (u : Ps) (bytes : Nat) : Option (Ps × List Bytes × Bool) :=
  let remain := u.remain + bytes
  if c.bufSize < remain then none -- assert, line 671
  else do
    let (pos, cur, remain, ms) ← Ps.loop c p u.raw u.stripped (remain + 1) 0 u.cur remain []
    if pos = 0 then return ({ u with cur, remain }, ms, false)
    else if 0 < remain then
      let raw ← writeAt u.raw 0 (← readAt u.raw pos remain)
      return ({ u with raw, cur, remain }, ms, true)
    else return ({ u with cur, remain }, ms, true)

/-- `completion_condition`, lines 701-710. -/
def Ps.cond (c : Cfg) (p : PsCfg) (u : Ps) (bytes : Nat) : Option (Ps × Nat) :=
  let len := u.remain + bytes
  if c.bufSize < len then none -- assert, line 707
  else do
    let (cur, ret) ← Ps.peek c p u.raw 0 len u.cur
    return ({ u with cur }, ret)

/-- `prepare_next_recv`, lines 714-720. -/
def Ps.prepare (c : Cfg) (u : Ps) : Option (Ps × Nat) :=
  if u.remain < c.bufSize then some (u, c.bufSize - u.remain) else none -- assert

def Ps.write (u : Ps) (got : Nat) (d : Bytes) : Option Ps := do return { u with raw := ← writeAt u.raw (u.remain + got) d }

/-- `reset`, line 665. -/
def Ps.reset (u : Ps) : Ps := { u with cur := none, remain := 0 }

def Ps.init (raw : Bytes) (stripped : Bool) : Ps := { raw, cur := none, remain := 0, stripped }

def psOps (c : Cfg) (p : PsCfg) : UnpackerOps Ps where
  prepare := Ps.prepare c
  write := Ps.write
  cond := Ps.cond c p
  parse := Ps.parse c p
  reset := Ps.reset

end StAsio
