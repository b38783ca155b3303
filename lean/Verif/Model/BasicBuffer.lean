import Verif.Model.Reader
/-!
Model of basic_buffer, include/ext/ext.h:71-273.

`mem` is the block `buff` points to (`none`: NULL), `len` and `cap` are 32 bit unsigned numbers, sizes passed in are
`size_t` (64 bit; natural numbers here, additions that stay below 2^64 because both operands are at most UINT_MAX or were
checked). `junk n` is the indeterminate content of `n` freshly allocated bytes. Results are `none` for undefined behaviour
(access outside the block), otherwise the new state and the exception thrown, if any.
Simplification: `realloc` always succeeds (no `bad_alloc`).
-/
set_option autoImplicit false
namespace StAsio

structure Bb where
  mem : Option Bytes
  len : Nat
  cap : Nat
  deriving DecidableEq, Repr

inductive BbExc where
  | lengthError
  | outOfRange
  deriving DecidableEq, Repr

abbrev BbRes := Option (Bb × Option BbExc)

/-- Go on unless an exception was thrown. -/
def BbRes.andThen (r : BbRes) (f : Bb → BbRes) : BbRes :=
  match r with
  | none => none
  | some (b, some e) => some (b, some e)
  | some (b, none) => f b

/-- `max_size()`, line 250: UINT_MAX. -/
def bbMax : Nat := 2 ^ 32 - 1

/-- `do_detach()`, line 266 (default constructor, line 74). -/
def Bb.empty : Bb := { mem := none, len := 0, cap := 0 }

/-- `size()`, line 257. -/
def Bb.size (b : Bb) : Nat := if b.mem.isNone then 0 else b.len

/-- `realloc(buff, n)`, line 240: the common prefix is kept, the rest is indeterminate. -/
def Bb.realloc (junk : Nat → Bytes) (mem : Option Bytes) (n : Nat) : Bytes :=
  let old := (mem.getD []).take n
  old ++ junk (n - old.length)

/-- The rounding of lines 230-236; `capacity & 0xFFFFFFF0`. -/
def Bb.round (capacity : Nat) : Nat :=
  let newCap := capacity - capacity % 16 -- `capacity` is at most UINT_MAX here
  if newCap < capacity then
    let newCap := newCap + 0x10
    if newCap < capacity ∨ bbMax < newCap then bbMax else newCap
  else newCap

/-- `reserve`, lines 206-248 (the non-MSVC growth strategy; `2 * cap` is computed in 32 bits). -/
def Bb.reserve (junk : Nat → Bytes) (b : Bb) (capacity : Nat) : BbRes :=
  if bbMax < capacity then some (b, some .lengthError)
  else
    let capacity := if capacity < b.len then b.len else if capacity = 0 then 16 else capacity
    if capacity ≠ b.cap then
      let twice := 2 * b.cap % 2 ^ 32
      let capacity := if b.cap < capacity ∧ capacity < twice then (if bbMax < twice then bbMax else twice) else capacity
      let newCap := Bb.round capacity
      if newCap ≠ b.cap then some ({ b with mem := some (Bb.realloc junk b.mem newCap), cap := newCap % 2 ^ 32 }, none)
      else some (b, none)
    else some (b, none)

/-- `resize`, lines 194-200. -/
def Bb.resize (junk : Nat → Bytes) (b : Bb) (n : Nat) : BbRes :=
  BbRes.andThen (if b.cap < n then b.reserve junk n else some (b, none)) (fun b => some ({ b with len := n % 2 ^ 32 }, none))

/-- `check_length`, line 268: does it throw? -/
def Bb.tooLong (b : Bb) (add : Nat) : Bool := decide (bbMax < add ∨ bbMax - add < b.len)

/-- Lines 130-137 (and 110-117): make room and copy `src` behind the content. -/
def Bb.put (junk : Nat → Bytes) (b : Bb) (src : Bytes) : BbRes :=
  if b.tooLong src.length then some (b, some .lengthError)
  else
    let capacity := b.len + src.length
    BbRes.andThen (if b.cap < capacity then b.reserve junk capacity else some (b, none)) (fun b => do
      let mem ← b.mem
      let mem ← writeAt mem b.len src
      return ({ b with mem := some mem, len := (b.len + src.length) % 2 ^ 32 }, none))

/-- `append(count, c)`, lines 106-121. -/
def Bb.appendFill (junk : Nat → Bytes) (b : Bb) (count : Nat) (c : Byte) : BbRes :=
  if 0 < count then b.put junk (List.replicate count c) else some (b, none)

/-- `append(_buff, _len)`, lines 126-141; `none` is a NULL pointer, otherwise the `_len` bytes pointed to. -/
def Bb.append (junk : Nat → Bytes) (b : Bb) (src : Option Bytes) : BbRes :=
  match src with
  | none => some (b, none)
  | some src => if 0 < src.length then b.put junk src else some (b, none)

/-- `append2(_buff, _len)`, lines 164-170. -/
def Bb.append2 (junk : Nat → Bytes) (b : Bb) (src : Option Bytes) : BbRes :=
  if 0 < b.len then do
    let mem ← b.mem
    let last ← readAt mem (b.len - 1) 1
    BbRes.andThen (if last = [0] then b.resize junk (b.len - 1) else some (b, none)) (fun b => b.append junk src)
  else b.append junk src

/-- `append2(buff)`, line 163; `s` is the C string without its NUL. -/
def Bb.append2Str (junk : Nat → Bytes) (b : Bb) (s : Bytes) : BbRes := b.append junk (some (s ++ [0]))

/-- `erase`, lines 172-192. -/
def Bb.erase (junk : Nat → Bytes) (b : Bb) (pos len : Nat) : BbRes :=
  if b.size < pos then some (b, some .outOfRange)
  else if b.size ≤ len then b.resize junk pos
  else
    let start := b.size - len
    if start ≤ pos then b.resize junk pos
    else do
      let mem ← b.mem
      let tail ← readAt mem (pos + len) (b.size - pos - len)
      let mem ← writeAt mem pos tail
      { b with mem := some mem }.resize junk (b.size - len)

/-- `assign(buff, len)`, line 203 (also `operator=`, lines 94-98). -/
def Bb.assign (junk : Nat → Bytes) (b : Bb) (src : Option Bytes) : BbRes := (b.resize junk 0).andThen (fun b => b.append junk src)

/-- `clean()`, line 255. -/
def Bb.clean (_b : Bb) : Bb := Bb.empty

/-- The bytes `data()` points to, `size()` of them. -/
def Bb.content (b : Bb) : Bytes := (b.mem.getD []).take b.size

/-- Operations on a pair of buffers. -/
inductive BbOp where
  | appendFill (count : Nat) (c : Byte)
  | append (src : Option Bytes)
  | append2 (src : Option Bytes)
  | append2Str (s : Bytes)
  | erase (pos len : Nat)
  | resize (n : Nat)
  | assign (src : Option Bytes)
  | shrink
  | reserve (n : Nat)
  | clear
  | clean
  /-- `swap`, line 259 -/
  | swap
  /-- `x = y`, line 97 -/
  | copyFrom
  /-- `x += y`, lines 103, 123 -/
  | appendFrom
  deriving DecidableEq, Repr

/-- `data()`/`size()` of a buffer as an argument of `append`. -/
def Bb.arg (b : Bb) : Option Bytes := if b.mem.isNone then none else some b.content

def Bb.step (junk : Nat → Bytes) (op : BbOp) (x y : Bb) : Option (Bb × Bb × Option BbExc) :=
  let one (r : BbRes) : Option (Bb × Bb × Option BbExc) := r.map (fun r => (r.1, y, r.2))
  match op with
  | .appendFill n c => one (x.appendFill junk n c)
  | .append s => one (x.append junk s)
  | .append2 s => one (x.append2 junk s)
  | .append2Str s => one (x.append2Str junk s)
  | .erase p n => one (x.erase junk p n)
  | .resize n => one (x.resize junk n)
  | .assign s => one (x.assign junk s)
  | .shrink => one (x.reserve junk 0) -- line 205
  | .reserve n => one (x.reserve junk n)
  | .clear => one (x.resize junk 0) -- line 254
  | .clean => one (some (x.clean, none))
  | .swap => some (y, x, none)
  | .copyFrom => one (x.assign junk y.arg)
  | .appendFrom => one (x.append junk y.arg)

def Bb.run (junk : Nat → Bytes) : List BbOp → Bb → Bb → Option (Bb × Bb × List (Option BbExc))
  | [], x, y => some (x, y, [])
  | op :: ops, x, y => do
    let (x, y, e) ← Bb.step junk op x y
    let (x, y, es) ← Bb.run junk ops x y
    return (x, y, e :: es)

/-- `x += x` (lines 103, 123): the source pointer is `x`'s own block; if `reserve` has to reallocate, the block the
pointer refers to is freed before it is read (`none`). -/
def Bb.appendSelf (junk : Nat → Bytes) (x : Bb) : BbRes :=
  match x.arg with
  | none => some (x, none)
  | some s =>
    if 0 < s.length then
      if x.tooLong s.length then some (x, some .lengthError)
      else if x.cap < x.len + s.length then none
      else x.put junk s
    else some (x, none)

/-- `x = x` (line 97): `resize(0)` comes first, so there is nothing left to append. -/
def Bb.assignSelf (junk : Nat → Bytes) (x : Bb) : BbRes := (x.resize junk 0).andThen (fun x => x.append junk x.arg)

end StAsio
