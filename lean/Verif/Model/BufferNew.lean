import Verif.Model.BasicBuffer
/-!
The constructors of basic_buffer, include/ext/ext.h:74-92. `none` is undefined behaviour (a read outside the argument's memory); an exception means that no object comes into being.

An array of constant characters (a literal, say) goes to the overloads for pointers (lines 81, 126), because for them the conversion of the array ranks as high as the template's binding (lines 83, 143) and a function that is not a
template is preferred; an array of characters that are not constant goes to the templates (lines 82, 142), because its conversion needs a qualification too.

Simplification: a pointer is the memory from it on up to the end of the object it points into.
-/
set_option autoImplicit false
namespace StAsio

inductive BbNew where
  /-- `basic_buffer()` -/
  | dflt
  /-- `basic_buffer(size_t)` -/
  | len (n : Nat)
  /-- `basic_buffer(int)` -/
  | int (n : Int)
  /-- `basic_buffer(size_t, char)` -/
  | fill (n : Nat) (c : Byte)
  /-- `basic_buffer(char*)`, `basic_buffer(const char*)`; `none`: NULL -/
  | cstr (p : Option Bytes)
  /-- `basic_buffer(const char*, size_t)`; `none`: NULL -/
  | bytes (p : Option Bytes) (n : Nat)
  /-- `basic_buffer(char(&)[size], size_t)` -/
  | array (a : Bytes) (n : Nat)
  /-- `basic_buffer(const char(&)[size], size_t)` -/
  | constArray (a : Bytes) (n : Nat)
  /-- `basic_buffer(const basic_buffer&)`; any other class with `data()` and `size()` goes the same way -/
  | copy (other : Bb)
  /-- `basic_buffer(const Buff&)`, a class like std::string: `data()` is not NULL -/
  | other (o : Bytes)
  /-- `basic_buffer(const Buff&, size_t)` -/
  | sub (o : Bytes) (pos : Nat)
  /-- `basic_buffer(const Buff&, size_t, size_t)` -/
  | subLen (o : Bytes) (pos n : Nat)
  deriving Repr

/-- `strlen` of the string a pointer points to, with the string: needs a NUL. -/
def ntbs (m : Bytes) : Option Bytes := if (0 : Byte) ∈ m then some (m.takeWhile (· ≠ 0)) else none

/-- `append(const char*, size_t)`, lines 126-141: the bytes are read only if there is something to append and it is not too long. -/
def Bb.appendPtr (junk : Nat → Bytes) (b : Bb) (p : Option Bytes) (n : Nat) : BbRes :=
  match p with
  | none => some (b, none)
  | some m => if 0 < n then (if b.tooLong n then some (b, some .lengthError) else (readAt m 0 n).bind (fun s => b.append junk (some s))) else some (b, none)

/-- `pos + len > other.size() ? other.size() - pos : len`, line 91, in 64 bits. -/
def subCount (size pos n : Nat) : Nat := if size < (pos + n) % 2 ^ 64 then size - pos else n

/-- Lines 74-92. In line 91 `boost::next(other.size(), pos)` is the number `other.size() + pos` (with versions of Boost whose `next` takes anything that has `+`; older ones do not compile it), so the call goes to `append(size_t count, char c)` (line 106), and the number of bytes becomes the character. -/
def Bb.make (junk : Nat → Bytes) : BbNew → BbRes
  | .dflt => some (Bb.empty, none)
  | .len n => Bb.empty.resize junk n
  | .int n => if 0 < n then Bb.empty.resize junk n.toNat else some (Bb.empty, none)
  | .fill n c => Bb.empty.appendFill junk n c
  | .cstr none => none
  | .cstr (some m) => (ntbs m).bind (fun s => Bb.empty.append junk (some s))
  | .bytes p n => Bb.empty.appendPtr junk p n
  | .array a n => Bb.empty.appendPtr junk (some a) (min a.length n)
  | .constArray a n => Bb.empty.appendPtr junk (some a) n
  | .copy o => Bb.empty.append junk o.arg
  | .other o => Bb.empty.append junk (some o)
  | .sub o pos => if pos < o.length then Bb.empty.append junk (some (o.drop pos)) else some (Bb.empty, none)
  | .subLen o pos n => if pos < o.length then Bb.empty.appendFill junk (o.length + pos) (UInt8.ofNat (subCount o.length pos n)) else some (Bb.empty, none)

end StAsio
