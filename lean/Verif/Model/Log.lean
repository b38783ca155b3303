import Verif.Spec.Log
/-!
log_formater, include/base.h:1012-1058.

Character arrays are lists of fixed length; before they are written their contents are arbitrary. Writing outside of one is none (undefined behaviour).

Contracts used: a std::stringstream on libstdc++ writes into the buffer given to pubsetbuf as long as it has room, and into its own memory after that; on libc++ and MSVC it ignores pubsetbuf, and sgetn copies from it
(lines 1045-1047). tellp gives the number of characters written. vsnprintf(p, m, ...) writes at most m - 1 characters of its text, and a NUL. ctime_r writes a text that ends in a newline.
Simplifications: memory is available (otherwise tellp gives -1), vsnprintf has no encoding errors; `text` is what the format and its arguments give, without NULs.
-/
set_option autoImplicit false
namespace StAsio

/-- Assignment to the elements of a character array from `i` on. -/
def arrWrite (buf : List Char) (i : Nat) (cs : List Char) : Option (List Char) :=
  if i + cs.length ≤ buf.length then some (buf.take i ++ cs ++ buf.drop (i + cs.length)) else none

/-- vsnprintf (C99), m is not 0. -/
def vsnprintf (buf : List Char) (i m : Nat) (text : List Char) : Option (List Char) := arrWrite buf i (text.take (m - 1) ++ ['\x00'])

/-- to_time_str: base.h:1015-1029; `buf` is time_buff after ctime_r. The assertion is none. -/
def toTimeStr (buf : List Char) : Option (List Char) :=
  (cString buf).bind fun t =>
    let len := t.length
    if 0 < len then
      if buf[len - 1]? = some '\n' then (arrWrite buf (len - 1) ['\x00']).bind cString else some t
    else none

/-- What goes into the stream: base.h:1038-1043. -/
def logHeader (head : Option (List Char)) (thread time : List Char) : List Char :=
  (match head with
    | some h => "[".toList ++ h ++ "] ".toList
    | none => []) ++ "[".toList ++ thread ++ "] ".toList ++ time ++ " -> ".toList

/-- all_out: base.h:1031-1057; `buf` is the array given with its arbitrary contents, time_buff is what ctime_r left. -/
def allOut (head : Option (List Char)) (buf thread timeBuff text : List Char) : Option (List Char) :=
  if buf.length = 0 then none -- the assertion
  else
    (toTimeStr timeBuff).bind fun time =>
      let h := logHeader head thread time
      (arrWrite buf 0 (h.take buf.length)).bind fun buf =>
        let len := h.length -- tellp
        if buf.length ≤ len then arrWrite buf (buf.length - 1) ['\x00']
        else vsnprintf buf len (buf.length - len) text

end StAsio
