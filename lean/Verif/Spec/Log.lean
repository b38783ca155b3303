/-!
What a line of log output is.
-/
set_option autoImplicit false
namespace StAsio

/-- The string that C's string functions see in a character array: up to the first NUL; none if there is none (reading it would leave the array). -/
def cString : List Char → Option (List Char)
  | [] => none
  | c :: cs => if c = '\x00' then some [] else (cString cs).map (c :: ·)

/-- One line: the level if there is one, the thread, the time, the text. -/
def logLine (head : Option (List Char)) (thread time text : List Char) : List Char :=
  (match head with
    | some h => ['['] ++ h ++ [']', ' ']
    | none => []) ++ ['['] ++ thread ++ [']', ' '] ++ time ++ [' ', '-', '>', ' '] ++ text

end StAsio
