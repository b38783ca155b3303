/-!
echo_client/echo_client.cpp:319-355: the links of echo_client are distributed over groups, one for each sending thread. A link is a number. Unsigned numbers do not overflow but for group_index, which begins at -1.
-/
set_option autoImplicit false
namespace StAsio

/-- link_groups, group_index (none: -1), this_group_link_num, left_link_num: echo_client.cpp:345, 349-352. -/
structure Gl where
  groups : List (List Nat)
  index : Option Nat
  this : Nat
  left : Nat
  deriving DecidableEq, Repr

/-- ++group_index, from -1 to 0: echo_client.cpp:331. -/
def Gl.succ : Option Nat → Nat
  | none => 0
  | some i => i + 1

/-- The part of group_links which begins a new group: echo_client.cpp:322-332. -/
def Gl.turn (per : Nat) (s : Gl) : Gl :=
  if s.this = 0 then
    if 0 < s.left then { s with this := per + 1, left := s.left - 1, index := some (Gl.succ s.index) }
    else { s with this := per, index := some (Gl.succ s.index) }
  else s

/-- group_links: echo_client.cpp:319-336; none: an access outside of link_groups, or this_group_link_num goes below 0. -/
def Gl.put (per : Nat) (s : Gl) (link : Nat) : Option Gl :=
  let s := s.turn per
  match s.index with
  | some i => if 0 < s.this ∧ i < s.groups.length then some { s with this := s.this - 1, groups := s.groups.set i (s.groups.getD i [] ++ [link]) } else none
  | none => none

/-- do_something_to_all: echo_client.cpp:353-354. -/
def Gl.all (per : Nat) : Gl → List Nat → Option Gl
  | s, [] => some s
  | s, l :: ls => (s.put per l).bind fun s => Gl.all per s ls

/-- send_msg_concurrently up to the threads: echo_client.cpp:339-354; `size` is what client.size() gave, `links` the links do_something_to_all finds. none: also a division by zero. -/
def groupLinks (threads size : Nat) (links : List Nat) : Option (List (List Nat)) :=
  let num := Nat.min threads size
  if num = 0 then none
  else
    let per := size / num
    (Gl.all per { groups := List.replicate num [], index := none, this := 0, left := size - num * per } links).map (·.groups)

end StAsio
