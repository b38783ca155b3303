import Verif.Spec.Frames
/-!
Sending message objects (unique_buffer, shared_buffer), as the user of such messages sees it: message variables hold byte strings, and a send function takes the bytes its variables hold at the call.
-/
set_option autoImplicit false
namespace StAsio

/-- What a program does with message objects and sockets. `v`, `w` are message variables, `i` is a socket, `can` is a list of messages. -/
inductive WAct where
  /-- a new object with this content; what the variable held before is released -/
  | make (v : Nat) (b : Bytes)
  | clear (v : Nat)
  /-- `w = v`; only shared_buffer -/
  | copy (v w : Nat)
  | swap (v w : Nat)
  /-- changes the content of the object through raw_buffer() -/
  | change (v : Nat) (b : Bytes)
  /-- can.emplace_back().swap(v) -/
  | push (v : Nat)
  /-- send_msg / send_native_msg; `byRef`: by non-const reference -/
  | send (i : Nat) (native ovf byRef : Bool) (v : Nat)
  | send2 (i : Nat) (native ovf byRef : Bool) (v w : Nat)
  | sendList (i : Nat) (native ovf : Bool)
  /-- the socket takes messages out of the send buffer (at least `max` bytes, or all) and begins to write them -/
  | take (i max : Nat)
  /-- writing is completed -/
  | wrote (i : Nat)
  deriving DecidableEq, Repr

/-- The user's view: byte strings in variables; `out` are the bytes every socket has promised to send. -/
structure IMsgs where
  vars : List Bytes
  can : List Bytes
  out : List Bytes
  deriving DecidableEq, Repr

def IMsgs.var (s : IMsgs) (v : Nat) : Bytes := s.vars.getD v []

/-- `ok`: what the function returned (true for everything that returns nothing); `hl`: length of the head of a frame. -/
def IMsgs.step (hl : Nat) (s : IMsgs) (a : WAct) (ok : Bool) : IMsgs :=
  match a, ok with
  | .make v b, _ => { s with vars := s.vars.set v b }
  | .clear v, _ => { s with vars := s.vars.set v [] }
  | .copy v w, _ => { s with vars := s.vars.set w (s.var v) }
  | .swap v w, _ => { s with vars := (s.vars.set v (s.var w)).set w (s.var v) }
  | .change v b, _ => { s with vars := s.vars.set v b }
  | .push v, _ => { s with vars := s.vars.set v [], can := s.can ++ [s.var v] }
  | .send i native _ byRef v, true =>
    { s with vars := if byRef then s.vars.set v [] else s.vars, out := s.out.modify i (· ++ if native then s.var v else wire hl (s.var v)) }
  | .send2 i native _ byRef v w, true =>
    { s with vars := if byRef then (s.vars.set v []).set w [] else s.vars, out := s.out.modify i (· ++ if native then s.var v ++ s.var w else wire hl (s.var v ++ s.var w)) }
  | .sendList i native _, true =>
    { s with can := if native then s.can.map (fun _ => []) else [], out := s.out.modify i (· ++ if native then s.can.flatten else wire hl s.can.flatten) }
  | _, _ => s

def IMsgs.run (hl : Nat) : IMsgs → List (WAct × Bool) → IMsgs
  | s, [] => s
  | s, (a, ok) :: l => IMsgs.run hl (s.step hl a ok) l

/-- `n` variables without content, `k` sockets. -/
def IMsgs.init (n k : Nat) : IMsgs := { vars := List.replicate n [], can := [], out := List.replicate k [] }

end StAsio
