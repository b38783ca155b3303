import Verif.Spec.Bytes
/-!
Specification of the length-prefixed wire protocol ("length + body", README / `include/ext/packer.h:58`),
independent of how the unpacker is implemented.

A frame is a head of `hl` bytes holding (big-endian) the total frame length, followed by the body.
-/
set_option autoImplicit false
namespace StAsio

/-- What remains after all complete well-formed frames have been cut off the front of a byte string. -/
inductive Tail where
  /-- an incomplete, so far acceptable frame -/
  | incomplete (rest : Bytes)
  /-- a completely received head whose length is impossible -/
  | bad (rest : Bytes)
  deriving DecidableEq, Repr

/-- The ideal decoder: cut all complete frames (head included) off the front. -/
def frames (hl maxLen : Nat) (s : Bytes) : List Bytes × Tail :=
  if hl = 0 ∨ s.length < hl then ([], .incomplete s)
  else
    let n := beVal (s.take hl)
    if n < hl ∨ maxLen < n then ([], .bad s)
    else if s.length < n then ([], .incomplete s)
    else
      let r := frames hl maxLen (s.drop n)
      (s.take n :: r.1, r.2)
termination_by s.length
decreasing_by simp only [List.length_drop]; omega

/-- What the application sees of a list of frames: heartbeats (frames without body) are dropped, and the
head is dropped unless the application asked for unstripped messages. -/
def visible (hl : Nat) (stripped : Bool) (fs : List Bytes) : List Bytes :=
  (fs.filter (fun f => decide (hl < f.length))).map (fun f => if stripped then f.drop hl else f)

/-- One thing a peer may send: a message body, or a heartbeat (empty body). -/
abbrev Item := Bytes

/-- The ideal wire format of one item. -/
def wire (hl : Nat) (body : Item) : Bytes := be hl (hl + body.length) ++ body

/-- The messages an application must have received once the first `n` bytes of the stream of `items`
have arrived: the bodies of the items that are completely contained in these `n` bytes. -/
def arrived (hl : Nat) (stripped : Bool) : List Item → Nat → List Bytes
  | [], _ => []
  | b :: rest, n =>
    if n < hl + b.length then []
    else (if b = [] then [] else [if stripped then b else wire hl b]) ++
      arrived hl stripped rest (n - (hl + b.length))

end StAsio
