/-!
What the echo test (echo_client against echo_server) shows, for any number of links.
-/
set_option autoImplicit false
namespace StAsio

/-- A test the user asks for. -/
inductive EtTest where
  /-- `num` messages of `len` bytes over every link, sent by this many threads -/
  | conc (threads num len : Nat)
  /-- one message of `len` bytes for each random number, which selects its link -/
  | rand (rs : List Nat) (len : Nat)
  deriving DecidableEq, Repr

/-- The link a random number between 0 and `max` selects out of `n` links. -/
def randomLink (n max r : Nat) : Nat := r * (n - 1) / max

/-- The numbers of the messages that link `i` of `n` has to bring back, in this order. -/
def EtTest.expect (n max : Nat) : EtTest → Nat → List Nat
  | .conc _ num _, i => if i < n then List.range num else []
  | .rand rs _, i => (rs.zipIdx.filter (fun x => randomLink n max x.1 = i)).map (·.2)

inductive EtEv where
  /-- a test began -/
  | began (t : EtTest)
  /-- message number `seq` of the test came back over link `i` -/
  | arrived (i seq : Nat)
  /-- "check msg error" for link `i` -/
  | complaint (i : Nat)
  /-- "finished in …" -/
  | finished
  deriving DecidableEq, Repr

/-- What remains to come back after an event, link by link; `none` inside: no test is going on. The result `none`: the event is wrong. Over each link exactly its messages come back, in order, and a test is finished when all of them did. -/
def EtEv.next (n max : Nat) : Option (Nat → List Nat) → EtEv → Option (Option (Nat → List Nat))
  | none, .began t => some (some (t.expect n max))
  | some f, .arrived i seq => match f i with
    | x :: r => if x = seq then some (some (fun j => if j = i then r else f j)) else none
    | [] => none
  | some f, .finished => if (List.range n).all (fun i => (f i).isEmpty) then some none else none
  | st, .complaint _ => some st
  | none, .arrived _ _ => none
  | none, .finished => none
  | some _, .began _ => none

def EtEv.run (n max : Nat) : Option (Nat → List Nat) → List EtEv → Option (Option (Nat → List Nat))
  | st, [] => some st
  | st, e :: es => (EtEv.next n max st e).bind fun st => EtEv.run n max st es

end StAsio
