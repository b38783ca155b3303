/-!
Words for C109: the links of concurrent_client, each of which sends what it receives back to an echo server and is shut down if an echo takes too long.
-/
set_option autoImplicit false
namespace StAsio

/-- What happens to a link; every message sent has its own number, the last component is the time. -/
inductive DwEv where
  /-- connected -/
  | up (t : Nat)
  /-- message i is sent -/
  | sent (i t : Nat)
  /-- the echo of message i is handled on a link that works and stays up -/
  | back (i t : Nat)
  /-- the echo of message i is handled and the link is shut down because of it -/
  | late (i t : Nat)
  /-- the echo of message i is handled although the link was shut down or lost already -/
  | after (i t : Nat)
  /-- the link is shut down although no echo has come -/
  | shut (t : Nat)
  /-- the link is lost -/
  | down (t : Nat)
  /-- message i is lost together with a link or a failed write -/
  | gone (i : Nat)
  deriving DecidableEq, Repr

structure DwSt where
  /-- the link is up -/
  up : Bool
  /-- the time of connecting or of the latest echo -/
  last : Nat
  /-- the program has shut the link down -/
  over : Bool
  deriving DecidableEq, Repr

def DwSt.init : DwSt := { up := false, last := 0, over := false }

/-- The ideal watcher: a link is shut down only if more than max passed since it was connected or an echo came last, an echo later than that is never accepted, and a link that was shut down is not connected again. -/
def dwNext (max : Nat) (w : DwSt) : DwEv → Option DwSt
  | .up t => if w.up = false ∧ w.over = false then some { w with up := true, last := t } else none
  | .sent _ _ => some w
  | .back _ t => if w.up = true ∧ t - w.last ≤ max then some { w with last := t } else none
  | .late _ t => if w.up = true ∧ max < t - w.last then some { w with up := false, over := true } else none
  | .after _ _ => if w.up = false then some w else none
  | .shut t => if w.up = true ∧ max < t - w.last then some { w with up := false, over := true } else none
  | .down _ => if w.up = true then some { w with up := false } else none
  | .gone _ => some w

/-- Everything that happened is what the ideal watcher does. -/
def dwRight (max : Nat) (w : DwSt) : List DwEv → Option DwSt
  | [] => some w
  | e :: es => (dwNext max w e).bind fun v => dwRight max v es

/-- One event more. -/
def dwOut (l : List Nat) : DwEv → List Nat
  | .sent i _ => l ++ [i]
  | .back i _ => l.filter (· != i)
  | .late i _ => l.filter (· != i)
  | .after i _ => l.filter (· != i)
  | .gone i => l.filter (· != i)
  | _ => l

/-- The messages sent whose echo has not been handled and which are not lost. -/
def dwOnWay (es : List DwEv) : List Nat := es.foldl dwOut []

end StAsio
