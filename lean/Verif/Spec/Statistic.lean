import Verif.Spec.SendOrder
import Verif.Spec.UdpOrder
import Verif.Model.RecvDispatch

/-!
# What statistics should say

Messages sent and received since the last reset, in terms of what can be observed of the senders and receivers (Spec/SendOrder, Spec/UdpOrder, Spec/Dispatch); sum, number, smallest and largest of measured durations.
-/

set_option autoImplicit false

namespace StAsio

/-- TCP: the messages reported as sent since the last reset. -/
def sentSinceReset (es : List TxEv) : List TxMsg := es.foldl (fun acc e => match e with | .sent ms => acc ++ ms | .cleared _ => [] | _ => acc) []

/-- UDP: the messages reported as sent since the last reset. -/
def uSentSinceReset (es : List UEv) : List UMsg := es.foldl (fun acc e => match e with | .sent m => acc ++ [m] | .cleared _ => [] | _ => acc) []

/-- The messages received since the last reset. -/
def receivedSinceReset (es : List REv) : List Bytes := es.foldl (fun acc e => match e with | .received ms => acc ++ ms | .cleared => [] | _ => acc) []

/-- The smallest of some durations. -/
def smallest : List Int → Option Int
  | [] => none
  | x :: xs => match smallest xs with
    | none => some x
    | some m => some (min x m)

/-- The largest of some durations. -/
def largest : List Int → Option Int
  | [] => none
  | x :: xs => match largest xs with
    | none => some x
    | some m => some (max x m)

end StAsio
