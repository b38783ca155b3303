import Verif.Spec.ModePipe
import Verif.Spec.UdpOrder
/-!
What can be seen of UDP sockets that send to one receiving socket, over a network that may lose, duplicate, delay and reorder datagrams.
-/
set_option autoImplicit false
namespace StAsio

inductive UPEv where
  /-- something happened at sending socket `i` -/
  | tx (i : Nat) (e : UEv)
  /-- a datagram with this message left socket `i` -/
  | left (i : Nat) (m : UMsg)
  /-- a copy of the k-th datagram that left (`none`: of a datagram of somebody else) with content d arrived at the receiving socket -/
  | arrived (k : Option Nat) (d : Bytes)
  /-- something happened at the receiving socket -/
  | rx (e : MEv)
  deriving DecidableEq, Repr

/-- What happened at sending socket `i`. -/
def upTx (i : Nat) : List UPEv → List UEv
  | [] => []
  | .tx j e :: es => if j = i then e :: upTx i es else upTx i es
  | _ :: es => upTx i es

/-- What happened at the receiving socket. -/
def upRx : List UPEv → List MEv
  | [] => []
  | .rx e :: es => e :: upRx es
  | _ :: es => upRx es

/-- The datagrams that left, in order, each with the socket it came from. -/
def upLeft : List UPEv → List (Nat × UMsg)
  | [] => []
  | .left i m :: es => (i, m) :: upLeft es
  | _ :: es => upLeft es

/-- The contents of all datagrams that arrived. -/
def upArrived : List UPEv → List Bytes
  | [] => []
  | .arrived _ d :: es => d :: upArrived es
  | _ :: es => upArrived es

/-- Which of the datagrams that left arrived, in the order of arrival. -/
def upCopies : List UPEv → List Nat
  | [] => []
  | .arrived (some k) _ :: es => k :: upCopies es
  | _ :: es => upCopies es

/-- Nobody else sent anything. -/
def upAlone (es : List UPEv) : Prop := ∀ d, UPEv.arrived none d ∉ es

/-- The numbers of the datagrams for `me`, counted from n. -/
def mine (me n : Nat) : List (Nat × UMsg) → List Nat
  | [] => []
  | x :: xs => if x.2.peer = me then n :: mine me (n + 1) xs else mine me (n + 1) xs

/-- The messages of the datagrams that left socket `i`. -/
def leftBy (i : Nat) (xs : List (Nat × UMsg)) : List UMsg := (xs.filter (fun x => x.1 == i)).map (fun x => x.2)

/-- The contents of the copies of datagrams of socket `i`, in the order of arrival. -/
def upFrom (i : Nat) (es : List UPEv) : List Bytes :=
  (upCopies es).filterMap (fun k => match (upLeft es)[k]? with
    | some (j, m) => if j = i then some m.data else none
    | none => none)

/-- The contents of the messages for `me`. -/
def toMe (me : Nat) (ms : List UMsg) : List Bytes := (ms.filter (fun m => m.peer == me)).map (fun m => m.data)

/-- What the receiving application is to see of datagrams: a datagram longer than the buffer is cut off, an empty one is not shown. -/
def dgShown (size : Nat) (ds : List Bytes) : List Bytes := nonEmpty (ds.map (fun d => d.take size))

end StAsio
