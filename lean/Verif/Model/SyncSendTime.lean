import Verif.Model.TcpSend
import Verif.Spec.SyncSendTime

/-!
# Synchronous sending and time

The machine of Model/TcpSend.lean with a clock and with the callers that wait for the promises of their messages. Callers that can return do so before time passes.
-/

set_option autoImplicit false

namespace StAsio

/-- `calls`: when the call that waits for a promise came, and the duration it gave (socket.h:579, 605, 631); `done`: promises that have been set;
`used`: promises of all calls so far (each call makes its own, socket.h:589-592). -/
structure Sq where
  tx : Tx
  now : Nat
  calls : Nat → Option (Nat × Nat)
  done : Nat → Option SyncRes
  used : List Nat

def Sq.init : Sq := ⟨Tx.init, 0, fun _ => none, fun _ => none, []⟩

/-- Promises a step brings with it: a message has one, of a list the last message has (socket.h:589, 646). -/
def TxAct.promises : TxAct → List Nat
  | .send m _ _ => promiseIds [m]
  | .sendList ms _ => promiseIds ms
  | _ => []

inductive SqAct where
  /-- do_direct_sync_send_msg up to waiting; `a` puts the messages into the send buffer -/
  | call (p d : Nat) (a : TxAct)
  /-- any step of Model/TcpSend.lean without a promise -/
  | act (a : TxAct)
  /-- the future is ready -/
  | ret (p : Nat)
  /-- wait_for or timed_wait has waited until the end of the duration -/
  | timeout (p : Nat)
  /-- a unit of time passes -/
  | tick

/-- Promises set by some events (the first value counts). -/
def setAll (f : Nat → Option SyncRes) : List TxEv → Nat → Option SyncRes
  | [] => f
  | .resolved p r :: es => setAll (fun q => if q = p then (f q).or (some r) else f q) es
  | _ :: es => setAll f es

/-- Does the call that waits for `p` return before time passes: its promise has been set, or it has waited until the end of its duration (socket.h:599, 0 is waiting without end)? -/
def Sq.due (s : Sq) (p : Nat) : Bool := match s.calls p with
  | none => false
  | some (since, d) => (s.done p).isSome || (d != 0 && decide (since + d ≤ s.now))

/-- One step. -/
def Sq.step (batch : Nat) (s : Sq) : SqAct → Option (Sq × List SqEv)
  | .call p d a => -- socket.h:579-596, 605-621, 631-650; stopped() is not modelled (the call returns NOT_APPLICABLE and does nothing)
    if a.promises = [p] ∧ p ∉ s.used ∧ s.done p = none then match s.tx.step batch a with
      | some (t, es) =>
        if acceptedMsgs es = [] then some ({ s with tx := t, done := setAll s.done es, used := p :: s.used }, .declined p :: es.map .ev)
        else some ({ s with tx := t, done := setAll s.done es, used := p :: s.used, calls := fun q => if q = p then some (s.now, d) else s.calls q }, .called p d :: es.map .ev)
      | none => none
    else none
  | .act a =>
    if a.promises = [] then match s.tx.step batch a with
      | some (t, es) => some ({ s with tx := t, done := setAll s.done es }, es.map .ev)
      | none => none
    else none
  | .ret p => match s.calls p, s.done p with -- socket.h:599, f.get()
    | some _, some r => some ({ s with calls := fun q => if q = p then none else s.calls q }, [.ret p r])
    | _, _ => none
  | .timeout p => match s.calls p, s.done p with -- socket.h:599, TIMEOUT
    | some (since, d), none => if d ≠ 0 ∧ since + d ≤ s.now then some ({ s with calls := fun q => if q = p then none else s.calls q }, [.timedOut p]) else none
    | _, _ => none
  | .tick => if s.used.any s.due then none else some ({ s with now := s.now + 1 }, [.tick])

inductive Sq.Run (batch : Nat) : Sq → List SqAct → Sq → List SqEv → Prop where
  | nil (s : Sq) : Sq.Run batch s [] s []
  | snoc (s s1 s2 : Sq) (as : List SqAct) (a : SqAct) (es es' : List SqEv) :
      Sq.Run batch s as s1 es → Sq.step batch s1 a = some (s2, es') → Sq.Run batch s (as ++ [a]) s2 (es ++ es')

/-- Executes a list of steps. -/
def Sq.exec (batch : Nat) : Sq → List SqAct → Option (Sq × List SqEv)
  | s, [] => some (s, [])
  | s, a :: as => match s.step batch a with
    | some (s1, es) => match Sq.exec batch s1 as with
      | some (s2, es') => some (s2, es ++ es')
      | none => none
    | none => none

end StAsio
