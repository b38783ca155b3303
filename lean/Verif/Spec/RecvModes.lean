import Verif.Spec.Bytes
/-!
# What can be seen of receiving, whatever mode is chosen

Events and an ideal receiver; no reference to the code.
-/
set_option autoImplicit false
namespace StAsio

inductive MEv where
  /-- recv_msg() called, by the user or by the library when the link comes up -/
  | asked
  /-- the library begins to read from the link -/
  | readBegin
  /-- a read is finished, it completed these messages -/
  | received (ms : List Bytes)
  | readFailed
  /-- on_msg(ms) called -/
  | onMsg (ms : List Bytes)
  /-- on_msg returned n, having left these messages -/
  | onMsgRet (left : List Bytes) (n : Nat)
  /-- messages put into the receive buffer -/
  | queued (ms : List Bytes)
  /-- left the receive buffer to be dispatched (one by one mode) -/
  | taken (m : Bytes)
  | call (m : Bytes)
  | ret (m : Bytes) (ok : Bool)
  /-- on_msg_handle(queue) called (batch mode) -/
  | callAll
  /-- on_msg_handle took these messages out of the queue (batch mode) -/
  | took (ms : List Bytes)
  | retAll (n : Nat)
  /-- the user popped messages -/
  | popped (ms : List Bytes)
  | cleared
  deriving DecidableEq, Repr

def mStrip : List Bytes → List Bytes → Option (List Bytes)
  | [], l => some l
  | _ :: _, [] => none
  | a :: p, b :: l => if a = b then mStrip p l else none

/-- The ideal receiver. -/
structure IdealM where
  /-- a read is outstanding -/
  reading : Bool
  /-- messages just received, neither given to on_msg nor queued yet -/
  fresh : List Bytes
  /-- on_msg is running -/
  inMsg : Bool
  waiting : List Bytes
  /-- the message being dispatched (one by one mode) -/
  cur : Option Bytes
  /-- on_msg_handle is running -/
  busy : Bool
  deriving DecidableEq, Repr

def IdealM.init : IdealM := ⟨false, [], false, [], none, false⟩

/-- At most one read at a time; what was read must go on before the next read finishes: to on_msg, all of it, and what on_msg leaves to the buffer, or directly to the buffer; one call of
on_msg_handle at a time; messages leave the buffer in order, one by one or as a batch. An empty message may stand for "nothing" (`passive`). -/
def IdealM.event (batch sync passive : Bool) (t : IdealM) : MEv → Option IdealM
  | .asked => some t
  | .readBegin => if t.reading = false then some { t with reading := true } else none
  | .received ms => if t.reading ∧ t.fresh = [] ∧ t.inMsg = false then some { t with reading := false, fresh := ms } else none
  | .readFailed => if t.reading then some { t with reading := false } else none
  | .onMsg ms => if sync ∧ t.fresh = ms ∧ t.inMsg = false then some { t with fresh := [], inMsg := true } else none
  | .onMsgRet left _ => if t.inMsg then some { t with fresh := left, inMsg := false } else none
  | .queued ms => if t.inMsg = false ∧ ((t.fresh = ms ∧ ms ≠ []) ∨ (passive ∧ sync = false ∧ t.fresh = [] ∧ ms = [[]])) then some { t with waiting := t.waiting ++ ms, fresh := [] } else none
  | .taken m => if batch = false ∧ t.cur = none ∧ t.busy = false then (mStrip [m] t.waiting).map (fun w => { t with waiting := w, cur := some m }) else none
  | .call m => if t.cur = some m ∧ t.busy = false then some { t with busy := true } else none
  | .ret m ok => if t.cur = some m ∧ t.busy then some { t with busy := false, cur := if ok then none else some m } else none
  | .callAll => if batch ∧ t.busy = false then some { t with busy := true } else none
  | .took ms => if batch ∧ t.busy then (mStrip ms t.waiting).map (fun w => { t with waiting := w }) else none
  | .retAll _ => if batch ∧ t.busy then some { t with busy := false } else none
  | .popped ms => (mStrip ms t.waiting).map (fun w => { t with waiting := w })
  | .cleared => if t.busy = false then some { t with waiting := [], cur := none } else none

def IdealM.monitor (batch sync passive : Bool) : IdealM → List MEv → Option IdealM
  | t, [] => some t
  | t, e :: es => match t.event batch sync passive e with
    | none => none
    | some t => IdealM.monitor batch sync passive t es

/-- All messages received. -/
def mReceived : List MEv → List Bytes
  | [] => []
  | .received ms :: es => ms ++ mReceived es
  | _ :: es => mReceived es

/-- All messages on_msg was called with. -/
def mOnMsg : List MEv → List Bytes
  | [] => []
  | .onMsg ms :: es => ms ++ mOnMsg es
  | _ :: es => mOnMsg es

/-- All messages on_msg left. -/
def mLeft : List MEv → List Bytes
  | [] => []
  | .onMsgRet ms _ :: es => ms ++ mLeft es
  | _ :: es => mLeft es

def mQueued : List MEv → List Bytes
  | [] => []
  | .queued ms :: es => ms ++ mQueued es
  | _ :: es => mQueued es

/-- What on_msg_handle has disposed of: accepted (one by one) or taken (batch). -/
def mHandled : List MEv → List Bytes
  | [] => []
  | .ret m true :: es => m :: mHandled es
  | .took ms :: es => ms ++ mHandled es
  | _ :: es => mHandled es

def mAsked : List MEv → Nat
  | [] => 0
  | .asked :: es => mAsked es + 1
  | _ :: es => mAsked es

def mReads : List MEv → Nat
  | [] => 0
  | .readBegin :: es => mReads es + 1
  | _ :: es => mReads es

/-- Reads that ended, well or not. -/
def mReadEnds : List MEv → Nat
  | [] => 0
  | .received _ :: es => mReadEnds es + 1
  | .readFailed :: es => mReadEnds es + 1
  | _ :: es => mReadEnds es

/-- Reads that ended well. -/
def mReadOks : List MEv → Nat
  | [] => 0
  | .received _ :: es => mReadOks es + 1
  | _ :: es => mReadOks es

/-- The reads after which the user was given something: a call of on_msg, or messages in the receive buffer. -/
def mGiven (sync : Bool) : List MEv → Nat
  | [] => 0
  | .onMsg _ :: es => mGiven sync es + sync.toNat
  | .queued ms :: es => mGiven sync es + (if sync = false ∧ ms ≠ [] then 1 else 0)
  | _ :: es => mGiven sync es

/-- An empty message instead of nothing. -/
def orEmpty (ms : List Bytes) : List Bytes := if ms = [] then [[]] else ms

/-- All messages received, an empty message for every read that completed none. -/
def mReceivedOrEmpty : List MEv → List Bytes
  | [] => []
  | .received ms :: es => orEmpty ms ++ mReceivedOrEmpty es
  | _ :: es => mReceivedOrEmpty es

/-- Calls of on_msg_handle. -/
def mCalls : List MEv → Nat
  | [] => 0
  | .call _ :: es => mCalls es + 1
  | .callAll :: es => mCalls es + 1
  | _ :: es => mCalls es

/-- Returns of on_msg_handle. -/
def mRets : List MEv → Nat
  | [] => 0
  | .ret _ _ :: es => mRets es + 1
  | .retAll _ :: es => mRets es + 1
  | _ :: es => mRets es

/-- Nobody popped messages or called reset(). -/
def MPlainEv : MEv → Prop
  | .popped _ => False
  | .cleared => False
  | _ => True

instance (e : MEv) : Decidable (MPlainEv e) := by cases e <;> simp only [MPlainEv] <;> infer_instance

end StAsio
