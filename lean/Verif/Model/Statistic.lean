import Verif.Model.TcpSend
import Verif.Model.UdpSend
import Verif.Model.RecvDispatch

/-!
# Statistics (include/base.h:334-535 and their use)

Counters are uint_fast64_t: numbers modulo 2^64. Durations are integers (ticks of the clock, which is not steady: they may be negative); their overflow is not modelled. The counters are kept beside the machines of Model/TcpSend, Model/UdpSend and Model/RecvDispatch.
-/

set_option autoImplicit false

namespace StAsio

/-- One pair of counters of `statistic`, base.h:501-502 or 509-510; `nbuf` is sending_buffer.size() (TCP). -/
structure Cnt where
  msgs : Nat
  bytes : Nat
  nbuf : Nat
  deriving Repr, DecidableEq

/-- reset_number, base.h:401-414. -/
def Cnt.zero : Cnt := ⟨0, 0, 0⟩

/-- `+=` of both counters. -/
def Cnt.add (c : Cnt) (msgs bytes : Nat) : Cnt := { c with msgs := (c.msgs + msgs) % 2 ^ 64, bytes := (c.bytes + bytes) % 2 ^ 64 }

/-- What a step of the TCP sender does to its counters: do_send_msg, tcp/socket.h:391-396; send_handler, 416-418 (on success everything was transferred); reset, socket.h:84. -/
def Cnt.tcp (batch : Nat) (s : Tx) (c : Cnt) : TxAct → Cnt
  | .strand => if s.pc = .move then { c with nbuf := (s.q.moveOutBytes TxMsg.sz s.sendingMsgs batch).2.length } else c
  | .handler i => match s.dones[i]? with
    | some d => if d.ok then c.add c.nbuf (TxMsg.bytes d.bufs).length else c
    | none => c
  | .reset => Cnt.zero
  | _ => c

/-- The TCP sender with its counters. -/
inductive Tx.RunCnt (batch : Nat) : Tx → Cnt → List TxAct → Tx → Cnt → List TxEv → Prop
  | nil (s : Tx) (c : Cnt) : Tx.RunCnt batch s c [] s c []
  | snoc (s : Tx) (c : Cnt) (s1 : Tx) (c1 : Cnt) (s2 : Tx) (as : List TxAct) (a : TxAct) (es es' : List TxEv) :
      Tx.RunCnt batch s c as s1 c1 es → Tx.step batch s1 a = some (s2, es') → Tx.RunCnt batch s c (as ++ [a]) s2 (c1.tcp batch s1 a) (es ++ es')

/-- What a step of the UDP sender does to its counters: send_handler, udp/socket.h:361-363 (a datagram is transferred as a whole, KCP reports sending_msg.size(), line 344); reset, socket.h:84. -/
def Cnt.udp (s : Ux) (c : Cnt) : UAct → Cnt
  | .handler i => match s.dones[i]? with
    | some d => if d.ok then c.add 1 d.m.data.length else c
    | none => c
  | .reset => Cnt.zero
  | _ => c

/-- The UDP sender with its counters. -/
inductive Ux.RunCnt (conn : Bool) : Ux → Cnt → List UAct → Ux → Cnt → List UEv → Prop
  | nil (s : Ux) (c : Cnt) : Ux.RunCnt conn s c [] s c []
  | snoc (s : Ux) (c : Cnt) (s1 : Ux) (c1 : Cnt) (s2 : Ux) (as : List UAct) (a : UAct) (es es' : List UEv) :
      Ux.RunCnt conn s c as s1 c1 es → Ux.step conn s1 a = some (s2, es') → Ux.RunCnt conn s c (as ++ [a]) s2 (c1.udp s1 a) (es ++ es')

/-- What a step of the receiver does to its counters: handle_msg, socket.h:485-487; reset, socket.h:84. -/
def Cnt.recv (c : Cnt) : RAct → Cnt
  | .read ms => c.add ms.length (getSizeInByte rsz ms)
  | .reset => Cnt.zero
  | _ => c

/-- The receiver with its counters. -/
inductive Rx.RunCnt (limit : Nat) : Rx → Cnt → List RAct → Rx → Cnt → List REv → Prop
  | nil (s : Rx) (c : Cnt) : Rx.RunCnt limit s c [] s c []
  | snoc (s : Rx) (c : Cnt) (s1 : Rx) (c1 : Cnt) (s2 : Rx) (as : List RAct) (a : RAct) (es es' : List REv) :
      Rx.RunCnt limit s c as s1 c1 es → Rx.step limit s1 a = some (s2, es') → Rx.RunCnt limit s c (as ++ [a]) s2 (c1.recv a) (es ++ es')

/-! ## Durations -/

/-- statistic::duration, base.h:337-382. -/
structure Dur where
  sum : Int
  min : Int
  max : Int
  num : Int
  deriving Repr, DecidableEq

/-- reset, base.h:343. -/
def Dur.zero : Dur := ⟨0, 0, 0, 0⟩

/-- operator+=(const super&), base.h:345-356. -/
def Dur.add (d : Dur) (x : Int) : Dur :=
  ⟨d.sum + x, if d.min = 0 ∨ d.min > x then x else d.min, if d.max < x then x else d.max, d.num + 1⟩

/-- operator+=(const duration&), base.h:357-368. -/
def Dur.merge (d o : Dur) : Dur :=
  ⟨d.sum + o.sum, if d.min = 0 ∨ d.min > o.min then o.min else d.min, if d.max < o.max then o.max else d.max, d.num + o.num⟩

/-- operator-=(const duration&), base.h:369. -/
def Dur.sub (d o : Dur) : Dur := { d with sum := d.sum - o.sum, num := d.num - o.num }

/-- What was accumulated after some measurements. -/
def Dur.of (xs : List Int) : Dur := xs.foldl Dur.add Dur.zero

/-- `+=` and `-=` of statistics on one counter, base.h:435-436, 441-442, 461-462, 467-468: arithmetic of uint_fast64_t. -/
def cntAdd (a b : Nat) : Nat := (a + b) % 2 ^ 64
def cntSub (a b : Nat) : Nat := (a + (2 ^ 64 - b % 2 ^ 64)) % 2 ^ 64

/-- auto_duration, base.h:523-535: started, begin_time, and the duration it refers to. -/
structure AutoDur where
  started : Bool
  beginTime : Int
  dur : Dur
  deriving Repr, DecidableEq

/-- Constructor, base.h:526. -/
def AutoDur.start (d : Dur) (now : Int) : AutoDur := ⟨true, now, d⟩

/-- end, base.h:529; the destructor (527) calls it too. -/
def AutoDur.finish (a : AutoDur) (now : Int) : AutoDur :=
  { a with started := false, dur := if a.started then a.dur.add (now - a.beginTime) else a.dur }

/-! ## A duration that several threads add to

pack_time_sum is updated by every thread that packs a message (pack_msg, tcp/socket.h:92), without a lock: `+=` reads, then writes. Only the sum and the number are modelled. -/

structure PackStat where
  sum : Int
  num : Int
  loaded : List (Int × Int × Int)   -- threads between reading and writing: the duration to add, the sum and the number read
  deriving Repr, DecidableEq

inductive PackAct
  | load (x : Int)
  | store (i : Nat)
  deriving Repr, DecidableEq

def PackStat.step (s : PackStat) : PackAct → Option PackStat
  | .load x => some { s with loaded := s.loaded ++ [(x, s.sum, s.num)] }
  | .store i => match s.loaded[i]? with
    | some (x, a, n) => some ⟨a + x, n + 1, s.loaded.eraseIdx i⟩
    | none => none

def PackStat.exec (s : PackStat) : List PackAct → Option PackStat
  | [] => some s
  | a :: as => (s.step a).bind (fun s1 => PackStat.exec s1 as)

end StAsio
