import Verif.Model.Reader
import Verif.Model.Queue
/-!
Model of the TCP send path as a concurrent machine: any number of sender threads, the IO strand (`rw_strand`), the
kernel and asio completions. One action is one access to shared state, so every interleaving of the flag and queue
accesses of the code is an action sequence.

Sources: include/socket.h:176 (send_msg), 212, 424-425 (sending flag), 538-657 (do_direct_send_msg, do_direct_sync_send_msg),
393-414 (shrink_send_buffer), 75-107 (reset), include/tcp/socket.h:241-248 (do_start), 273-282 (on_close), 384-460 (do_send_msg, send_handler),
include/base.h:687-693 (pop_*_pending_send_msg).

Simplifications: sender threads carry no data once their message is queued, so they are counted by program counter; user
callbacks called by send_handler are sender threads that may run at any moment (they can: `sending` is 1 while they run);
statistics are modelled elsewhere; asio's `async_write` writes the buffers given, front to back, in pieces of any size.
-/
set_option autoImplicit false
namespace StAsio

/-- obj_with_begin_time_promise, include/base.h:588-611: the packed bytes and the promise of a synchronous send. -/
structure TxMsg where
  data : Bytes
  p : Option Nat
  deriving DecidableEq, Repr

def TxMsg.sz (m : TxMsg) : Nat := m.data.length

/-- sync_call_result, include/base.h:537 -/
inductive SyncRes where
  | success
  | notApplicable
  | duplicate
  | timeout
  deriving DecidableEq, Repr

/-- Where the IO strand is in do_send_msg/send_handler. -/
inductive TxPc where
  /-- not in this code (idle, or running some other handler) -/
  | idle
  /-- tcp/socket.h:386 with in_strand = false: about to exchange the sending flag -/
  | test
  /-- line 390: owner of the flag, about to take messages out of the send buffer -/
  | move
  /-- line 406: nothing to send, about to clear the flag -/
  | clear
  /-- line 407: flag cleared, about to look whether the send buffer is empty -/
  | check
  /-- line 458: after a failed write, about to clear the flag -/
  | errClear
  deriving DecidableEq, Repr

/-- An outstanding async_write (line 401): the messages its buffers refer to, and how many bytes the kernel took. -/
structure Wr where
  bufs : List TxMsg
  done : Nat
  deriving DecidableEq, Repr

/-- A completed async_write whose send_handler has not run yet. -/
structure WrDone where
  bufs : List TxMsg
  ok : Bool
  deriving DecidableEq, Repr

/-- What can be observed, in order. -/
inductive TxEv where
  /-- messages put into the send buffer -/
  | accept (ms : List TxMsg) (prior : Bool)
  /-- messages given to async_write -/
  | handOff (ms : List TxMsg)
  /-- on_msg_send -/
  | sent (ms : List TxMsg)
  /-- on_send_error -/
  | sendError (ms : List TxMsg)
  /-- pop_first_pending_send_msg, pop_all_pending_send_msg -/
  | popped (ms : List TxMsg)
  /-- on_msg_discard -/
  | discarded (ms : List TxMsg)
  /-- dropped by reset -/
  | cleared (ms : List TxMsg)
  /-- promise set -/
  | resolved (p : Nat) (r : SyncRes)
  deriving DecidableEq, Repr

structure Tx where
  q : Q TxMsg
  sending : Bool
  sendingMsgs : List TxMsg
  pc : TxPc
  /-- do_send_msg(false) calls waiting in the strand -/
  posted : Nat
  /-- threads in send_msg() (socket.h:176) before is_ready() -/
  atReady : Nat
  /-- threads in send_msg() before the load of the sending flag -/
  atFlag : Nat
  writes : List Wr
  dones : List WrDone
  ready : Bool
  /-- bytes the kernel took on the current link, in order -/
  wire : Bytes
  /-- undefined behaviour happened -/
  bad : Bool
  deriving DecidableEq, Repr

def Tx.init : Tx :=
  { q := Q.init, sending := false, sendingMsgs := [], pc := .idle, posted := 0, atReady := 0, atFlag := 0, writes := [], dones := [],
    ready := false, wire := [], bad := false }

def TxMsg.bytes (ms : List TxMsg) : Bytes := (ms.map TxMsg.data).flatten

/-- Setting the promises of some messages. -/
def setPromises (ms : List TxMsg) (r : SyncRes) : List TxEv := ms.filterMap (fun m => m.p.map (fun p => TxEv.resolved p r))

inductive TxAct where
  | send (m : TxMsg) (prior fits : Bool)
  | sendList (ms : List TxMsg) (prior : Bool)
  | loadReady
  | loadFlag
  | runPosted
  | strand
  | transfer (i k : Nat)
  | complete (i : Nat) (ok : Bool)
  | handler (i : Nat)
  | pop
  | popAll
  | shrink (n : Nat)
  | linkUp
  | linkDown
  | onClose
  | reset
  deriving DecidableEq, Repr

/-- Nothing asynchronous is pending or running. -/
def Tx.noAsync (s : Tx) : Bool := s.posted == 0 && s.pc == .idle && s.writes.isEmpty && s.dones.isEmpty

/-- do_direct_send_msg(msg), socket.h:538-562, and do_direct_sync_send_msg(msg), lines 580-628 up to send_msg(). -/
def Tx.send (s : Tx) (m : TxMsg) (prior fits : Bool) : Tx × List TxEv :=
  if m.data.isEmpty then (s, [])
  else
    let r := if prior then s.q.enqueueFront TxMsg.sz m fits else s.q.enqueue TxMsg.sz m fits
    if r.2 then ({ s with q := r.1, atReady := s.atReady + 1 }, [.accept [m] prior]) else (s, [])

/-- do_direct_send_msg(msg_can), socket.h:564-577, and lines 630-649. -/
def Tx.sendList (s : Tx) (ms : List TxMsg) (prior : Bool) : Tx × List TxEv :=
  let n := getSizeInByte TxMsg.sz ms
  match (if prior then s.q.moveInFront TxMsg.sz ms n else s.q.moveIn TxMsg.sz ms n) with
  | none => ({ s with bad := true }, [])
  | some q => ({ s with q, atReady := s.atReady + 1 }, [.accept ms prior])

/-- do_send_msg, tcp/socket.h:384-408, one access at a time. `batch`: batch_msg_send_size(), lines 45-52 (0 with
ST_ASIO_WANT_MSG_SEND_NOTIFY, otherwise 65536). -/
def Tx.strand (batch : Nat) (s : Tx) : Option (Tx × List TxEv) :=
  match s.pc with
  | .idle => none
  | .test => if s.sending then some ({ s with pc := .idle }, []) else some ({ s with sending := true, pc := .move }, [])
  | .move =>
    let r := s.q.moveOutBytes TxMsg.sz s.sendingMsgs batch
    if r.2.isEmpty then some ({ s with q := r.1, sendingMsgs := r.2, pc := .clear }, [])
    else some ({ s with q := r.1, sendingMsgs := r.2, writes := s.writes ++ [{ bufs := r.2, done := 0 }], pc := .idle }, [.handOff r.2])
  | .clear => some ({ s with sending := false, pc := .check }, [])
  | .check => some ({ s with pc := if s.q.items.isEmpty then .idle else .test }, [])
  | .errClear => some ({ s with sending := false, pc := .idle }, [])

/-- send_handler, tcp/socket.h:410-460. The buffers written must be those of sending_msgs (they point into it), and
`sending_msgs.front()` must exist. -/
def Tx.handler (s : Tx) (d : WrDone) : Tx × List TxEv :=
  let bad := s.bad || s.sendingMsgs.isEmpty || s.sendingMsgs != d.bufs
  if d.ok then
    ({ s with sendingMsgs := [], pc := .move, bad }, setPromises s.sendingMsgs .success ++ [.sent s.sendingMsgs])
  else
    ({ s with sendingMsgs := [], pc := .errClear, bad }, setPromises s.sendingMsgs .notApplicable ++ [.sendError s.sendingMsgs])

/-- on_close, tcp/socket.h:273-282: sets the promises of the messages being sent. -/
def Tx.onClose (s : Tx) : List TxEv := setPromises s.sendingMsgs .notApplicable

def Tx.step (batch : Nat) (s : Tx) : TxAct → Option (Tx × List TxEv)
  | .send m prior fits => some (s.send m prior fits)
  | .sendList ms prior => some (s.sendList ms prior)
  | .loadReady => -- socket.h:176, first operand
    if s.atReady = 0 then none
    else some ({ s with atReady := s.atReady - 1, atFlag := if s.ready then s.atFlag + 1 else s.atFlag }, [])
  | .loadFlag => -- socket.h:176, second operand, dispatch_in_io_strand
    if s.atFlag = 0 then none
    else some ({ s with atFlag := s.atFlag - 1, posted := if s.sending then s.posted else s.posted + 1 }, [])
  | .runPosted =>
    if s.posted = 0 ∨ s.pc ≠ .idle then none else some ({ s with posted := s.posted - 1, pc := .test }, [])
  | .strand => s.strand batch
  | .transfer i k => do -- the kernel takes `k` more bytes
    let w ← s.writes[i]?
    let rest := (TxMsg.bytes w.bufs).drop w.done
    if k = 0 ∨ rest.length < k then none
    else some ({ s with wire := s.wire ++ rest.take k, writes := s.writes.set i { w with done := w.done + k }, bad := s.bad || s.sendingMsgs != w.bufs }, [])
  | .complete i ok => do -- async_write completes: successfully when everything was written, with an error at any time
    let w ← s.writes[i]?
    if ok ∧ w.done ≠ (TxMsg.bytes w.bufs).length then none
    else some ({ s with writes := s.writes.eraseIdx i, dones := s.dones ++ [{ bufs := w.bufs, ok }] }, [])
  | .handler i => do
    let d ← s.dones[i]?
    if s.pc ≠ .idle then none else some ({ s with dones := s.dones.eraseIdx i }.handler d)
  | .pop => -- base.h:688-690
    match s.q.tryDequeue TxMsg.sz with
    | (_, none) => some (s, [])
    | (q, some m) => some ({ s with q }, setPromises [m] .notApplicable ++ [.popped [m]])
  | .popAll => -- base.h:691-693
    let r := s.q.swap TxMsg.sz []
    some ({ s with q := r.1 }, setPromises r.2 .notApplicable ++ [.popped r.2])
  | .shrink n => -- socket.h:408-412
    let r := s.q.moveOutBytes TxMsg.sz [] n
    some ({ s with q := r.1 }, [.discarded r.2])
  | .linkUp => -- tcp/socket.h:243, socket.h:328; only after every async call of the previous link ended (C29)
    if s.ready ∨ s.noAsync = false then none else some ({ s with ready := true, atReady := s.atReady + 1, wire := [] }, [])
  | .linkDown => some ({ s with ready := false }, [])
  | .onClose => -- close, socket.h:428-467 with ST_ASIO_DELAY_CLOSE = 0: called when every async call ended
    if s.ready ∨ s.noAsync = false then none else some (s, s.onClose)
  | .reset => -- tcp/socket.h:106, socket.h:87, 100-107; "be ensure that there's no any operations performed on this socket"
    if s.ready ∨ s.noAsync = false ∨ s.atReady ≠ 0 ∨ s.atFlag ≠ 0 then none
    else some ({ s with q := s.q.clear, sendingMsgs := [], sending := false }, [.cleared s.q.items])

/-- Runs: actions that are not enabled do not happen. -/
inductive Tx.Run (batch : Nat) : Tx → List TxAct → Tx → List TxEv → Prop where
  | nil (s : Tx) : Tx.Run batch s [] s []
  | snoc (s s1 s2 : Tx) (as : List TxAct) (a : TxAct) (es es' : List TxEv) :
      Tx.Run batch s as s1 es → Tx.step batch s1 a = some (s2, es') → Tx.Run batch s (as ++ [a]) s2 (es ++ es')

/-- Executable version of `Run`. -/
def Tx.exec (batch : Nat) : Tx → List TxAct → Option (Tx × List TxEv)
  | s, [] => some (s, [])
  | s, a :: as => do
    let (s, es) ← s.step batch a
    let (s, es') ← Tx.exec batch s as
    return (s, es ++ es')

end StAsio
