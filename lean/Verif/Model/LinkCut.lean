import Verif.Model.Protocols
/-!
The end of a link, seen by the receiving side: the other side finished sending (or the link broke, or this side shuts down), async_read fails, the socket is closed,
what was received before is still dispatched, on_close is called. Built on Model/Protocols.lean (one direction of a link, any packer/unpacker pair).

Sources: include/tcp/socket.h:230-231, 299-326 (_force_shutdown, _graceful_shutdown, shutdown), 347-382 (recv_handler), include/tcp/server_socket.h:63,
include/tcp/client_socket.h:152 (on_recv_error: force_shutdown), include/socket.h:428-467 (close), 781-818 (timer_handler), include/tracked_executor.h:59-66.

Simplifications: the io_context is running (line 453, stopped(), is not taken). What the sender does after its shutdown_send, and writes that fail, are left out
(C20, C73). The closing timer may expire at any time once armed. recv_handler with an error runs in one piece: it finds no message (Lemmas/Cut.lean), so there
is nothing for it to share. The unpacker is not used again before its reset() in timer_handler, so its state is left alone by the last parse_msg.
-/
set_option autoImplicit false
namespace StAsio

/-- TIMER_DELAY_CLOSE, include/socket.h:463 and 788. -/
inductive Closing where
  | no
  | armed
  /-- on_close was called -/
  | done
  deriving DecidableEq, Repr

structure Cut (K : Codec) where
  p : GPipe K
  /-- the other side's shutdown_send: nothing more is put into the stream -/
  fin : Bool
  /-- the link was reset -/
  broken : Bool
  /-- an async_read of the receiver failed; then no later one reads anything -/
  ended : Bool
  /-- started_ of the receiving socket -/
  up : Bool
  dc : Closing

inductive CutEv where
  | pipe (e : PEv)
  /-- close() took the socket down -/
  | down
  /-- on_close -/
  | closed
  deriving DecidableEq, Repr

inductive CutAct where
  | pipe (a : PAct)
  | fin
  | brk
  /-- async_read of the receiver completes with an error -/
  | readEnd
  /-- the receiver's application, heartbeat check, ... shuts the link down -/
  | shutdown
  /-- TIMER_DELAY_CLOSE expires; `other`: asynchronous calls that have nothing to do with receiving (a write, a user's timer) are outstanding -/
  | tick (other : Bool)
  deriving DecidableEq, Repr

/-- stop_all_timer(), include/socket.h:443 and 793: TIMER_DISPATCH_MSG and TIMER_CHECK_RECV. -/
def Rx.stopTimers (s : Rx) : Rx := { s with dtimer := false, dlost := s.dlost || s.dtimer, rd := if s.rd = .timer then .off else s.rd }

/-- handle_msg() at the end of a link, include/tcp/socket.h:368 (do_recv_msg is not called because of the error). -/
def Rx.endRead (limit : Nat) (s : Rx) (ms : List Bytes) : Option (Rx × List REv) := do
  let (s, es) ← Rx.exec limit s (.read ms :: ((if ms.isEmpty then [] else [.loadDisp]) ++ [.handled]))
  if s.rd = .reading then do
    let (s, fs) ← s.step limit .readError
    return (s, es ++ fs)
  else return (s, es)

/-- recv_handler(ec, got) with an error, include/tcp/socket.h:347-381, before on_recv_error. If the receive buffer has no room, TIMER_CHECK_RECV starts
another async_read, which fails too (`again`) and has read nothing. -/
def GPipe.readEnd {K : Codec} (limit : Nat) (again : Bool) (s : GPipe K) : Option (GPipe K × List PEv) :=
  match s.rx.rd, s.conn.ph with
  | .reading, .reading _ got _ =>
    if got = 0 ∨ again then (s.rx.step limit .readError).map (fun r => ({ s with rx := r.1 }, r.2.filterMap rxEv))
    else
      match K.ops.parse s.conn.u got with
      | none => some ({ s with bad := true }, [])
      | some (_, ms, _) =>
        (s.rx.endRead limit ms).map (fun r =>
          ({ s with rx := r.1, conn := { s.conn with log := s.conn.log ++ ms.map .msg } }, r.2.filterMap rxEv))
  | _, _ => none

/-- close(), include/socket.h:428-467, called by shutdown() in rw_strand. -/
def Cut.close {K : Codec} (s : Cut K) : Cut K × List CutEv :=
  if s.up then ({ s with p := { s.p with rx := s.p.rx.stopTimers }, up := false, dc := .armed }, [.down]) else (s, [])

/-- Something of the receiving side is still outstanding or running: is_last_async_call, include/tracked_executor.h:59-66. -/
def Rx.busy (s : Rx) : Bool := s.posted != 0 || s.pc != .idle || s.dtimer || s.rd != .off

/-- Does this step put bytes into the stream? -/
def PAct.writes : PAct → Bool
  | .tx (.transfer _ _) => true
  | _ => false

/-- Does this step read from the stream? -/
def PAct.reads : PAct → Bool
  | .net _ => true
  | _ => false

/-- `tracked`: ST_ASIO_DELAY_CLOSE is 0. -/
def Cut.step {K : Codec} (tracked cwf : Bool) (batch limit : Nat) (s : Cut K) : CutAct → Option (Cut K × List CutEv)
  | .pipe a =>
    if (s.fin && a.writes) || (s.ended && a.reads) then none
    else (s.p.step cwf batch limit a).map (fun r => ({ s with p := r.1 }, r.2.map .pipe))
  | .fin => if s.fin then none else some ({ s with fin := true }, []) -- tcp/socket.h:309
  | .brk => some ({ s with broken := true }, [])
  | .readEnd =>
    if s.broken ∨ s.up = false ∨ (s.fin = true ∧ s.p.off = s.p.tx.wire.length) then
      (s.p.readEnd limit s.ended).map (fun r =>
        let t := Cut.close { s with p := r.1, ended := true } -- on_recv_error, server_socket.h:63, client_socket.h:152
        (t.1, r.2.map .pipe ++ t.2))
    else none
  | .shutdown => some s.close -- tcp/socket.h:299, 317-326
  | .tick other => -- timer_handler(TIMER_DELAY_CLOSE), socket.h:788-811
    if s.dc ≠ .armed then none
    else if tracked && (other || s.p.rx.busy) then some ({ s with p := { s.p with rx := s.p.rx.stopTimers } }, [])
    else some ({ s with dc := .done }, [.closed])

def Cut.init (K : Codec) : Option (Cut K) := (GPipe.init K).map (fun p => { p, fin := false, broken := false, ended := false, up := true, dc := .no })

inductive Cut.Run {K : Codec} (tracked cwf : Bool) (batch limit : Nat) : Cut K → List CutAct → Cut K → List CutEv → Prop where
  | nil (s : Cut K) : Cut.Run tracked cwf batch limit s [] s []
  | snoc (s s1 s2 : Cut K) (as : List CutAct) (a : CutAct) (es fs : List CutEv) :
      Cut.Run tracked cwf batch limit s as s1 es → Cut.step tracked cwf batch limit s1 a = some (s2, fs) → Cut.Run tracked cwf batch limit s (as ++ [a]) s2 (es ++ fs)

def Cut.exec {K : Codec} (tracked cwf : Bool) (batch limit : Nat) : Cut K → List CutAct → Option (Cut K × List CutEv)
  | s, [] => some (s, [])
  | s, a :: as => do
    let (s, es) ← s.step tracked cwf batch limit a
    let (s, fs) ← Cut.exec tracked cwf batch limit s as
    return (s, es ++ fs)

end StAsio
