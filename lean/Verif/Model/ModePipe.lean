import Verif.Model.Protocols
import Verif.Model.RecvModes
import Verif.Spec.ModePipe
/-!
One direction of a TCP link from `send_msg` to `on_msg` and `on_msg_handle`, with any packer/unpacker pair (Model/Protocols.lean) and with any combination of
ST_ASIO_DISPATCH_BATCH_MSG, ST_ASIO_SYNC_DISPATCH and ST_ASIO_PASSIVE_RECV (Model/RecvModes.lean).

Simplifications: the link stays up, nobody calls the pop functions or reset(). prepare_next_recv is called when a read is finished instead of when the next one begins
(include/tcp/socket.h:333, 369): nothing touches the unpacker in between.
-/
set_option autoImplicit false
namespace StAsio

/-- The two ends of the link: the sender (include/tcp/socket.h:384-480), how much of the stream was read, async_read and the unpacker (include/tcp/socket.h:329-366), the receiver
(include/socket.h:483-560, 693-787). -/
structure MPipe (K : Codec) where
  tx : Tx
  off : Nat
  conn : Conn K.σ
  rm : Rm
  bad : Bool

inductive MPAct where
  /-- the sending application calls a send function; `fits`: the send buffer has room (or can_overflow) -/
  | send (call : SendCall) (fits : Bool)
  | tx (a : TxAct)
  /-- the kernel delivers k bytes to the outstanding async_read -/
  | net (k : Nat)
  | rx (a : MAct)
  deriving Repr

/-- The steps of the receiver (include/socket.h:164-170, 483-560, 693-787, include/tcp/socket.h:329-382) on a link that stays up and whose messages nobody removes; `read` belongs to `MPAct.net`. on_msg returns 0 only if
it left the messages alone (include/socket.h:346). -/
def MAct.ok (s : Rm) : MAct → Bool
  | .doRecv ok => ok
  | .handled ok => ok
  | .onMsgRet left n => decide (n ≠ 0) || decide (left = s.temp)
  | .read _ _ | .readError | .linkUp | .linkDown | .reset | .loseDispatch | .loseCheck | .pop | .popAll => false
  | _ => true

/-- The library's own steps, and the receiving application's when it accepts messages: on_msg_handle returns true or a positive number (include/socket.h:741, 760). -/
def MAct.internal : MAct → Bool
  | .doRecv ok => ok
  | .handled ok => ok
  | .handle | .onMsgRet _ _ | .loadDisp | .checkTimer | .run | .begin | .takeOne | .takeAll | .dis | .dtimer => true
  | .ret ok => ok
  | .retAll n => decide (0 < n)
  | _ => false

/-- What goes on without the sending application; `asks`: the receiving application may call recv_msg() (include/socket.h:166). -/
def MPAct.Goes (asks : Bool) : MPAct → Prop
  | .send _ _ => False
  | .tx _ => True
  | .net _ => True
  | .rx a => a.internal = true ∨ (asks = true ∧ a = .userRecv)

/-- A link that was just established: do_start of both sockets ran (include/tcp/socket.h:241-248, include/socket.h:322-334), the receiver's first do_recv_msg is posted. -/
def MPipe.init (K : Codec) : Option (MPipe K) := do
  let conn ← startRead K.ops K.u0 []
  return { tx := { Tx.init with ready := true, atReady := 1 }, off := 0, conn, rm := { Rm.init with ready := true, rposted := 1 }, bad := false }

/-- The send functions (include/base.h:703-780), the sender (include/tcp/socket.h:384-480), the stream, async_read with the unpacker (include/tcp/socket.h:329-366; the
completion condition and recv_handler run in rw_strand) and the receiver: as `GPipe.step`, with the receiver of Model/RecvModes.lean. -/
def MPipe.step {K : Codec} (c : MCfg) (cwf : Bool) (batch limit : Nat) (s : MPipe K) : MPAct → Option (MPipe K × List MPEv)
  | .send call fits =>
    match K.pack call with
    | none => some ({ s with bad := true }, [])
    | some none => some (s, [])
    | some (some bs) =>
      let r := if call.single then s.tx.send ⟨bs.flatten, none⟩ false fits else s.tx.sendList (bs.map (fun b => ⟨b, none⟩)) false
      some ({ s with tx := r.1 }, if r.2.isEmpty then [] else [.sent call.body])
  | .tx a => if a.healthy then (s.tx.step batch a).map (fun r => ({ s with tx := r.1 }, [])) else none
  | .net k =>
    match s.conn.ph with
    | .reading cap got want =>
      if s.rm.out ∧ s.rm.hp = .idle ∧ 0 < k ∧ k ≤ want ∧ got + k ≤ cap ∧ s.off + k ≤ s.tx.wire.length then
        match readSome K.ops cwf s.conn cap got ((s.tx.wire.drop s.off).take k) with
        | none => some ({ s with bad := true }, [])
        | some conn =>
          if readDone conn.ph then
            (s.rm.step c limit (.read (newMsgs s.conn.log conn.log) false)).map (fun r => ({ s with off := s.off + k, conn, rm := r.1 }, r.2.map .rx))
          else some ({ s with off := s.off + k, conn }, [])
      else none
    | _ => none
  | .rx a => if a.ok s.rm then (s.rm.step c limit a).map (fun r => ({ s with rm := r.1 }, r.2.map .rx)) else none

inductive MPipe.Run {K : Codec} (c : MCfg) (cwf : Bool) (batch limit : Nat) : MPipe K → List MPAct → MPipe K → List MPEv → Prop where
  | nil (s : MPipe K) : MPipe.Run c cwf batch limit s [] s []
  | snoc (s s1 s2 : MPipe K) (as : List MPAct) (a : MPAct) (es fs : List MPEv) :
      MPipe.Run c cwf batch limit s as s1 es → MPipe.step c cwf batch limit s1 a = some (s2, fs) → MPipe.Run c cwf batch limit s (as ++ [a]) s2 (es ++ fs)

def MPipe.exec {K : Codec} (c : MCfg) (cwf : Bool) (batch limit : Nat) : MPipe K → List MPAct → Option (MPipe K × List MPEv)
  | s, [] => some (s, [])
  | s, a :: as => do
    let (s, es) ← s.step c cwf batch limit a
    let (s, fs) ← MPipe.exec c cwf batch limit s as
    return (s, es ++ fs)

end StAsio
