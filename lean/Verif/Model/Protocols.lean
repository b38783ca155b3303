import Verif.Model.EndToEnd
import Verif.Model.Flexible
import Verif.Model.Simple
import Verif.Model.PrefixSuffix
/-!
One direction of a TCP link from `send_msg` to `on_msg_handle` (as in Model/EndToEnd.lean), with any of the packer/unpacker pairs of the library
(include/ext/packer.h, include/ext/unpacker.h) instead of the default pair only. The sender, the stream, async_read and the receive buffer do not depend on the
pair (tcp::socket_base is a template over Packer and Unpacker, include/tcp/socket.h:65-67), so only the packer calls and the unpacker's operations vary.
-/
set_option autoImplicit false
namespace StAsio

/-- A packer/unpacker pair of the library; `c` holds the compile-time settings. -/
inductive Proto where
  /-- packer (include/ext/packer.h:61) and unpacker (include/ext/unpacker.h:54) -/
  | plain (c : Cfg) (stripped : Bool)
  /-- packer and flexible_unpacker (unpacker.h:181) -/
  | flexible (c : Cfg) (stripped : Bool)
  /-- packer and non_copy_unpacker (unpacker.h:467) -/
  | nonCopy (c : Cfg)
  /-- fixed_length_packer (packer.h:245) and fixed_length_unpacker (unpacker.h:567) with fixed_length(len) -/
  | fixed (c : Cfg) (len : Nat)
  /-- prefix_suffix_packer (packer.h:257) and prefix_suffix_unpacker (unpacker.h:608) with the same prefix_suffix(...) -/
  | prefixSuffix (c : Cfg) (p : PsCfg) (stripped : Bool)
  /-- fixed_length_packer and stream_unpacker (unpacker.h:736) -/
  | stream (c : Cfg)
  deriving Repr

/-- The packer calls of the send functions (include/base.h:712, 739, 766, 776; include/tcp/socket.h:94) with fixed_length_packer
(include/ext/packer.h:245-254); pack_heartbeat is inherited from packer (line 141). -/
def SendCall.flPack (c : Cfg) (nd : Bool) : SendCall → Option (Option (List Bytes))
  | .array ps => (flPackArray c (some ps)).map (fun r => some [r.2])
  | .one m => some (if (flPackOne m []).ok then some (flPackOne m []).can else none)
  | .two m1 m2 => some (if (flPackTwo m1 m2 []).ok then some (flPackTwo m1 m2 []).can else none)
  | .list ms => some (if (flPackList ms []).ok then some (flPackList ms []).can else none)
  | .heartbeat => (packHeartbeat c nd).map (fun b => some [b])

/-- The same with prefix_suffix_packer (include/ext/packer.h:257-341). -/
def SendCall.psPack (c : Cfg) (p : PsCfg) : SendCall → Option (Option (List Bytes))
  | .array ps => (psPackArray c p false (some ps)).map (fun r => some [r.2])
  | .one m => some (if (psPackOne c p m []).ok then some (psPackOne c p m []).can else none)
  | .two m1 m2 => some (if (psPackTwo c p m1 m2 []).ok then some (psPackTwo c p m1 m2 []).can else none)
  | .list ms => some (if (psPackList c p ms []).ok then some (psPackList c p ms []).can else none)
  | .heartbeat => some (some [psPackHeartbeat p])

/-- What tcp::socket uses of its Packer and Unpacker parameters (include/tcp/socket.h:65-67): the packer calls, the operations of the unpacker and its initial state. -/
structure Codec where
  σ : Type
  ops : UnpackerOps σ
  u0 : σ
  pack : SendCall → Option (Option (List Bytes))

/-- The two ends of the pair. `nd`: NDEBUG; `raw`: the indeterminate memory of the unpacker's buffer (unpacker.h:171, 361, 552, 728, 762; fixed_length_unpacker allocates its
buffer later, line 603); `junk`: of buffers allocated later. -/
def Proto.codec (nd : Bool) (junk : Nat → Bytes) (raw : Bytes) : Proto → Codec
  | .plain c st => { σ := Unp, ops := unpackerOps c, u0 := Unp.init raw st, pack := SendCall.pack c nd }
  | .flexible c st => { σ := Flex, ops := flexOps c junk, u0 := Flex.init raw st, pack := SendCall.pack c nd }
  | .nonCopy c => { σ := NonCopy, ops := nonCopyOps c junk, u0 := NonCopy.init raw, pack := SendCall.pack c nd }
  | .fixed c len => { σ := Fixed, ops := fixedOps junk len, u0 := raw, pack := SendCall.flPack c nd }
  | .prefixSuffix c p st => { σ := Ps, ops := psOps c p, u0 := Ps.init raw st, pack := SendCall.psPack c p }
  | .stream c => { σ := Strm, ops := streamOps c, u0 := raw, pack := SendCall.flPack c nd }

/-- How many bytes of memory the unpacker's buffer has at the beginning (include/ext/unpacker.h:171, 361, 552, 603, 728, 762). -/
def Proto.rawLen : Proto → Nat
  | .plain c _ => c.bufSize
  | .flexible _ _ => flexSize
  | .nonCopy c => c.headLen
  | .fixed _ _ => 0
  | .prefixSuffix c _ _ => c.bufSize
  | .stream c => c.bufSize

/-- As `Pipe` (Model/EndToEnd.lean), with any unpacker. -/
structure GPipe (K : Codec) where
  tx : Tx
  off : Nat
  conn : Conn K.σ
  rx : Rx
  bad : Bool

/-- A link that was just established: do_start of both sockets ran (include/tcp/socket.h:241-248, include/socket.h:322-334). -/
def GPipe.init (K : Codec) : Option (GPipe K) := do
  let conn ← startRead K.ops K.u0 []
  return { tx := { Tx.init with ready := true, atReady := 1 }, off := 0, conn, rx := { Rx.init with rd := .reading }, bad := false }

/-- The send functions (include/base.h:703-780), the sender (include/tcp/socket.h:384-480), the stream, async_read with the unpacker and the receiver
(include/tcp/socket.h:329-382, include/socket.h:483-560, 728-800): as `Pipe.step`, but the packer and the unpacker are those of `K`. -/
def GPipe.step {K : Codec} (cwf : Bool) (batch limit : Nat) (s : GPipe K) : PAct → Option (GPipe K × List PEv)
  | .send call fits =>
    match K.pack call with
    | none => some ({ s with bad := true }, [])
    | some none => some (s, [])
    | some (some bs) =>
      let r := if call.single then s.tx.send ⟨bs.flatten, none⟩ false fits else s.tx.sendList (bs.map (fun b => ⟨b, none⟩)) false
      some ({ s with tx := r.1 }, if r.2.isEmpty then [] else [.sent call.body])
  | .tx a => if a.healthy then (s.tx.step batch a).map (fun r => ({ s with tx := r.1 }, [])) else none
  | .net k =>
    match s.rx.rd, s.conn.ph with
    | .reading, .reading cap got want =>
      if 0 < k ∧ k ≤ want ∧ got + k ≤ cap ∧ s.off + k ≤ s.tx.wire.length then
        match readSome K.ops cwf s.conn cap got ((s.tx.wire.drop s.off).take k) with
        | none => some ({ s with bad := true }, [])
        | some conn =>
          if readDone conn.ph then
            (s.rx.step limit (.read (newMsgs s.conn.log conn.log))).map (fun r => ({ s with off := s.off + k, conn, rx := r.1 }, r.2.filterMap rxEv))
          else some ({ s with off := s.off + k, conn }, [])
      else none
    | _, _ => none
  | .rx a => if a.healthy then (s.rx.step limit a).map (fun r => ({ s with rx := r.1 }, r.2.filterMap rxEv)) else none

inductive GPipe.Run {K : Codec} (cwf : Bool) (batch limit : Nat) : GPipe K → List PAct → GPipe K → List PEv → Prop where
  | nil (s : GPipe K) : GPipe.Run cwf batch limit s [] s []
  | snoc (s s1 s2 : GPipe K) (as : List PAct) (a : PAct) (es fs : List PEv) :
      GPipe.Run cwf batch limit s as s1 es → GPipe.step cwf batch limit s1 a = some (s2, fs) → GPipe.Run cwf batch limit s (as ++ [a]) s2 (es ++ fs)

def GPipe.exec {K : Codec} (cwf : Bool) (batch limit : Nat) : GPipe K → List PAct → Option (GPipe K × List PEv)
  | s, [] => some (s, [])
  | s, a :: as => do
    let (s, es) ← s.step cwf batch limit a
    let (s, fs) ← GPipe.exec cwf batch limit s as
    return (s, es ++ fs)

end StAsio
