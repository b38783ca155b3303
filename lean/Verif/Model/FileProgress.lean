import Verif.Model.FileTransfer

/-!
# What file_client reports about a transfer

The transfer of Model/FileTransfer.lean, in either direction, together with the counter file_client keeps of it, with connections that get lost and with writing that fails.
-/

set_option autoImplicit false

namespace StAsio

/-- A transfer and the counter transmit_size (file_client.cpp:30, the third argument of file_buffer in file_client.h:332 and of file_unpacker in file_client.h:289). The files of the server are sent and stored without a counter (file_socket.cpp:137, 210). `dead` are the links whose sender has lost the connection, `gone` those whose receiver has. -/
structure FProg where
  g : FGet
  moved : Nat
  dead : List Nat
  gone : List Nat
  deriving Repr, DecidableEq

/-- The counter at the beginning: 0 (file_client.h:414). For an upload the constructor of file_buffer (file_buffer.h:9-17) reads the first chunk of every link and counts it. The links make their buffers one after another while others transfer already; here all of them do so at the beginning. -/
def FProg.init (put : Bool) (src : Bytes) (n : Nat) : FProg :=
  ⟨FGet.init src n, if put then ((FGet.init src n).links.map (fun l => l.buf.data.length)).sum else 0, [], []⟩

/-- data_len of the chunk a link has in its buffer, file_buffer.h:33, 41-42: what read() adds to the counter. -/
def FGet.chunk (g : FGet) (i : Nat) : Nat := match g.links[i]? with
  | some l => l.buf.data.length
  | none => 0

inductive FProgAct
  /-- a chunk of link i has been sent, and the next one is read (on_msg_send) -/
  | send (i : Nat)
  /-- link i receives n bytes and writes them -/
  | recv (i n : Nat)
  /-- link i receives n bytes and fwrite fails -/
  | badWrite (i n : Nat)
  /-- the sender of link i loses the connection; what is under way may still arrive -/
  | lose (i : Nat)
  /-- the receiver of link i loses the connection; the sender may not know it yet -/
  | cut (i : Nat)
  deriving Repr, DecidableEq

/-- One step. `put`: the sender is the client, so its file_buffer has the counter; else its file_unpacker has it. -/
def FProg.step (put : Bool) (src : Bytes) (s : FProg) : FProgAct → Option FProg
  | .send i => -- on_msg_send, file_client.h:183-198 and file_socket.cpp:33-48; file_buffer::read, file_buffer.h:41-42
    if i ∈ s.dead then none
    else match s.g.step src (.send i) with
      | some g => some { s with g := g, moved := if put then s.moved + g.chunk i else s.moved }
      | none => none
  | .recv i n => -- parse_msg, unpacker.h:25-30
    if i ∈ s.gone then none
    else match s.g.step src (.recv i n) with
      | some g => some { s with g := g, moved := if put then s.moved else s.moved + n }
      | none => none
  | .badWrite i n => -- parse_msg, unpacker.h:25-33: counted, but not written; it returns false and the link ends (tcp/socket.h:357-366, on_unpack_error in client_socket.h:151 and server_socket.h:62). A part that fwrite may have written is not modelled.
    if i ∈ s.gone then none
    else match s.g.links[i]?, s.g.step src (.recv i n) with
      | some l, some _ =>
        some { g := { s.g with links := s.g.links.set i { l with wire := l.wire.drop n, unp := ⟨l.unp.total - n, l.unp.pos + n⟩ } }
               moved := if put then s.moved else s.moved + n, dead := s.dead, gone := i :: s.gone }
      | _, _ => none
  | .lose i => -- the link of the client stays as it is (see C86), that of the server ends (reset, file_socket.cpp:20, 60-68); nobody takes back what has been counted
    if i ∈ s.dead ∨ s.g.links.length ≤ i then none else some { s with dead := i :: s.dead }
  | .cut i => -- the same at the other end
    if i ∈ s.gone ∨ s.g.links.length ≤ i then none else some { s with gone := i :: s.gone }

/-- The percentage shown, file_client.h:453. -/
def FProg.percent (s : FProg) (len : Nat) : Nat := s.moved * 100 / len

/-- "100%" and "end, speed: ..." are shown: not (transmit_size < file_size), file_client.h:463-474. -/
def FProg.finished (s : FProg) (len : Nat) : Bool := decide (¬ s.moved < len)

/-- Runs of a transfer with its counter. -/
inductive FProg.Run (put : Bool) (src : Bytes) : FProg → List FProgAct → FProg → Prop
  | nil (s : FProg) : FProg.Run put src s [] s
  | snoc (s s1 s2 : FProg) (as : List FProgAct) (a : FProgAct) : FProg.Run put src s as s1 → s1.step put src a = some s2 → FProg.Run put src s (as ++ [a]) s2

/-- Executes a list of steps. -/
def FProg.exec (put : Bool) (src : Bytes) (s : FProg) : List FProgAct → Option FProg
  | [] => some s
  | a :: as => (s.step put src a).bind (fun s1 => FProg.exec put src s1 as)

end StAsio
