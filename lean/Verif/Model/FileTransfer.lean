import Verif.Spec.FileTransfer

/-!
# The file transfer programs (file_common, file_client, file_server)

fl_type is off_t with 64 bits, default_max_transfer_size is 65536 (asio). Files are byte strings; what is written by fwrite is in the file at once (stdio buffering is not modelled); fread and fwrite may fail.
-/

set_option autoImplicit false

namespace StAsio

/-- boost::asio::detail::default_max_transfer_size -/
def maxTransfer : Nat := 65536

/-! ## Parts -/

/-- handle_msg, case 0, file_client.h:273-277 and put_file, file_client.h:99-104: offset and length of link `index` of `n`, for a file of `length` bytes; C++ division truncates. -/
def filePart (length : Int) (n index : Nat) : Int × Int :=
  let my := length.tdiv n
  let off := my * index
  (off, if (n : Int) - 1 = index then length - off else my)

/-! ## Reading -/

/-- file_buffer, file_buffer.h:48-56; `pos` is the position of the file. -/
structure FileBuf where
  total : Int
  pos : Nat
  data : Bytes
  good : Bool
  deriving Repr, DecidableEq

/-- file_buffer::read, file_buffer.h:26-46; `f` is the content of the file: fread returns what is there. -/
def FileBuf.read (f : Bytes) (s : FileBuf) : FileBuf :=
  if s.total ≤ 0 then { s with data := [] }
  else
    let n : Nat := if s.total > maxTransfer then maxTransfer else s.total.toNat
    let got := slice f s.pos n
    if got.length ≠ n then { s with total := s.total - n, pos := s.pos + got.length, data := [], good := false }
    else { s with total := s.total - n, pos := s.pos + n, data := got }

/-- Constructor, file_buffer.h:9-17, after fseeko(file, pos). -/
def FileBuf.new (f : Bytes) (pos : Nat) (total : Int) : FileBuf := FileBuf.read f ⟨total, pos, [], true⟩

/-- The messages sent, file_client.h:332-337 and file_socket.cpp:137-142 (first), 183-198 and file_socket.cpp:33-48 (on_msg_send); whether the last read was good. -/
def FileBuf.chunks (f : Bytes) : Nat → FileBuf → List Bytes × Bool
  | 0, s => ([], s.good)
  | fuel + 1, s => if s.good = false then ([], false) else if s.data = [] then ([], true) else
      let r := FileBuf.chunks f fuel (s.read f)
      (s.data :: r.1, r.2)

/-! ## Writing -/

/-- file_unpacker, unpacker.h:47-52; `pos` is the position of the file. -/
structure FileUnp where
  total : Int
  pos : Nat
  deriving Repr, DecidableEq

/-- prepare_next_recv, unpacker.h:37-45: the number of bytes asio may store in the buffer of 65536 bytes; (size_t) of a negative number is huge. -/
def FileUnp.room (s : FileUnp) : Nat := if s.total > maxTransfer then maxTransfer else (s.total % 2 ^ 64).toNat

/-- parse_msg, unpacker.h:21-34, with fwrite succeeding: the file and the unpacker afterwards. -/
def FileUnp.parse (f : Bytes) (s : FileUnp) (bs : Bytes) : Bytes × FileUnp := (overwrite f s.pos bs, ⟨s.total - bs.length, s.pos + bs.length⟩)

/-- Reads from the byte stream until is_finished (file_client.h:234-248, file_socket.cpp:72-86: trans_end puts the default unpacker back then): the file, the unpacker and what is left of the stream. `ks` says how much of the stream each read finds; a read gets at least one byte and at most `room`. With completion_condition (unpacker.h:36) asio even waits until `room` bytes are there, that is one of the choices of `ks`. -/
def FileUnp.run (f : Bytes) (s : FileUnp) (stream : Bytes) : List Nat → Bytes × FileUnp × Bytes
  | [] => (f, s, stream)
  | k :: ks =>
    if s.total = 0 ∨ stream = [] then (f, s, stream)
    else
      let n := min (max k 1) s.room
      let r := s.parse f (stream.take n)
      FileUnp.run r.1 r.2 (stream.drop n) ks

/-! ## Getting a file over several links -/

/-- One link of a transfer: what the sender still has to read, the bytes under way, the unpacker of the receiver. -/
structure FLink where
  buf : FileBuf
  wire : Bytes
  unp : FileUnp
  deriving Repr, DecidableEq

/-- The ranges the links request: only if their length is positive (file_client.h:105, 278, 293-294). -/
def fileRequests (len n : Nat) : List FileRange :=
  ((List.range n).map (filePart len n)).filterMap (fun p => if p.2 > 0 then some (p.1.toNat, p.2.toNat) else none)

/-- A transfer from the file `src` to the file `dst`. -/
structure FGet where
  dst : Bytes
  links : List FLink
  deriving Repr, DecidableEq

/-- The links that take part, after get_file (or truncate_file) truncated the destination (file_client.h:47, 74-81) and requests and answers were exchanged: both sides sought to the start of the range (file_client.h:288 and file_socket.cpp:136 for get, file_client.h:101 and file_socket.cpp:209 for put). -/
def FGet.init (src : Bytes) (n : Nat) : FGet :=
  ⟨[], (fileRequests src.length n).map (fun r => ⟨FileBuf.new src r.1 r.2, [], ⟨r.2, r.1⟩⟩)⟩

inductive FGetAct
  | send (i : Nat)          -- the sender of link i hands its chunk to the network and reads the next
  | recv (i : Nat) (n : Nat)  -- the receiver of link i gets n bytes
  deriving Repr, DecidableEq

/-- One step of the transfer. -/
def FGet.step (src : Bytes) (s : FGet) : FGetAct → Option FGet
  | .send i => match s.links[i]? with
    | some l => if l.buf.good ∧ l.buf.data ≠ [] then some { s with links := s.links.set i { l with wire := l.wire ++ l.buf.data, buf := l.buf.read src } } else none
    | none => none
  | .recv i n => match s.links[i]? with
    | some l =>
      if 0 < n ∧ n ≤ l.wire.length ∧ n ≤ l.unp.room ∧ l.unp.total ≠ 0 then
        let r := l.unp.parse s.dst (l.wire.take n)
        some ⟨r.1, s.links.set i { l with wire := l.wire.drop n, unp := r.2 }⟩
      else none
    | none => none

/-- Runs of a transfer. -/
inductive FGet.Run (src : Bytes) : FGet → List FGetAct → FGet → Prop
  | nil (s : FGet) : FGet.Run src s [] s
  | snoc (s s1 s2 : FGet) (as : List FGetAct) (a : FGetAct) : FGet.Run src s as s1 → s1.step src a = some s2 → FGet.Run src s (as ++ [a]) s2

/-- Executes a list of steps. -/
def FGet.exec (src : Bytes) (s : FGet) : List FGetAct → Option FGet
  | [] => some s
  | a :: as => (s.step src a).bind (fun s1 => FGet.exec src s1 as)

/-! ## The file server

One socket of the file server. Its functions are atomic. ftello and fopen are oracles: an opened file has a length that does not change; fread and fwrite may fail. Message order 2 (talk) and 3 (restore_socket) do nothing here. The life of the connection is not modelled. -/

inductive FSt | idle | prepare | busy
  deriving Repr, DecidableEq

/-- What classes of messages the theorems distinguish. -/
inductive FTag
  | fine
  | whileSending  -- a message while a file is being sent
  | overflow      -- a download request whose offset + length does not fit in 64 bits
  | badPut        -- an upload request with negative offset or length
  deriving Repr, DecidableEq

/-- A file_buffer or file_unpacker: the FILE* it keeps, its position and total_len. -/
structure FPart where
  h : Nat
  pos : Int
  total : Int
  deriving Repr, DecidableEq

/-- The members of base_socket (common.h:55-64) and the parts of the socket it uses. `next` numbers the FILE*s. -/
structure FSrv where
  st : FSt
  file : Option Nat
  flen : Nat
  next : Nat
  buf : Option FPart
  unp : Option FPart
  replies : Nat
  deriving Repr, DecidableEq

def FSrv.init : FSrv := ⟨.idle, none, 0, 0, none, none, 0⟩

inductive FSrvAct
  | msg (tag : FTag) (m : Bytes) (fopen : Option Nat) (ok : Bool)  -- a message was unpacked; what fopen and ftello give; whether fread succeeds
  | replySent                          -- an answer has been sent
  | chunkSent (ok : Bool)              -- on_msg_send for a file_buffer; whether fread succeeds
  | data (n : Nat)                     -- the file_unpacker gets n bytes
  deriving Repr, DecidableEq

/-- is_sending: something is in the send queue or being sent. -/
def FSrv.isSending (s : FSrv) : Bool := s.buf.isSome || decide (s.replies > 0)

/-- clear, file_socket.cpp:51-58: the events and the state. -/
def FSrv.clear (s : FSrv) : List FSrvEv × FSrv := match s.file with
  | some _ => ([.closed], { s with file := none })
  | none => ([], s)

/-- trans_end, file_socket.cpp:60-68; `reset` is reset_unpacker. -/
def FSrv.transEnd (s : FSrv) (reset : Bool) : List FSrvEv × FSrv :=
  (s.clear.1, { s.clear.2 with st := .idle, unp := if reset then none else s.clear.2.unp })

/-- file_buffer::read, file_buffer.h:26-46, of a positive total_len on the server: events, the buffer afterwards, success. -/
def FPart.read (b : FPart) (file : Option Nat) (ok : Bool) : List FSrvEv × FPart × Bool :=
  let n : Nat := if b.total > maxTransfer then maxTransfer else b.total.toNat
  if file = some b.h then ([.read b.pos n], { b with pos := b.pos + n, total := b.total - n }, ok)
  else ([.ub], b, false)

/-- offset and length in a message, file_socket.cpp:127-130 and 187-190. -/
def msgOff (m : Bytes) : Int := leInt64 ((m.drop 1).take 8)
def msgLen (m : Bytes) : Int := leInt64 ((m.drop 9).take 8)

/-- The class of a message in a state. -/
def FSrv.classify (s : FSrv) (m : Bytes) : FTag :=
  if s.st = .busy then (if s.unp = none then .whileSending else .fine)
  else if m.head? = some 1 ∧ msgOff m + msgLen m ≥ 2 ^ 63 then .overflow
  else if m.head? = some 11 ∧ (msgOff m < 0 ∨ msgLen m < 0) then .badPut
  else .fine

/-- handle_msg, case 0, file_socket.cpp:98-122. -/
def FSrv.getInfo (s : FSrv) (fopen : Option Nat) : List FSrvEv × FSrv :=
  if s.isSending then ([], s)
  else
    let (es, s1) := s.transEnd true
    match fopen with
    | some n => (es ++ [.opened n, .reply 0], { s1 with file := some s1.next, next := s1.next + 1, flen := n, st := .prepare, replies := s1.replies + 1 })
    | none => (es ++ [.reply 0], { s1 with replies := s1.replies + 1 })

/-- handle_msg, case 1, file_socket.cpp:125-151; ftello(file) is at the end of the file since case 0. A signed overflow of offset + length is undefined. -/
def FSrv.getRange (s : FSrv) (m : Bytes) (ok : Bool) : List FSrvEv × FSrv :=
  match s.file with
  | some h =>
    if s.st = .prepare ∧ m.length = 17 then
      if 0 ≤ msgOff m ∧ 0 < msgLen m then
        if msgOff m + msgLen m ≥ 2 ^ 63 then ([.ub], s)
        else if msgOff m + msgLen m ≤ s.flen then
          let r := FPart.read ⟨h, msgOff m, msgLen m⟩ s.file ok
          if r.2.2 then (.serve (msgOff m) (msgLen m) :: r.1, { s with st := .busy, buf := some r.2.1 })
          else
            let e := ({ s with st := .busy } : FSrv).transEnd true
            (.serve (msgOff m) (msgLen m) :: r.1 ++ e.1, e.2)
        else s.transEnd true
      else s.transEnd true
    else ([], s)
  | none => ([], s)

/-- handle_msg, case 10, file_socket.cpp:156-178. -/
def FSrv.truncate (s : FSrv) (fopen : Option Nat) : List FSrvEv × FSrv :=
  if s.isSending then ([], s)
  else
    let (es, s1) := s.transEnd true
    match fopen with
    | some _ => (es ++ [.openedW, .closed, .reply 10], { s1 with replies := s1.replies + 1, next := s1.next + 1 })
    | none => (es ++ [.reply 10], { s1 with replies := s1.replies + 1 })

/-- handle_msg, case 11, file_socket.cpp:183-214; fseeko to a negative offset fails, the position stays 0. -/
def FSrv.put (s : FSrv) (m : Bytes) (fopen : Option Nat) : List FSrvEv × FSrv :=
  if m.length > 17 ∧ s.isSending = false then
    let (es, s1) := s.transEnd true
    match fopen with
    | some _ => (es ++ [.openedW, .accept (msgOff m) (msgLen m), .reply 11],
        { s1 with file := some s1.next, next := s1.next + 1, st := .busy, unp := some ⟨s1.next, if msgOff m < 0 then 0 else msgOff m, msgLen m⟩, replies := s1.replies + 1 })
    | none => (es ++ [.reply 11], { s1 with replies := s1.replies + 1 })
  else ([], s)

/-- handle_msg, file_socket.cpp:72-86: while busy. -/
def FSrv.whileBusy (s : FSrv) : List FSrvEv × FSrv := match s.unp with
  | none => s.transEnd true
  | some u => if u.total = 0 then s.transEnd true else ([], s)

/-- handle_msg, file_socket.cpp:70-231. -/
def FSrv.handleMsg (s : FSrv) (m : Bytes) (fopen : Option Nat) (ok : Bool) : List FSrvEv × FSrv :=
  if s.st = .busy then s.whileBusy
  else if m.length ≤ 1 then ([], s)
  else match m.head? with
    | some 0 => s.getInfo fopen
    | some 1 => s.getRange m ok
    | some 10 => s.truncate fopen
    | some 11 => s.put m fopen
    | _ => ([], s)

/-- on_msg_send for a file_buffer, file_socket.cpp:33-48. -/
def FSrv.chunkSent (s : FSrv) (b : FPart) (ok : Bool) : List FSrvEv × FSrv :=
  if b.total ≤ 0 then (let e := s.transEnd false; (e.1, { e.2 with buf := none }))
  else
    let r := b.read s.file ok
    if r.2.2 then (r.1, { s with buf := some r.2.1 })
    else (let e := s.transEnd false; (r.1 ++ e.1, { e.2 with buf := none }))

/-- One action of the file server; `none` if it is not possible. -/
def FSrv.step (s : FSrv) : FSrvAct → Option (List FSrvEv × FSrv)
  | .msg tag m fopen ok => if s.classify m = tag then some (s.handleMsg m fopen ok) else none
  | .replySent => if s.replies > 0 then some ([], { s with replies := s.replies - 1 }) else none
  | .chunkSent ok => match s.buf with
    | some b => some (s.chunkSent b ok)
    | none => none
  | .data n => match s.unp with
    -- prepare_next_recv and parse_msg, unpacker.h:21-45, then handle_msg with an empty message
    | some u =>
      if n ≤ (FileUnp.mk u.total 0).room ∧ (0 < n ∨ u.total = 0) then
        let s1 := { s with unp := some { u with pos := u.pos + n, total := u.total - n } }
        let e := s1.whileBusy
        some (.store n :: (if s.file = some u.h then FSrvEv.write u.pos n else .ub) :: e.1, e.2)
      else none
    | none => none

/-- Runs of the file server with what can be seen. -/
inductive FSrv.Run : FSrv → List FSrvAct → List FSrvEv → FSrv → Prop
  | nil (s : FSrv) : FSrv.Run s [] [] s
  | snoc (s s1 s2 : FSrv) (as : List FSrvAct) (a : FSrvAct) (es fs : List FSrvEv) : FSrv.Run s as es s1 → s1.step a = some (fs, s2) → FSrv.Run s (as ++ [a]) (es ++ fs) s2

/-- Executes a list of actions. -/
def FSrv.exec (s : FSrv) : List FSrvAct → Option (List FSrvEv × FSrv)
  | [] => some ([], s)
  | a :: as => (s.step a).bind (fun r => (FSrv.exec r.2 as).map (fun q => (r.1 ++ q.1, q.2)))

/-- The action is not a message of a dangerous class. -/
def FSrvAct.harmless : FSrvAct → Bool
  | .msg tag _ _ _ => decide (tag = .fine)
  | _ => true

end StAsio
