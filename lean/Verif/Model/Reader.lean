import Verif.Spec.Bytes
/-!
Model of the receive path of a TCP socket: `boost::asio::async_read` driven by an unpacker
(include/tcp/socket.h:29-62) and `recv_handler` (include/tcp/socket.h:347-382).

The unpacker is a parameter (`UnpackerOps`), one instance per unpacker class.

Undefined behaviour (a failing `assert`, an access outside of a buffer) is the outcome `none`.
-/
set_option autoImplicit false
namespace StAsio

/-- C++ memory block read `[off, off+len)`; `none` = out of bounds. Models `memcpy` from a buffer. -/
def readAt (m : Bytes) (off len : Nat) : Option Bytes :=
  if off + len ≤ m.length then some ((m.drop off).take len) else none

/-- C++ memory block write at `off`; `none` = out of bounds. Models `memcpy`/`memmove`/asio writing into a buffer. -/
def writeAt (m : Bytes) (off : Nat) (d : Bytes) : Option Bytes :=
  if off + d.length ≤ m.length then some (m.take off ++ d ++ m.drop (off + d.length)) else none

/-- The part of `i_unpacker` used by the receive path (include/base.h:262-294).
* `prepare` = `prepare_next_recv`, returns the size of the offered buffer;
* `write u got d` = asio stores `d` at position `got` of the offered buffer;
* `cond u got` = `completion_condition(no error, got)`;
* `parse u got` = `parse_msg(got, msg_can)`: new state, messages, result;
* `reset` = `reset()`. -/
structure UnpackerOps (σ : Type) where
  prepare : σ → Option (σ × Nat)
  write : σ → Nat → Bytes → Option σ
  cond : σ → Nat → Option (σ × Nat)
  parse : σ → Nat → Option (σ × List Bytes × Bool)
  reset : σ → σ

/-- Observable events of reception. -/
inductive RxEvent where
  /-- a message was handed to the socket (`temp_msg_can`) -/
  | msg (m : Bytes)
  /-- `on_unpack_error()` was called -/
  | unpackError
  deriving DecidableEq, Repr

/-- State of reception.
* `reading cap got want`: an `async_read` into a buffer of size `cap` is outstanding, `got` bytes are already
  there, the next `async_read_some` asks for at most `want` bytes;
* `stalled`: no read is outstanding any more and none will be started: either the unpacker offered an
  empty buffer (include/tcp/socket.h:32-37) or a read completed with 0 bytes and no error
  (`assert(false)` in include/tcp/socket.h:371-375; with NDEBUG reception silently ends). -/
inductive RxPhase where
  | reading (cap got want : Nat)
  | stalled
  deriving DecidableEq, Repr

structure Conn (σ : Type) where
  u : σ
  ph : RxPhase
  log : List RxEvent

/-- `do_recv_msg` (include/tcp/socket.h:29-42, 329-345): offer a buffer, start `async_read`. asio first
evaluates the completion condition with 0 bytes; result 0 completes the read with 0 bytes.
Simplification: the macro ST_ASIO_PASSIVE_RECV is not defined. -/
def startRead {σ} (o : UnpackerOps σ) (u : σ) (log : List RxEvent) : Option (Conn σ) := do
  let (u, cap) ← o.prepare u
  if cap = 0 then return { u, ph := .stalled, log }
  let (u, want) ← o.cond u 0
  if want = 0 then return { u, ph := .stalled, log }
  return { u, ph := .reading cap 0 want, log }

/-- `recv_handler(no error, got)` with `got > 0` (include/tcp/socket.h:347-370).
Simplifications: receive-buffer back-pressure (`handle_msg` returning false delays the next read) is modelled in
`Model/RecvDispatch.lean`; here the next read starts at once. Messages are logged before the error callback although
`on_unpack_error` is invoked before they are dispatched. -/
def recvHandler {σ} (o : UnpackerOps σ) (c : Conn σ) (got : Nat) : Option (Conn σ) := do
  let (u, msgs, ok) ← o.parse c.u got
  let log := c.log ++ msgs.map .msg
  if ok then startRead o u log
  else startRead o (o.reset u) (log ++ [.unpackError])

/-- One `async_read_some` of the outstanding `async_read` delivers the bytes `d`
(`boost/asio/impl/read.hpp`, `read_op::operator()`). `condWhenFull` tells whether this version of asio
evaluates the completion condition also when the buffer has just become full (old versions do, newer do not). -/
def readSome {σ} (o : UnpackerOps σ) (condWhenFull : Bool) (c : Conn σ) (cap got : Nat) (d : Bytes) :
    Option (Conn σ) := do
  let u ← o.write c.u got d
  let got := got + d.length
  if got = cap then
    if condWhenFull then
      let (u, _) ← o.cond u got
      recvHandler o { c with u } got
    else recvHandler o { c with u } got
  else
    let (u, want) ← o.cond u got
    if want = 0 then recvHandler o { c with u } got
    else return { c with u, ph := .reading cap got want }

/-- The network makes the bytes `d` available; they are consumed by as many `async_read_some` calls as needed.
Every real sequence of `async_read_some` results is a sequence of `feed` calls with these results.
The first argument is fuel (`d.length` suffices: every read consumes at least one byte). -/
def feedN {σ} (o : UnpackerOps σ) (condWhenFull : Bool) : Nat → Conn σ → Bytes → Option (Conn σ)
  | 0, c, _ => some c
  | fuel + 1, c, d =>
    match d, c.ph with
    | [], _ => some c
    | _, .stalled => some c
    | d, .reading cap got want => do
      let n := min (min want (cap - got)) d.length
      let c ← readSome o condWhenFull c cap got (d.take n)
      feedN o condWhenFull fuel c (d.drop n)

def feed {σ} (o : UnpackerOps σ) (condWhenFull : Bool) (c : Conn σ) (d : Bytes) : Option (Conn σ) :=
  feedN o condWhenFull d.length c d

/-- Reception of a whole sequence of network deliveries, starting from a fresh connection. -/
def feedAll {σ} (o : UnpackerOps σ) (condWhenFull : Bool) : Conn σ → List Bytes → Option (Conn σ)
  | c, [] => some c
  | c, d :: ds => do
    let c ← feed o condWhenFull c d
    feedAll o condWhenFull c ds

def receive {σ} (o : UnpackerOps σ) (condWhenFull : Bool) (u0 : σ) (chunks : List Bytes) : Option (Conn σ) := do
  let c ← startRead o u0 []
  feedAll o condWhenFull c chunks

end StAsio
