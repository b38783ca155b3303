import Verif.Spec.Pingpong
/-!
The pingpong test: pingpong_client/pingpong_client.cpp:37-107 (echo_socket) and pingpong_server/pingpong_server.cpp:26-48 (echo_socket), one link.

The client sends `len` bytes; the server sends back every message, the client sends back every message it receives until it has received `num * len` bytes. Both use stream_unpacker: a "message" is
whatever one read returned. ST_ASIO_WANT_MSG_SEND_NOTIFY is not defined.

TCP contract used: bytes are neither lost nor doubled; a read returns at least one byte, at most what has arrived. All bytes are the same (`msg_fill`), so they are only counted.
Simplifications: sending never fails (direct_send_msg does not look at the size of the send buffer; the first message is sent when it is empty). A byte handed to a send function is on its way from then on. One call back is one step;
`begin`, on the thread of main(), is one step too. The byte counters are uint64_t, they are taken as unbounded.
-/
set_option autoImplicit false
namespace StAsio

structure Pp where
  /-- total_bytes; 0: no test is going on -/
  total : Nat
  /-- recv_bytes -/
  recv : Nat
  /-- bytes on their way to the server, in buffers or in the network -/
  up : Nat
  /-- bytes on their way to the client -/
  down : Nat
  deriving DecidableEq, Repr

/-- total_bytes is not initialised by the constructor (pingpong_client.cpp:40), but nothing arrives before the first begin(). -/
def Pp.init : Pp := { total := 0, recv := 0, up := 0, down := 0 }

inductive PpAct where
  /-- begin(msg_num, msg, msg_len); main() begins a test with at least one round of at least one byte (lines 182-183), when all links reported the one before (line 195) -/
  | start (num len : Nat)
  /-- the server receives k bytes -/
  | server (k : Nat)
  /-- the client receives k bytes -/
  | client (k : Nat)
  deriving DecidableEq, Repr

def Pp.step (s : Pp) : PpAct → Option (Pp × List PpEv)
  | .start num len => -- pingpong_client.cpp:42-49
    if s.total = 0 ∧ 0 < num ∧ 0 < len then some ({ s with total := num * len, recv := 0, up := s.up + len }, [.began num len]) else none
  | .server k => -- on_msg, pingpong_server.cpp:35-45
    if 0 < k ∧ k ≤ s.up then some ({ s with up := s.up - k, down := s.down + k }, []) else none
  | .client k => -- on_msg, handle_msg, pingpong_client.cpp:57-67, 87-102
    if 0 < k ∧ k ≤ s.down then
      if s.total = 0 then some ({ s with down := s.down - k }, [.got k])
      else if s.total ≤ s.recv + k then some ({ s with total := 0, recv := s.recv + k, down := s.down - k }, [.got k, .completed])
      else some ({ s with recv := s.recv + k, down := s.down - k, up := s.up + k }, [.got k])
    else none

inductive Pp.Run : Pp → List PpAct → Pp → List PpEv → Prop where
  | nil (s : Pp) : Pp.Run s [] s []
  | snoc (s s1 s2 : Pp) (as : List PpAct) (a : PpAct) (es es' : List PpEv) : Pp.Run s as s1 es → s1.step a = some (s2, es') → Pp.Run s (as ++ [a]) s2 (es ++ es')

def Pp.exec : Pp → List PpAct → Option (Pp × List PpEv)
  | s, [] => some (s, [])
  | s, a :: as => do
    let (s, es) ← s.step a
    let (s, es') ← Pp.exec s as
    return (s, es ++ es')

end StAsio
