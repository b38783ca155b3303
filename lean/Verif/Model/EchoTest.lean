import Verif.Spec.EchoTest
import Verif.Model.GroupLinks
/-!
The echo test: echo_client/echo_client.cpp (echo_socket, send_msg_randomly, thread_runtine, send_msg_concurrently, start_test) against echo_server/echo_server.cpp (echo_socket), any number of links.

Both programs as they are configured: the client has ST_ASIO_SYNC_DISPATCH, its on_msg takes all messages; the server has ST_ASIO_DISPATCH_BATCH_MSG, its on_msg_handle takes at most ten messages, if its send buffer is available.
ST_ASIO_WANT_MSG_SEND_NOTIFY is not defined. The send buffers, the receive buffer of the server and the network have bounds, the network a bound on the number of messages on their way.

Proved elsewhere and used as steps here: a link brings messages over whole, in order, once (C56, C20, C01 or C04); messages are dispatched in order, one call at a time (C57, C58); a server whose receive buffer is full does not read (C27);
safe_send_msg waits until the send buffer is available (C53).
Simplifications: all links are connected and stay so (otherwise the test goes on for ever: get_recv_bytes never reaches what it waits for); their number does not change; heartbeats are not looked at; a message is one unit on the network; rand() gives any numbers; uint64_t and size_t do not overflow.
Memory accesses are sequentially consistent and recv_bytes and recv_index are read and written as a whole, although they are not atomic.
-/
set_option autoImplicit false
namespace StAsio

structure EtMsg where
  seq : Nat
  len : Nat
  deriving DecidableEq, Repr

structure EtEnv where
  /-- client.size() -/
  n : Nat
  /-- RAND_MAX -/
  max : Nat
  /-- the order in which do_something_to_all goes over the links -/
  order : List Nat
  /-- ST_ASIO_MAX_SEND_BUF of the client -/
  climit : Nat
  /-- how many messages can be on their way in one direction -/
  cap : Nat
  /-- ST_ASIO_MAX_RECV_BUF of the server -/
  rlimit : Nat
  /-- ST_ASIO_MAX_SEND_BUF of the server -/
  slimit : Nat
  /-- the size of a packed message -/
  packed : Nat → Nat

/-- One link: client's send buffer, network, server's receive and send buffer, network, messages on_msg of the client works on; recv_bytes and recv_index, echo_client.cpp:176-178. -/
structure EtLink where
  out : List EtMsg
  up : List EtMsg
  srv : List EtMsg
  back : List EtMsg
  down : List EtMsg
  hand : List EtMsg
  /-- handle_msg added the size of the first message in `hand` to recv_bytes already -/
  half : Bool
  bytes : Nat
  index : Nat
  deriving DecidableEq, Repr

inductive EtMain where
  /-- no test, or between two of them -/
  | idle
  /-- clear_status, `i` links are done -/
  | clearing (t : EtTest) (i : Nat)
  /-- waiting for the end; get_recv_bytes has added the first `i` links up to `acc` -/
  | going (t : EtTest) (i acc : Nat)
  deriving DecidableEq, Repr

structure Et where
  links : List EtLink
  /-- what each sending thread has still to send: link and number -/
  todo : List (List (Nat × Nat))
  /-- length of the messages being sent -/
  len : Nat
  /-- check_msg, echo_client.cpp:68 -/
  check : Bool
  main : EtMain
  deriving DecidableEq, Repr

/-- echo_client.cpp:86. -/
def EtLink.init : EtLink := ⟨[], [], [], [], [], [], false, 0, 0⟩

/-- After start_service, all links connected. -/
def Et.init (env : EtEnv) : Et := ⟨List.replicate env.n EtLink.init, [], 0, false, .idle⟩

inductive EtLAct where
  /-- a message leaves the client -/
  | xmit
  /-- the server receives k messages -/
  | srvRead (k : Nat)
  /-- on_msg_handle of the server -/
  | srvHandle
  /-- a message leaves the server -/
  | srvXmit
  /-- the client receives k messages -/
  | cliRead (k : Nat)
  /-- handle_msg of the client, up to recv_bytes += -/
  | add
  /-- handle_msg of the client, the rest -/
  | check
  deriving DecidableEq, Repr

/-- What a send buffer counts, socket.h:257, container.h:110-111. -/
def EtEnv.sendSize (env : EtEnv) (q : List EtMsg) : Nat := (q.map fun m => env.packed m.len).sum

/-- What a receive buffer counts. -/
def recvSize (q : List EtMsg) : Nat := (q.map (·.len)).sum

def EtLink.step (env : EtEnv) (i : Nat) (chk : Bool) (l : EtLink) : EtLAct → Option (EtLink × List EtEv)
  | .xmit => match l.out with
    | m :: r => if l.up.length < env.cap then some ({ l with out := r, up := l.up ++ [m] }, []) else none
    | [] => none
  | .srvRead k => -- tcp/socket.h: reading goes on while the receive buffer is available
    if 0 < k ∧ k ≤ l.up.length ∧ recvSize l.srv < env.rlimit then some ({ l with up := l.up.drop k, srv := l.srv ++ l.up.take k }, []) else none
  | .srvHandle => -- echo_server.cpp:138-151; it returns 0 and is called again later if the send buffer is not available
    if l.srv ≠ [] ∧ env.sendSize l.back < env.slimit then some ({ l with srv := l.srv.drop 10, back := l.back ++ l.srv.take 10 }, []) else none
  | .srvXmit => match l.back with
    | m :: r => if l.down.length < env.cap then some ({ l with back := r, down := l.down ++ [m] }, []) else none
    | [] => none
  | .cliRead k => -- on_msg, echo_client.cpp:120-132; the next read follows when it returned
    if l.hand = [] ∧ 0 < k ∧ k ≤ l.down.length then some ({ l with down := l.down.drop k, hand := l.down.take k }, []) else none
  | .add => match l.hand with -- echo_client.cpp:178
    | m :: _ => if l.half then none else some ({ l with half := true, bytes := l.bytes + m.len }, [.arrived i m.seq])
    | [] => none
  | .check => match l.hand with -- echo_client.cpp:179-181
    | m :: r => if l.half then some ({ l with hand := r, half := false, index := l.index + 1 }, if chk = true ∧ m.seq ≠ l.index then [.complaint i] else []) else none
    | [] => none

inductive EtAct where
  /-- start_test, or its next round -/
  | begin (t : EtTest)
  /-- clear_status of the next link -/
  | clear
  /-- the sending threads begin -/
  | launch
  /-- get_recv_bytes adds the next link -/
  | poll
  /-- the comparison after get_recv_bytes, and join_all -/
  | verdict
  /-- thread j sends its next message -/
  | send (j : Nat)
  /-- a step of link i -/
  | link (i : Nat) (a : EtLAct)
  deriving DecidableEq, Repr

/-- Test parameters main() passes on, echo_client.cpp:548-571: at least one message of at least one byte, at least one thread (line 486); rand() is at most RAND_MAX. -/
def EtTest.valid (max : Nat) : EtTest → Bool
  | .conc threads num len => 0 < threads && 0 < num && 0 < len
  | .rand rs len => !rs.isEmpty && 0 < len && rs.all (· ≤ max)

def EtTest.len : EtTest → Nat
  | .conc _ _ len => len
  | .rand _ len => len

/-- total_msg_bytes, echo_client.cpp:268, 347-348. -/
def EtTest.total (n : Nat) : EtTest → Nat
  | .conc _ num len => n * len * num
  | .rand rs len => rs.length * len

/-- What thread_runtine sends, echo_client.cpp:302-317: message after message, each to all links of the group. -/
def threadTodo (num : Nat) (group : List Nat) : List (Nat × Nat) := (List.range num).flatMap fun k => group.map fun l => (l, k)

/-- The sending threads: the groups of group_links (echo_client.cpp:349-359), or the loop in send_msg_randomly (echo_client.cpp:274-289) with the link selected by TCP_RANDOM_SEND_MSG (line 75). -/
def EtTest.todo (env : EtEnv) : EtTest → Option (List (List (Nat × Nat)))
  | .conc threads num _ => (groupLinks threads env.n env.order).map fun gs => gs.map (threadTodo num)
  | .rand rs _ => some [rs.zipIdx.map fun x => (randomLink env.n env.max x.1, x.2)]

/-- check_msg = true or false, echo_client.cpp:266, 341. -/
def EtTest.checks : EtTest → Bool
  | .conc .. => true
  | .rand .. => false

/-- Has the loop ended? echo_client.cpp:361-373 and 291-292. -/
def EtTest.reached (n : Nat) (t : EtTest) (acc : Nat) : Bool := match t with
  | .conc .. => ! decide (100 * acc / t.total n < 100)
  | .rand .. => ! decide (acc < t.total n)

def Et.step (env : EtEnv) (s : Et) : EtAct → Option (Et × List EtEv)
  | .begin t => if s.main = .idle ∧ t.valid env.max = true then some ({ s with main := .clearing t 0 }, []) else none
  | .clear => match s.main with -- echo_client.cpp:98, 205, 389
    | .clearing t i => match s.links[i]? with
      | some l => some ({ s with links := s.links.set i { l with bytes := 0, index := 0 }, main := .clearing t (i + 1) }, [])
      | none => none
    | _ => none
  | .launch => match s.main with
    | .clearing t i => if i = env.n then (t.todo env).map fun td => ({ s with todo := td, len := t.len, check := t.checks, main := .going t 0 0 }, [.began t]) else none
    | _ => none
  | .poll => match s.main with -- echo_client.cpp:196-203
    | .going t i acc => if t.checks = true ∨ s.todo.all (·.isEmpty) = true then (s.links[i]?).map fun l => ({ s with main := .going t (i + 1) (acc + l.bytes) }, []) else none
    | _ => none
  | .verdict => match s.main with
    | .going t i acc =>
      if i = env.n then
        if t.reached env.n acc then
          if s.todo.all (·.isEmpty) then some ({ s with main := .idle }, [.finished]) else none
        else some ({ s with main := .going t 0 0 }, [])
      else none
    | _ => none
  | .send j => match s.todo[j]? with -- safe_send_msg
    | some ((i, k) :: r) => match s.links[i]? with
      | some l => if env.sendSize l.out < env.climit then some ({ s with todo := s.todo.set j r, links := s.links.set i { l with out := l.out ++ [⟨k, s.len⟩] } }, []) else none
      | none => none
    | _ => none
  | .link i a => match s.links[i]? with
    | some l => (l.step env i s.check a).map fun r => ({ s with links := s.links.set i r.1 }, r.2)
    | none => none

/-- Runs whose steps all meet p. -/
inductive Et.Run (env : EtEnv) (p : Et → EtAct → Bool) : Et → List EtAct → Et → List EtEv → Prop where
  | nil (s : Et) : Et.Run env p s [] s []
  | snoc (s s1 s2 : Et) (as : List EtAct) (a : EtAct) (es es' : List EtEv) :
      Et.Run env p s as s1 es → p s1 a = true → s1.step env a = some (s2, es') → Et.Run env p s (as ++ [a]) s2 (es ++ es')

def Et.exec (env : EtEnv) (p : Et → EtAct → Bool) : Et → List EtAct → Option (Et × List EtEv)
  | s, [] => some (s, [])
  | s, a :: as =>
    if p s a then do
      let (s1, es) ← s.step env a
      let (s2, es') ← Et.exec env p s1 as
      return (s2, es ++ es')
    else none

/-- No restriction. -/
def Et.any (_ : Et) (_ : EtAct) : Bool := true

/-- clear_status is not called while on_msg of that link runs. -/
def Et.calm (s : Et) : EtAct → Bool
  | .clear => match s.main with
    | .clearing _ i => match s.links[i]? with
      | some l => l.hand.isEmpty
      | none => true
    | _ => true
  | _ => true

/-- What is assumed of the environment: there are links, do_something_to_all goes over each once, no bound is 0. -/
structure EtEnv.Ok (env : EtEnv) : Prop where
  n : 0 < env.n
  order : env.order.Perm (List.range env.n)
  climit : 0 < env.climit
  cap : 0 < env.cap
  rlimit : 0 < env.rlimit
  slimit : 0 < env.slimit
  max : 0 < env.max

end StAsio
