import Verif.Spec.Names
/-!
socket_management/client.h: my_client and my_client_socket, any number of links.

Names and links are numbers; a link gets a number no link had before. Every critical section of link_map_mutex is one step. ST_ASIO_RECONNECT is false (socket_management.cpp:9): a link which could not be connected
is closed without on_recv_error (connect_handler, prepare_next_reconnect, tcp/client_socket.h), a link whose receiving ends calls on_recv_error once.
Simplifications: create_object never returns null (assert, client.h:57); std::map is an association list with one entry for each key; what the socket does with a message is not looked at.
-/
set_option autoImplicit false
namespace StAsio

inductive NmPhase where
  | none       -- no such link yet
  | trying     -- connecting
  | up         -- connected, receiving
  | gone       -- not receiving any more, never will
  deriving DecidableEq, Repr

structure Nm where
  /-- link_map -/
  map : Nat → Option Nat
  /-- _name of each link -/
  name : Nat → Nat
  phase : Nat → NmPhase
  /-- number of links so far -/
  next : Nat

/-- Nothing yet, client.h:47. -/
def Nm.init : Nm := { map := fun _ => none, name := fun _ => 0, phase := fun _ => .none, next := 0 }

/-- Assignment to one element. -/
def nmSet {α : Type} (f : Nat → α) (i : Nat) (v : α) : Nat → α := fun j => if j = i then v else f j

inductive NmAct where
  /-- add_link(n); ok: add_socket succeeded -/
  | add (n : Nat) (ok : Bool)
  /-- shutdown_link(n) -/
  | del (n : Nat)
  /-- send_msg(n, …) -/
  | send (n : Nat)
  /-- link k is connected -/
  | connect (k : Nat)
  /-- link k could not be connected, or was shut down before -/
  | connectFail (k : Nat)
  /-- the receiving of link k ends: on_recv_error -/
  | recvError (k : Nat)
  deriving DecidableEq, Repr

def Nm.step (s : Nm) : NmAct → Option (Nm × List NmEv)
  | .add n ok => -- add_link, client.h:49-72
    if (s.map n).isSome then some (s, [.exists_ n])
    else if ok then some ({ map := nmSet s.map n (some s.next), name := nmSet s.name s.next n, phase := nmSet s.phase s.next .trying, next := s.next + 1 }, [.added n s.next])
    else some (s, [])
  | .del n => -- shutdown_link, find_and_remove_link, client.h:81-100
    match s.map n with
    | some k => some ({ s with map := nmSet s.map n none }, [.deleted n k])
    | none => some (s, [.deletedNone n])
  | .send n => -- send_msg, find_link, client.h:74-79, 102-107
    match s.map n with
    | some k => some (s, [.told n k])
    | none => some (s, [.toldNone n])
  | .connect k => -- connect_handler, tcp/client_socket.h:131-134
    if s.phase k = .trying then some ({ s with phase := nmSet s.phase k .up }, []) else none
  | .connectFail k => -- connect_handler, prepare_next_reconnect, tcp/client_socket.h:135-146, 194-218
    if s.phase k = .trying then some ({ s with phase := nmSet s.phase k .gone }, [.ended k]) else none
  | .recvError k => -- on_recv_error, del_link, client.h:37, 111-115
    if s.phase k = .up then some ({ s with phase := nmSet s.phase k .gone, map := nmSet s.map (s.name k) none }, [.ended k]) else none

/-- Runs; the history has the latest event first. -/
inductive Nm.Run (p : Nm → NmAct → Bool) : List NmAct → Nm → List NmEv → Prop where
  | nil : Nm.Run p [] Nm.init []
  | snoc (s s' : Nm) (as : List NmAct) (a : NmAct) (es es' : List NmEv) : Nm.Run p as s es → p s a = true → s.step a = some (s', es') → Nm.Run p (as ++ [a]) s' (es' ++ es)

/-- No restriction. -/
def Nm.free (_ : Nm) (_ : NmAct) : Bool := true

/-- Connecting succeeds (unless the link is shut down), and a name is used again only when the links that had it are gone. -/
def Nm.patient (s : Nm) : NmAct → Bool
  | .connectFail k => s.map (s.name k) ≠ some k
  | .add n _ => (List.range s.next).all fun k => s.name k ≠ n || s.phase k = .gone || s.map n = some k
  | _ => true

end StAsio
