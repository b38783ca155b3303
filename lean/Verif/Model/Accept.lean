import Verif.Spec.Accept

/-!
# The accept loop of the TCP server (include/tcp/server.h)

The critical sections of `mutex` and the part of a handler outside of it are atomic steps. The acceptor: close completes the accepts under way with operation_aborted (those already completed keep their result), an accept on a closed acceptor completes with bad_descriptor. The pool is its size and its limit (see Model/ObjectPool); add_object may also fail because of an id conflict. Preparing options and `bind` and `listen` are oracles.
-/

set_option autoImplicit false

namespace StAsio

/-- Members of generic_server, tcp/server.h:268-273, the accepts and handlers. -/
structure Acc where
  listening : Bool
  isOpen : Bool      -- the acceptor is open
  waiting : Nat      -- accepts under way
  succ : Nat         -- succeeded, handler not begun
  failed : Nat       -- failed (not aborted), handler not begun
  aborted : Nat      -- aborted, handler not begun
  going : Nat        -- handlers on their way to start_next_accept
  owed : Nat         -- failures for which on_accept_error returned false and will call start_next_accept later
  size : Nat         -- sockets in the pool
  deriving Repr, DecidableEq

/-- Constructor, tcp/server.h:24. -/
def Acc.init : Acc := ⟨false, false, 0, 0, 0, 0, 0, 0, 0⟩

/-- What on_accept_error does, tcp/server.h:209-222. -/
inductive AccAnswer
  | default     -- not overridden
  | go          -- returns true
  | later       -- returns false, start_next_accept will be called
  deriving Repr, DecidableEq

inductive AccAct
  | startListen (bindOk listenOk : Bool) (created : Nat)    -- created: how many sockets create_object gives
  | startListenQuiet (bindOk : Bool)                        -- the same when nothing of an earlier listening is left, listen and create_object succeed
  | stopListen
  | connect                                                 -- a client connects
  | fail                                                    -- an accept fails
  | handleOk (onAccept idOk : Bool)                         -- accept_handler without error
  | handleErr (aborted : Bool) (answer : AccAnswer)         -- accept_handler with error
  | next                                                    -- start_next_accept of a handler
  | nextFails                                               -- the same, create_object returns null
  | userNext                                                -- start_next_accept of the user
  | leave                                                   -- a socket leaves the pool
  deriving Repr, DecidableEq

/-- stop_listen, tcp/server.h:127. -/
def Acc.stop (s : Acc) : Acc := { s with listening := false, isOpen := false, waiting := 0, aborted := s.aborted + s.waiting }

/-- do_async_accept of a socket, tcp/server.h:265-266. -/
def Acc.accept (s : Acc) : List AccEv × Acc :=
  ([.issue s.isOpen], if s.isOpen then { s with waiting := s.waiting + 1 } else { s with failed := s.failed + 1 })

/-- start_listen, tcp/server.h:81-125; `num` is what async_accept_num gives. After a failed listen, `listening` stays true. -/
def Acc.startListen (num : Nat) (s : Acc) (bindOk listenOk : Bool) (created : Nat) : List AccEv × Acc :=
  if s.listening then ([], s)
  else if bindOk = false then ([], { s with isOpen := true })
  else if listenOk = false then ([], { s with isOpen := true, listening := true })
  else
    let k := min created (if num = 0 then 16 else num)
    (.listen :: List.replicate k (.issue true), { s with isOpen := true, listening := true, waiting := s.waiting + k })

/-- One step; `num` is async_accept_num(), `max` is max_size(). -/
def Acc.step (num max : Nat) (s : Acc) : AccAct → Option (List AccEv × Acc)
  | .startListen b l c => some (s.startListen num b l c)
  | .startListenQuiet b =>
    if s.waiting + s.succ + s.failed + s.aborted + s.going + s.owed = 0 ∨ s.listening = true then some (s.startListen num b true (if num = 0 then 16 else num)) else none
  | .stopListen => some ([.stop], s.stop)
  | .connect => if s.isOpen = true ∧ 0 < s.waiting then some ([], { s with waiting := s.waiting - 1, succ := s.succ + 1 }) else none
  | .fail => if 0 < s.waiting then some ([], { s with waiting := s.waiting - 1, failed := s.failed + 1 }) else none
  -- accept_handler, tcp/server.h:253-260, add_socket, 228-241
  | .handleOk onAccept idOk =>
    if 0 < s.succ then
      let s1 := { s with succ := s.succ - 1, going := s.going + (if s.listening then 1 else 0) }
      if onAccept = false then some ([.got, .rejected], s1)
      else if idOk = true ∧ s.size < max then some ([.got, .added], { s1 with size := s.size + 1 })
      else some ([.got, .refused], s1)
    else none
  -- accept_handler, tcp/server.h:261-262, on_accept_error, 213-222
  | .handleErr ab ans =>
    if (ab = true ∧ 0 < s.aborted) ∨ (ab = false ∧ 0 < s.failed) then
      let s1 := if ab then { s with aborted := s.aborted - 1 } else { s with failed := s.failed - 1 }
      match ans with
      | .default => if ab then some ([.gotErr true], s1) else some ([.gotErr false, .stop], s1.stop)
      | .go => some ([.gotErr ab], { s1 with going := s1.going + 1 })
      | .later => some ([.gotErr ab], { s1 with owed := s1.owed + 1 })
    else none
  -- start_next_accept, tcp/server.h:206
  | .next => if 0 < s.going then some (Acc.accept { s with going := s.going - 1 }) else none
  | .nextFails => if 0 < s.going then some ([], { s with going := s.going - 1 }) else none
  | .userNext => if 0 < s.owed then some (Acc.accept { s with owed := s.owed - 1 }) else none
  | .leave => if 0 < s.size then some ([.left], { s with size := s.size - 1 }) else none

/-- Runs of the accept loop. -/
inductive Acc.Run (num max : Nat) : Acc → List AccAct → List AccEv → Acc → Prop
  | nil (s : Acc) : Acc.Run num max s [] [] s
  | snoc (s s1 s2 : Acc) (as : List AccAct) (a : AccAct) (es fs : List AccEv) : Acc.Run num max s as es s1 → s1.step num max a = some (fs, s2) → Acc.Run num max s (as ++ [a]) (es ++ fs) s2

/-- Executes a list of steps. -/
def Acc.exec (num max : Nat) (s : Acc) : List AccAct → Option (List AccEv × Acc)
  | [] => some ([], s)
  | a :: as => (s.step num max a).bind (fun r => (Acc.exec num max r.2 as).map (fun q => (r.1 ++ q.1, q.2)))

/-- Sockets can be created, listen succeeds, and listening starts only when no handler of an earlier listening is left. -/
def AccAct.smooth : AccAct → Bool
  | .startListen _ _ _ => false
  | .nextFails => false
  | _ => true

/-- Neither the user nor on_accept_error asks for a new accept. -/
def AccAct.idle : AccAct → Bool
  | .startListen _ _ _ => false
  | .startListenQuiet _ => false
  | .userNext => false
  | .handleErr _ .go => false
  | _ => true

end StAsio
