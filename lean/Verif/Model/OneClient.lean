import Verif.Model.Accept
/-!
# A server that stops listening in on_accept (echo_server/echo_server.cpp:191-192, 288-291; include/tcp/server.h)

"Accept just one client": async_accept_num gives a number and on_accept calls stop_listen. The accept loop is that of Model/Accept.lean, but accept_handler takes two steps,
because is_listening() is read without the mutex some time after stop_listen.
-/
set_option autoImplicit false
namespace StAsio

/-- The server; `checking`: handlers (accept_handler, tcp/server.h:251-263) between on_accept and is_listening() in line 258. -/
structure One where
  acc : Acc
  checking : Nat
  deriving Repr, DecidableEq

/-- Constructor, tcp/server.h:24. -/
def One.init : One := ⟨Acc.init, 0⟩

/-- `base`: the steps of the accept loop other than accept_handler without error. -/
inductive OneAct
  | base (a : AccAct)
  | accepted (idOk : Bool)     -- accept_handler without error up to line 256; whether add_object takes the id
  | check                      -- accept_handler, lines 258-259
  deriving Repr, DecidableEq

/-- One step. on_accept_handler, echo_server.cpp:192, calls stop_listen and returns true, then add_socket (tcp/server.h:228-241) is called; these are one step here, the handlers of other clients may come
before or after it. on_accept_error is not overridden. -/
def One.step (num max : Nat) (s : One) : OneAct → Option (List AccEv × One)
  | .base (.handleOk _ _) => none
  | .base .userNext => none
  | .base (.handleErr ab ans) =>
    if ans = .default then (s.acc.step num max (.handleErr ab ans)).map (fun r => (r.1, ⟨r.2, s.checking⟩)) else none
  | .base (.startListenQuiet b) =>
    if s.checking = 0 ∨ s.acc.listening = true then (s.acc.step num max (.startListenQuiet b)).map (fun r => (r.1, ⟨r.2, s.checking⟩)) else none
  | .base a => (s.acc.step num max a).map (fun r => (r.1, ⟨r.2, s.checking⟩))
  | .accepted idOk =>
    if 0 < s.acc.succ then
      let a := { s.acc.stop with succ := s.acc.succ - 1 }
      if idOk = true ∧ s.acc.size < max then some ([.got, .stop, .added], ⟨{ a with size := s.acc.size + 1 }, s.checking + 1⟩)
      else some ([.got, .stop, .refused], ⟨a, s.checking + 1⟩)
    else none
  | .check =>
    if 0 < s.checking then some ([], ⟨{ s.acc with going := s.acc.going + (if s.acc.listening then 1 else 0) }, s.checking - 1⟩) else none

/-- Runs of the server. -/
inductive One.Run (num max : Nat) : One → List OneAct → List AccEv → One → Prop
  | nil (s : One) : One.Run num max s [] [] s
  | snoc (s s1 s2 : One) (as : List OneAct) (a : OneAct) (es fs : List AccEv) : One.Run num max s as es s1 → s1.step num max a = some (fs, s2) → One.Run num max s (as ++ [a]) (es ++ fs) s2

/-- Executes a list of steps. -/
def One.exec (num max : Nat) (s : One) : List OneAct → Option (List AccEv × One)
  | [] => some ([], s)
  | a :: as => (s.step num max a).bind (fun r => (One.exec num max r.2 as).map (fun q => (r.1 ++ q.1, q.2)))

/-- Listening is started only when no accept and no handler of an earlier listening is left, as init() of the service does it (service_pump.h: stop_service has joined all threads), and succeeds. -/
def OneAct.quiet : OneAct → Bool
  | .base (.startListen _ _ _) => false
  | _ => true

end StAsio
