import Verif.Model.Accept
/-!
A server that creates its sockets in advance, as include/config.h:1201-1214 suggests and concurrent_server/concurrent_server.cpp:64-80 does: start_next_accept is overridden so that it goes on accepting only if all but ten of the
`num` (ST_ASIO_ASYNC_ACCEPT_NUM) connections have been established.

The accept loop is `Model/Accept`; only what start_next_accept does is different. `bySize` true: the test looks at size(), the number of links in the object pool (concurrent_server.cpp:74); false: at the number of connections accepted
so far (config.h:1206, on_accept counts them).
Simplifications: no accept fails (see C47), create_object succeeds, on_accept returns true (concurrent_server.cpp:70); listening starts once and is not stopped.
-/
set_option autoImplicit false
namespace StAsio

structure Pre where
  acc : Acc
  /-- connections accepted so far -/
  count : Nat
  deriving DecidableEq, Repr

/-- Before start_listen, tcp/server.h:24. -/
def Pre.init : Pre := { acc := Acc.init, count := 0 }

inductive PreAct where
  /-- start_listen -/
  | start
  /-- a client connects -/
  | connect
  /-- accept_handler up to start_next_accept; idOk: add_object finds no conflict -/
  | handle (idOk : Bool)
  /-- start_next_accept -/
  | next
  /-- a link leaves the object pool -/
  | leave
  deriving DecidableEq, Repr

/-- What the test in start_next_accept looks at: size(), or the number of connections accepted (concurrent_server.cpp:74, config.h:1206). -/
def Pre.seen (bySize : Bool) (s : Pre) : Nat := if bySize then s.acc.size else s.count

/-- One step; the parts of accept_handler are those of `Acc.step`, start_next_accept is concurrent_server.cpp:71-79. -/
def Pre.step (bySize : Bool) (num max : Nat) (s : Pre) : PreAct → Option (List AccEv × Pre)
  | .start => if s.acc = Acc.init ∧ s.count = 0 then (s.acc.step num max (.startListenQuiet true)).map fun r => (r.1, { s with acc := r.2 }) else none
  | .connect => (s.acc.step num max .connect).map fun r => (r.1, { s with acc := r.2 })
  | .handle idOk => (s.acc.step num max (.handleOk true idOk)).map fun r => (r.1, { acc := r.2, count := s.count + 1 })
  | .next =>
    if num ≤ s.seen bySize + 10 then (s.acc.step num max .next).map fun r => (r.1, { s with acc := r.2 })
    else (s.acc.step num max .nextFails).map fun r => (r.1, { s with acc := r.2 })
  | .leave => (s.acc.step num max .leave).map fun r => (r.1, { s with acc := r.2 })

/-- Runs whose steps all meet p. -/
inductive Pre.Run (bySize : Bool) (num max : Nat) (p : Pre → PreAct → Bool) : Pre → List PreAct → List AccEv → Pre → Prop
  | nil (s : Pre) : Pre.Run bySize num max p s [] [] s
  | snoc (s s1 s2 : Pre) (as : List PreAct) (a : PreAct) (es fs : List AccEv) : Pre.Run bySize num max p s as es s1 → p s1 a = true → s1.step bySize num max a = some (fs, s2) → Pre.Run bySize num max p s (as ++ [a]) (es ++ fs) s2

/-- Executes a list of steps that all meet p. -/
def Pre.exec (bySize : Bool) (num max : Nat) (p : Pre → PreAct → Bool) (s : Pre) : List PreAct → Option (List AccEv × Pre)
  | [] => some ([], s)
  | a :: as => if p s a then (s.step bySize num max a).bind fun r => (Pre.exec bySize num max p r.2 as).map fun q => (r.1 ++ q.1, q.2) else none

/-- No restriction. -/
def Pre.free (_ : Pre) (_ : PreAct) : Bool := true

/-- One handler at a time. -/
def Pre.single (s : Pre) : PreAct → Bool
  | .handle _ => s.acc.going = 0
  | _ => true

/-- No link ever leaves, every connection finds its place in the object pool. -/
def Pre.steady (max : Nat) (s : Pre) : PreAct → Bool
  | .handle idOk => idOk && decide (s.acc.size < max)
  | .leave => false
  | _ => true

end StAsio
