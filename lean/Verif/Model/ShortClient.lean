import Verif.Model.Reconnect
import Verif.Model.Delay
import Verif.Spec.ShortClient
/-!
# Short clients (client/client.cpp:52-79)

send_msg adds a link with add_socket, which starts it, and then registers a callback for on_connect that switches reconnecting off. The link is that of Model/Reconnect.lean; the thread that calls send_msg and the service's
threads run side by side.
-/
set_option autoImplicit false
namespace StAsio

/-- Where send_msg is: before add_socket (client.cpp:63), after it, inside register_on_connect (68; ext/callbacks.h:32-34 writes the function and the flag), after it. -/
inductive ShPc
  | adding
  | added
  | registering
  | registered
  deriving Repr, DecidableEq

/-- The link and the thread. -/
structure Sh where
  cli : Cli
  pc : ShPc
  deriving Repr, DecidableEq

/-- A link that was just created; ST_ASIO_RECONNECT is true unless defined otherwise (client_socket.h:120). -/
def Sh.init : Sh := ⟨Cli.init true, .adding⟩

/-- `add bind`: add_socket starts the link; `base`: steps of the link. -/
inductive ShAct
  | add (bind : Bool)
  | regBegin
  | regEnd
  | base (a : CliAct)
  deriving Repr, DecidableEq

/-- One step. on_connect is called by do_start in connect_handler (client_socket.h:131-134, tcp/socket.h); with the callback in place it calls set_reconnect(false) in the same step. -/
def Sh.step (s : Sh) : ShAct → Option (Sh × List ShEv)
  | .add bind => if s.pc = .adding then some (⟨(s.cli.start bind).1, .added⟩, (s.cli.start bind).2.map .cli) else none
  | .regBegin => if s.pc = .added then some (⟨s.cli, .registering⟩, []) else none
  | .regEnd => if s.pc = .registering then some (⟨s.cli, .registered⟩, [.registered]) else none
  | .base (.connectDone true) => match s.cli.step (.connectDone true) with
    | none => none
    | some (c, es) => some (⟨{ c with need := if s.pc = .registered then false else c.need }, s.pc⟩, (if s.pc = .registering then [.race] else []) ++ es.map .cli)
  | .base a => if a.noAsk = true then (s.cli.step a).map (fun r => (⟨r.1, s.pc⟩, r.2.map .cli)) else none

end StAsio
