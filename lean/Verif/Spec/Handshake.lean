import Verif.Model.Handshake
/-!
What "after the handshake succeeded" means on the events an observer sees.
-/
set_option autoImplicit false
namespace StAsio

/-- The first `n` handshakes of a new connection succeeded. -/
def handshakesOk (n : Nat) : List HkEv := .tcpUp :: (List.range n).map (fun i => .handshake i true)

/-- The last thing that happened is: a new connection and the success of its first `n` handshakes. -/
def JustAfter (n : Nat) (es : List HkEv) : Prop := ∃ pre, es = pre ++ handshakesOk n

/-- The link is established: the last things that happened are a new connection, the success of all its `L` handshakes, on_connect, and after that only sending. -/
def Established (L : Nat) (es : List HkEv) : Prop := ∃ pre k, es = pre ++ handshakesOk L ++ .onConnect :: List.replicate k .handOff

/-- What happened to the link, leaving out the sending. -/
def linkEvents (es : List HkEv) : List HkEv := es.filter (· != .handOff)

/-- `b`: a handshake of the current attempt failed; a new attempt begins with start() and with a new connection. -/
def attemptStep (b : Bool) : HkEv → Bool
  | .start | .tcpUp => false
  | .handshake _ false => true
  | _ => b

/-- A handshake failed since the last start() or the last new connection. -/
def attemptFailed (es : List HkEv) : Bool := es.foldl attemptStep false

end StAsio
