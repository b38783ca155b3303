/-!
Words for C107: heartbeats of UDP sockets over a network that loses datagrams. Times are in milliseconds from the beginning of the history.
-/
set_option autoImplicit false
namespace StAsio

inductive UbEv where
  /-- start() of the listener -/
  | up (t : Nat)
  /-- the listener received a datagram -/
  | got (t : Nat)
  /-- the listener called on_heartbeat_error: the peer is not available -/
  | warn (t : Nat)
  /-- the talker called send_heartbeat -/
  | beat (t : Nat)
  deriving DecidableEq, Repr

/-- One more event. -/
def heardAfter (r : Option Nat) : UbEv → Option Nat
  | .up t | .got t | .warn t => some t
  | .beat _ => r

/-- When the listener was started, heard something or reported the silence, whichever was last. -/
def heardAt (es : List UbEv) : Option Nat := es.foldl heardAfter none

/-- Bounds, in ms: the delay `J` of the call backs of timers, the delay `L` of datagrams that are not lost, the duration `W` of async_send, the time `S` until the talker is started; of `K` datagrams in a row one is not lost. -/
structure UbNet where
  J : Nat
  L : Nat
  W : Nat
  S : Nat
  K : Nat

/-- The longest time between two datagrams of a talker with this interval (in seconds). -/
def talkGap (n : UbNet) (interval : Nat) : Nat := 2 * (1000 * interval) + n.J + n.W

/-- The longest silence that a listener has to expect. -/
def longestSilence (n : UbNet) (interval : Nat) : Nat := n.S + n.K * talkGap n interval + n.L

end StAsio
