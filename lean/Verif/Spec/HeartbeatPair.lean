import Verif.Model.HeartbeatPair
/-!
What C100 says about a link with heartbeats at both ends, read off the history of the link.
-/
set_option autoImplicit false
namespace StAsio

/-- Milliseconds since the end `e` last received something (or was started); `none`: not started yet. -/
def heardAgo (e : KSide) (as : List KlAct) : Option Nat :=
  as.foldl (fun (x : Option Nat) a => match a with
    | .pass d => x.map (· + d)
    | .start e' _ => if e' = e then some 0 else x
    | .recv e' => if e' = e then some 0 else x
    | _ => x) none

/-- The network works up to the end of the history. -/
def NetworkWorks (as : List KlAct) : Prop := KlAct.cut ∉ as

/-- Usable settings of an end: TCP, positive, and the product fits into int. -/
structure KSettings (c : HbCfg) : Prop where
  tcp : c.kind = .tcp
  interval : 0 < c.interval
  absence : 0 < c.maxAbsence
  fits : c.interval * c.maxAbsence < 2 ^ 31

/-- The longest time (ms) between the beginnings of two writes of an end that sends heartbeats: an interval with ST_ASIO_ALWAYS_SEND_HEARTBEAT, else two (a message sent right after a check makes the next check pass without a
heartbeat), and the delays. -/
def longestGap (c : HbCfg) (k : KTime) : Nat := (if c.always then 1 else 2) * (1000 * c.interval) + k.J + max k.W k.L

/-- The end tolerates the silence of its peer: interval * max_absence seconds are (by a second, because full seconds are counted) more than the peer's longest gap and the delay of the network. -/
def Tolerant (me peer : HbCfg) (k : KTime) : Prop := longestGap peer k + k.L + 1000 ≤ 1000 * (me.interval * me.maxAbsence)

end StAsio
