/-!
Words for C106: what KCP is told about time, and when it asked to be told again. Times are in microseconds, counted from 1970 as gettimeofday does.
-/
set_option autoImplicit false
namespace StAsio

inductive KuEv where
  /-- ikcp_check was called at this time: KCP wants to be updated in so many milliseconds -/
  | ask (t ms : Nat)
  /-- ikcp_update was called at this time by the update timer, and was told this clock value -/
  | timed (t clk : Nat)
  /-- ikcp_update was called at this time after a message was sent or a datagram came in, and was told this clock value -/
  | extra (t clk : Nat)
  /-- the call back of the timer began -/
  | began (t : Nat)
  /-- create_kcpcb succeeded -/
  | created
  /-- start() succeeded -/
  | started
  /-- close() succeeded -/
  | closed
  /-- on_close returned -/
  | onClosed
  /-- a KCP control block is released while another thread works with it -/
  | misuse
  /-- integer division by zero -/
  | crash
  deriving DecidableEq, Repr

/-- One more event. -/
def askAfter (r : Option (Nat × Nat)) : KuEv → Option (Nat × Nat)
  | .ask t ms => some (t, ms)
  | _ => r

/-- What KCP asked for last: when it was asked, and how many milliseconds it can wait. -/
def lastAsk (es : List KuEv) : Option (Nat × Nat) := es.foldl askAfter none

/-- One more event. -/
def awaitAfter (r : Bool) : KuEv → Bool
  | .closed => true
  | .onClosed => false
  | _ => r

/-- close() was called, on_close was not yet. -/
def awaitingOnClose (es : List KuEv) : Bool := es.foldl awaitAfter false

/-- One more event. -/
def wantAfter (r : Bool) : KuEv → Bool
  | .created => true
  | .closed => false
  | _ => r

/-- A KCP control block was asked for since the last close(): the program relies on KCP. -/
def wantsKcp (es : List KuEv) : Bool := es.foldl wantAfter false

/-- One more event. -/
def openAfter (r : Bool) : KuEv → Bool
  | .started => true
  | .closed => false
  | _ => r

/-- start() was called, close() was not yet. -/
def isOpen (es : List KuEv) : Bool := es.foldl openAfter false

/-- The program waits for on_close before it asks for the next KCP control block. -/
def Orderly (es : List KuEv) : Prop := ∀ pre post, es = pre ++ .created :: post → awaitingOnClose pre = false

/-- The updates: time and clock value. -/
def updatesOf (es : List KuEv) : List (Nat × Nat) := es.filterMap fun | .timed t c => some (t, c) | .extra t c => some (t, c) | _ => none

/-- How KCP measures time (itimediff of ikcp.c, for differences below 2^31): subtraction of 32-bit clock values. -/
def clockDiff (later earlier : Nat) : Nat := (later + 2 ^ 32 - earlier) % 2 ^ 32

/-- KCP never asks for a wait of 2^32 ms (7 weeks) or more (it never asks for more than its interval, which is at most 5 seconds). -/
def AsksFit (es : List KuEv) : Prop := ∀ t ms, KuEv.ask t ms ∈ es → ms < 2 ^ 32

end StAsio
