/-!
# What can be seen of a reconnecting client

Lists of events only; no reference to the code.
-/

set_option autoImplicit false

namespace StAsio

inductive CliEv
  | started            -- the client starts: connecting to the server is scheduled
  | asked (n : Int)    -- prepare_reconnect answered n
  | attempt (ms : Nat) -- the client begins to connect, ms milliseconds after this was scheduled
  | connected          -- the attempt succeeded
  | failed             -- the attempt failed
  | lost               -- the connection broke
  | closed             -- on_close
  deriving Repr, DecidableEq

/-- Where a well-behaved client stands. -/
inductive CliSt
  | idle
  | ready (ms : Nat)  -- an attempt has been granted, to be made after ms milliseconds
  | trying
  | refused           -- the attempt failed, nothing granted yet
  | up
  deriving Repr, DecidableEq

/-- The ideal policy: an attempt is made only if granted, by a start (after 50 ms) or by an answer of prepare_reconnect that is not negative (after this time), one attempt per grant, never while connected or connecting; on_close comes only while neither connected nor
connecting. -/
def cliNext : CliSt → CliEv → Option CliSt
  | .idle, .started => some (.ready 50)
  | .refused, .asked n => some (if n < 0 then .idle else .ready n.toNat)
  | .ready ms, .attempt m => if m = ms then some .trying else none
  | .trying, .connected => some .up
  | .trying, .failed => some .refused
  | .up, .lost => some .idle
  | .idle, .closed => some .idle
  | .ready _, .closed => some .idle
  | .refused, .closed => some .idle
  | _, _ => none

/-- The policy over a history. -/
def cliPolicy : CliSt → List CliEv → Option CliSt
  | c, [] => some c
  | c, e :: es => match cliNext c e with | some c' => cliPolicy c' es | none => none

/-- Number of attempts. -/
def attempts : List CliEv → Nat
  | [] => 0
  | .attempt _ :: es => attempts es + 1
  | _ :: es => attempts es

end StAsio
