/-!
Stop-watches: how long messages wait, writes take, handlers run and receiving is halted, going by what happens and by the time between. Nothing here refers to the model. A time is what
the system clock shows, an integer; it may be set back.
-/
set_option autoImplicit false
namespace StAsio

/-- What happens on the way out. `out`: these messages are taken from the send buffer to be written; `look`: the sender has turned to the buffer. -/
inductive DlEv
  | tick (d : Int)
  | made (ids : List Nat)
  | look
  | out (ids : List Nat)
  | write
  | sent
  | failed
  deriving Repr, DecidableEq

/-- `t i`: how long message i has been waiting; `gap`: how long ago the sender turned to the buffer; `wt`: how long ago the last write began; `outs`: for every message taken, how long it had waited, and how
long ago the sender had turned to the buffer; `writes`: how long the successful writes took. -/
structure Watch where
  t : Nat → Int
  gap : Int
  wt : Int
  outs : List (Int × Int)
  writes : List Int

def Watch.init : Watch := ⟨fun _ => 0, 0, 0, [], []⟩

def Watch.ev (w : Watch) : DlEv → Watch
  | .tick d => ⟨fun i => w.t i + d, w.gap + d, w.wt + d, w.outs, w.writes⟩
  | .made ids => ⟨fun i => if i ∈ ids then 0 else w.t i, w.gap, w.wt, w.outs, w.writes⟩
  | .look => ⟨w.t, 0, w.wt, w.outs, w.writes⟩
  | .out ids => ⟨w.t, w.gap, w.wt, w.outs ++ ids.map (fun i => (w.t i, w.gap)), w.writes⟩
  | .write => ⟨w.t, w.gap, 0, w.outs, w.writes⟩
  | .sent => ⟨w.t, w.gap, w.wt, w.outs, w.writes ++ [w.wt]⟩
  | .failed => w

/-- The stop-watches after some events. -/
def watch (es : List DlEv) : Watch := es.foldl Watch.ev Watch.init

/-- How long every message that was taken had waited. -/
def waited (es : List DlEv) : List Int := (watch es).outs.map (·.1)

/-- How long every message that was taken had waited when the sender turned to the buffer. -/
def waitedLook (es : List DlEv) : List Int := (watch es).outs.map (fun p => p.1 - p.2)

/-- How long every successful write took. -/
def writeTimes (es : List DlEv) : List Int := (watch es).writes

/-- What happens on the way in. `enter`: the dispatcher has found messages; `call`: these are offered to the handler; `ret`: the handler returned; `back`: these were not taken and wait again. -/
inductive PlEv
  | tick (d : Int)
  | made (ids : List Nat)
  | enter
  | call (ids : List Nat)
  | ret
  | back (ids : List Nat)
  deriving Repr, DecidableEq

/-- `t i`: how long message i has been waiting since it was parsed or came back; `h`: how long ago the dispatcher found messages; `offers`: for every offer of a message, how long it had waited, and `h`;
`handles`: how long the calls took. -/
structure PWatch where
  t : Nat → Int
  h : Int
  offers : List (Int × Int)
  handles : List Int

def PWatch.init : PWatch := ⟨fun _ => 0, 0, [], []⟩

def PWatch.ev (w : PWatch) : PlEv → PWatch
  | .tick d => ⟨fun i => w.t i + d, w.h + d, w.offers, w.handles⟩
  | .made ids => ⟨fun i => if i ∈ ids then 0 else w.t i, w.h, w.offers, w.handles⟩
  | .enter => ⟨w.t, 0, w.offers, w.handles⟩
  | .call ids => ⟨w.t, w.h, w.offers ++ ids.map (fun i => (w.t i, w.h)), w.handles⟩
  | .ret => ⟨w.t, w.h, w.offers, w.handles ++ [w.h]⟩
  | .back ids => ⟨fun i => if i ∈ ids then 0 else w.t i, w.h, w.offers, w.handles⟩

def pwatch (es : List PlEv) : PWatch := es.foldl PWatch.ev PWatch.init

/-- How long the messages had waited when they were offered to the handler. -/
def offered (es : List PlEv) : List Int := (pwatch es).offers.map (·.1)

/-- How long the messages had waited when the dispatcher found them. -/
def offeredFound (es : List PlEv) : List Int := (pwatch es).offers.map (fun p => p.1 - p.2)

/-- How long the calls of the handler took. -/
def handleTimes (es : List PlEv) : List Int := (pwatch es).handles

/-- An event seen by someone who watches the calls of the handler: whether they were in turn so far (none has begun while another one was running, none has ended that had not begun), and whether one is running. -/
def callTurn (p : Bool × Bool) : PlEv → Bool × Bool
  | .enter => (p.1 && !p.2, true)
  | .ret => (p.1 && p.2, false)
  | _ => p

/-- Whether the calls of the handler were in turn, and whether one is running after these events. -/
def callsInTurn (es : List PlEv) : Bool × Bool := es.foldl callTurn (true, false)

/-- Halts of receiving. `halt`: receiving stops because the receive buffer is full; `go`: it is resumed; `close`, `up`: the link breaks or is established. -/
inductive IlEv
  | tick (d : Int)
  | halt
  | go
  | close
  | up
  deriving Repr, DecidableEq

/-- `run`: the time since the halt, if receiving on this link is halted; `idles`: the halts that ended with the link up. -/
structure IWatch where
  run : Option Int
  idles : List Int

def IWatch.ev (w : IWatch) : IlEv → IWatch
  | .tick d => ⟨w.run.map (· + d), w.idles⟩
  | .halt => ⟨some 0, w.idles⟩
  | .go => match w.run with
    | some t => ⟨none, w.idles ++ [t]⟩
    | none => w
  | .close => ⟨none, w.idles⟩
  | .up => w

def iwatch (es : List IlEv) : IWatch := es.foldl IWatch.ev ⟨none, []⟩

end StAsio
