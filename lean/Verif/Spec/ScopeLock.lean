/-!
What a scoped lock promises to those who use it, and what start() and close() promise to those who call them. Nothing here refers to the model.
-/
set_option autoImplicit false
namespace StAsio

/-- What the users of lock objects (numbered) see: `locks i ok`: lock() (or the constructor) of object `i` returned, and locked() is `ok`; `unlocks i`: somebody calls unlock() of object `i`, or destroys it. -/
inductive LkEv where
  | locks (i : Nat) (ok : Bool)
  | unlocks (i : Nat)
  deriving DecidableEq, Repr

/-- Who has the lock, going by what was seen: the last one whose lock() succeeded, until its unlock() is called. -/
def lkHolder (es : List LkEv) : Option Nat :=
  es.foldl (fun h ev => match ev with
    | .locks i true => some i
    | .locks _ false => h
    | .unlocks i => if h = some i then none else h) none

/-- Mutual exclusion: lock() succeeds only if nobody else has the lock, and fails only for one who does not have it. -/
def LkExclusive (es : List LkEv) : Prop :=
  ∀ fs ev gs, es = fs ++ ev :: gs → match ev with
    | .locks i true => lkHolder fs = none ∨ lkHolder fs = some i
    | .locks i false => lkHolder fs ≠ some i
    | .unlocks _ => True

/-- What is seen of start() and close(), called by numbered threads: `starting i`: do_start() begins; `up i ok`: it is over, successful or not; `closing i`: thread `i` found the socket started and closes it; `closed i`: that is over;
`found i`: close() found the socket not started; `startRet i`, `closeRet i b`: the call returned. -/
inductive ScEv where
  | starting (i : Nat)
  | up (i : Nat) (ok : Bool)
  | closing (i : Nat)
  | closed (i : Nat)
  | found (i : Nat)
  | startRet (i : Nat)
  | closeRet (i : Nat) (b : Bool)
  deriving DecidableEq, Repr

/-- What the socket is, as seen from outside: not started, being started by a thread, started, being closed by a thread. -/
inductive ScState where
  | off
  | turningOn (i : Nat)
  | on
  | turningOff (i : Nat)
  deriving DecidableEq, Repr

/-- How an ideal socket changes: starting and closing exclude each other, a socket that is not started can only be started, one that is started can only be closed. -/
inductive ScNext : ScState → ScEv → ScState → Prop where
  | starting (i : Nat) : ScNext .off (.starting i) (.turningOn i)
  | up (i : Nat) (ok : Bool) : ScNext (.turningOn i) (.up i ok) (if ok then .on else .off)
  | closing (i : Nat) : ScNext .on (.closing i) (.turningOff i)
  | closed (i : Nat) : ScNext (.turningOff i) (.closed i) .off
  | found (i : Nat) : ScNext .off (.found i) .off
  | startRet (t : ScState) (i : Nat) : ScNext t (.startRet i) t
  | closeRet (t : ScState) (i : Nat) (b : Bool) : ScNext t (.closeRet i b) t

/-- A history of an ideal socket that was off. -/
inductive ScHistory : List ScEv → ScState → Prop where
  | nil : ScHistory [] .off
  | snoc (es : List ScEv) (t t' : ScState) (ev : ScEv) : ScHistory es t → ScNext t ev t' → ScHistory (es ++ [ev]) t'

/-- Successful starts, calls of close() by thread `i` that closed, calls by it that returned true. -/
def scUps (es : List ScEv) : Nat := (es.filter (fun ev => match ev with | .up _ ok => ok | _ => false)).length
def scClosings (es : List ScEv) : Nat := (es.filter (fun ev => match ev with | .closing _ => true | _ => false)).length
def scTrue (es : List ScEv) : Nat := (es.filter (fun ev => match ev with | .closeRet _ b => b | _ => false)).length

end StAsio
