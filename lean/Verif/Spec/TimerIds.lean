import Verif.Model.TimerIds
/-!
What it means that timers do not disturb each other.
-/
set_option autoImplicit false
namespace StAsio

/-- Does an operation concern timers with p? stop_all_timer concerns all. -/
def TOp.concerns (p : Nat → Bool) : TOp → Bool
  | .createOrUpdate id _ _ _ | .start id | .stop id | .cancelStatus id | .changeInterval id _ | .changeCallBack id _ => p id
  | .stopAll | .stopAllBut _ => true

/-- `TOwn p as bs`: `bs` is what is left of `as` if there are no timers but those with p. A call back of another timer is left as the operations it did on timers with p (if it was invoked). -/
inductive TOwn (p : Nat → Bool) : List TAct → List TAct → Prop
  | nil : TOwn p [] []
  | op {as bs : List TAct} (o : TOp) : TOwn p as bs → o.concerns p = true → TOwn p (as ++ [.op o]) (bs ++ [.op o])
  | otherOp {as bs : List TAct} (o : TOp) : TOwn p as bs → o.concerns p = false → TOwn p (as ++ [.op o]) bs
  | expire {as bs : List TAct} (id : Nat) : TOwn p as bs → p id = true → TOwn p (as ++ [.expire id]) (bs ++ [.expire id])
  | otherExpire {as bs : List TAct} (id : Nat) : TOwn p as bs → p id = false → TOwn p (as ++ [.expire id]) bs
  | run {as bs : List TAct} (id i : Nat) (script : List TOp) (ret : Bool) : TOwn p as bs → p id = true → TOwn p (as ++ [.run id i script ret]) (bs ++ [.run id i (script.filter (TOp.concerns p)) ret])
  | otherRun {as bs : List TAct} (id i : Nat) (script : List TOp) (ret : Bool) : TOwn p as bs → p id = false →
      TOwn p (as ++ [.run id i script ret]) (bs ++ (script.filter (TOp.concerns p)).map .op)
  | otherAborted {as bs : List TAct} (id i : Nat) (script : List TOp) (ret : Bool) : TOwn p as bs → p id = false → TOwn p (as ++ [.run id i script ret]) bs

/-- Does an action concern timers with p? -/
def TAct.concerns (p : Nat → Bool) : TAct → Bool
  | .op o => o.concerns p
  | .expire id | .run id _ _ _ => p id

/-- The invocations of call backs of timers with p. -/
def firedOf (p : Nat → Bool) (es : List TEv) : List TEv := es.filter fun e => match e with | .fired id _ _ => p id | .bad => false

/-- Is the timer running? is_timer, timer.h:143 -/
def runningOf (p : Nat → Bool) (l : Tms) : List Nat := (l.filter fun t => p t.id && t.status == .started).map Tm.id

end StAsio
