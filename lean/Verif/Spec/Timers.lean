import Verif.Model.Timer
/-!
Vocabulary for the timer properties.
-/
set_option autoImplicit false
namespace StAsio

/-- is_timer(id) -/
def Tms.isTimer (l : Tms) (id : Nat) : Prop := ∃ t ∈ l.find id, t.status = .started

/-- The operation starts timer `id`. -/
def TOp.Starts (id : Nat) : TOp → Prop
  | .createOrUpdate j _ _ true => j = id
  | .start j => j = id
  | _ => False

/-- The operation stops timer `id`. -/
def TOp.Stops (id : Nat) : TOp → Prop
  | .stop j => j = id
  | .stopAll => True
  | .stopAllBut j => j ≠ id
  | .cancelStatus j => j = id
  | _ => False

/-- The action starts timer `id`, other than by a call back returning true. -/
def TAct.Starts (id : Nat) : TAct → Prop
  | .op o => o.Starts id
  | .expire _ => False
  | .run _ _ script _ => ∃ o ∈ script, o.Starts id

instance (id : Nat) : DecidablePred (TOp.Starts id) := fun o => by
  cases o <;> simp only [TOp.Starts] <;> try infer_instance
  rename_i s; cases s <;> simp only [TOp.Starts] <;> infer_instance
instance (id : Nat) : DecidablePred (TOp.Stops id) := fun o => by cases o <;> simp only [TOp.Stops] <;> infer_instance
instance (id : Nat) : DecidablePred (TAct.Starts id) := fun o => by cases o <;> simp only [TAct.Starts] <;> infer_instance

/-- Number of starts of timer `id` in a call back. -/
def startsIn (id : Nat) (script : List TOp) : Nat := (script.filter (fun o => decide (o.Starts id))).length

/-- An expiry of timer `id` is queued: its handler will run, although it may have been stopped or restarted meanwhile. -/
def Tms.expiryQueued (l : Tms) (id : Nat) : Prop := ∃ t ∈ l.find id, ∃ w ∈ t.queue, w.ok = true

/-- The schedules of timer `id` for which its call back was invoked, in order. -/
def firedGens (id : Nat) : List TEv → List Nat
  | [] => []
  | .fired j g _ :: es => if j = id then g :: firedGens id es else firedGens id es
  | _ :: es => firedGens id es

end StAsio
