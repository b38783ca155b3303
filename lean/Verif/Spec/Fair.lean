/-!
Infinite executions and fairness, for properties of the kind "it happens eventually, whatever else goes on for ever".
-/
set_option autoImplicit false
namespace StAsio

/-- Infinitely often. -/
def Often (p : Nat → Prop) : Prop := ∀ n, ∃ m, n ≤ m ∧ p m

/-- An infinite execution with states `s`, actions `a` (`none`: nothing happens at this moment) and events so far `e`, from `s 0` on. -/
structure Exec {State Action Event : Type} (step : State → Action → Option (State × List Event)) (s : Nat → State) (a : Nat → Option Action) (e : Nat → List Event) : Prop where
  start : e 0 = []
  idle : ∀ n, a n = none → s (n + 1) = s n ∧ e (n + 1) = e n
  next : ∀ n x, a n = some x → ∃ es, step (s n) x = some (s (n + 1), es) ∧ e (n + 1) = e n ++ es

/-- Actions of class `c` are not put off for ever: if one of them is possible infinitely often, then one of them is taken infinitely often. -/
def Fair {State Action Event : Type} (step : State → Action → Option (State × List Event)) (s : Nat → State) (a : Nat → Option Action) (c : Action → Bool) : Prop :=
  Often (fun n => ∃ x, c x = true ∧ (step (s n) x).isSome = true) → Often (fun n => ∃ x, c x = true ∧ a n = some x)

end StAsio
