import Verif.Model.Shutdown
/-!
The moves of the link status a user relies on.
-/
set_option autoImplicit false
namespace StAsio

/-- The link status may stay, or move along connected -> (gracefully shutting down ->) force shutting down -> broken -> connected. -/
def Link.Moves (a b : Link) : Prop :=
  a = b ∨ (a = .broken ∧ b = .connected) ∨ (a = .connected ∧ b = .gracefulDown) ∨ (a = .connected ∧ b = .forceDown) ∨ (a = .gracefulDown ∧ b = .forceDown) ∨ (a = .forceDown ∧ b = .broken)

instance : DecidableRel Link.Moves := fun a b => by unfold Link.Moves; infer_instance

/-- Timer ticks among the actions. -/
def ticks (as : List LkAct) : Nat := as.countP (· == .tick)

end StAsio
