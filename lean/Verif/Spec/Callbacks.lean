import Verif.Model.Callbacks
/-!
Which registration is in force.
-/
set_option autoImplicit false
namespace StAsio

/-- The last registration for `e` in a history: the function (if not empty) and pass_on. -/
def lastRegistration (e : CbEv) : List CbAct → Option (Option Nat × Bool)
  | [] => none
  | a :: as => match lastRegistration e as with
    | some r => some r
    | none => match a with
      | .register e' cb passOn => if e' = e then some (cb, passOn) else none
      | .fire _ _ => none

/-- No function of the user changes the registrations for `e` while it runs. -/
def CbEnv.Steady (env : CbEnv) (e : CbEv) : Prop := ∀ id, ∀ r ∈ env.regs id, r.1 ≠ e

end StAsio
