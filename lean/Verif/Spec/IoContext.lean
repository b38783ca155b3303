import Verif.Model.IoContext
/-!
What the numbers of references should be.
-/
set_option autoImplicit false
namespace StAsio

/-- References taken minus references given back. -/
def refBalance (es : List IoEv) (i : Nat) : Int :=
  (es.map (fun e => match e with
    | .assigned k n => if k = i then (n : Int) else 0
    | .returned k n => if k = i then -(n : Int) else 0)).sum

/-- References that the objects on the i-th io_context hold. -/
def heldRefs (objs : List (Nat × Nat)) (i : Nat) : Nat := (objs.map (fun p => if p.1 = i then p.2 else 0)).sum

end StAsio
