import Verif.Model.ObjectPool
/-!
What a user knows about the pool from the results of the calls.
-/
set_option autoImplicit false
namespace StAsio

/-- The id-to-object directory that the successful calls describe. -/
def directory (es : List PoolEv) : Nat → Option Nat :=
  es.foldl (fun (m : Nat → Option Nat) e => match e with
    | .addCall o id true => upd m id (some o)
    | .delCall _ id true => upd m id none
    | .delIdCall id true => upd m id none
    | .kicked _ id => upd m id none
    | .initCall o old id true => if old = id then m else upd (upd m id (some o)) old none
    | .finalized => fun _ => none
    | _ => m) (fun _ => none)

/-- The ids given out by create_object, in order. -/
def givenIds (es : List PoolEv) : List Nat :=
  es.filterMap (fun e => match e with | .created _ id => some id | _ => none)

/-- An object is nowhere in the pool's hands. -/
def Pool.outside (s : Pool) (o : Nat) : Prop := o ∉ s.can.map (·.2) ∧ o ∉ s.invalid ∧ o ∉ s.moving ∧ o ∉ s.changing.map (·.2.2)

/-- Somebody can still get at the object. -/
def Pool.live (s : Pool) (o : Nat) : Prop := 0 < s.refs o ∨ o ∈ s.can.map (·.2) ∨ o ∈ s.invalid ∨ o ∈ s.moving ∨ o ∈ s.changing.map (·.2.2)

/-- Sensible use: only objects that the pool does not hold are added, and only objects in the pool get another id. -/
def Pool.proper (s : Pool) : PoolAct → Prop
  | .add o => s.outside o
  | .initId o _ => o ∈ s.can.map (·.2)
  | .changeEnd i => ∀ t, s.changing[i]? = some t → t.1 ∈ s.can.map (·.2)
  | _ => True

/-- No two objects that somebody can get at are given the same id: neither by the counter of create_object nor by restore_socket(..., true). -/
def Pool.noClash (s : Pool) : PoolAct → Prop
  | .create _ => ∀ x, s.live x → s.id x ≠ (1 + s.cur) % 2 ^ 64
  | .initId _ i => ∀ x, s.live x → s.id x ≠ i
  | _ => True

/-- Runs in which every action satisfies P at its time. -/
inductive Pool.GoodRun (reuse : Bool) (P : Pool → PoolAct → Prop) : Pool → List PoolAct → Pool → List PoolEv → Prop where
  | nil (s : Pool) : Pool.GoodRun reuse P s [] s []
  | snoc (s s1 s2 : Pool) (as : List PoolAct) (a : PoolAct) (es fs : List PoolEv) : Pool.GoodRun reuse P s as s1 es → P s1 a → s1.step reuse a = some (s2, fs) →
      Pool.GoodRun reuse P s (as ++ [a]) s2 (es ++ fs)

/-- The object was deleted (del_object or clear_obsoleted_object) and not handed out by create_object since. -/
def deletedSince (es : List PoolEv) (o : Nat) : Prop :=
  ∃ pre e post, es = pre ++ e :: post ∧ ((∃ i, e = .delCall o i true) ∨ (∃ i, e = .kicked o i) ∨ (∃ i, e = .delIdCall i true ∧ directory pre i = some o)) ∧ ∀ i, PoolEv.created o i ∉ post

end StAsio
