import Verif.Model.Queue
/-!
The ideal message queue: a plain list. `sumSize` is the true (unbounded) sum of the message sizes.
-/
set_option autoImplicit false
namespace StAsio
variable {α : Type}

def sumSize (sz : α → Nat) (l : List α) : Nat := (l.map sz).sum

/-- `p` is the shortest non-empty prefix of `l` reaching `max` bytes, or all of `l` if there is none. -/
def ShortestPrefix (sz : α → Nat) (max : Nat) (l p r : List α) : Prop :=
  l = p ++ r ∧ (l ≠ [] → p ≠ []) ∧ (max ≤ sumSize sz p ∨ r = []) ∧
  ∀ n, 0 < n → n < p.length → sumSize sz (p.take n) < max

/-- The ideal effect of an operation on the list `l`. -/
def IdealQOp (sz : α → Nat) (op : QOp α) (l l' : List α) (res : QRes α) : Prop :=
  match op with
  | .enqueue a fits => if fits then l' = l ++ [a] ∧ res.ret = true else l' = l ∧ res.ret = false
  | .enqueueFront a fits => if fits then l' = [a] ++ l ∧ res.ret = true else l' = l ∧ res.ret = false
  | .moveIn src _ => l' = l ++ src
  | .moveInFront src _ => l' = src ++ l
  | .tryDequeue => (l = [] ∧ l' = [] ∧ res.ret = false) ∨ ∃ a, l = a :: l' ∧ res = { ret := true, out := [a] }
  | .moveOutCount dest max =>
      if max = 2 ^ 64 - 1 then l' = [] ∧ res.out = dest ++ l else l' = l.drop max ∧ res.out = dest ++ l.take max
  | .moveOutBytes dest max => ∃ p, res.out = dest ++ p ∧ l = p ++ l' ∧
      (if max = 2 ^ 64 - 1 then l' = [] else sumSize sz l < 2 ^ 64 → ShortestPrefix sz max l p l')
  | .swap can => l' = can ∧ res.out = l
  | .clear => l' = []

inductive IdealQRun (sz : α → Nat) : List (QOp α) → List α → List α → List (QRes α) → Prop where
  | nil (l : List α) : IdealQRun sz [] l l []
  | cons (op : QOp α) (ops : List (QOp α)) (l l1 l2 : List α) (r : QRes α) (rs : List (QRes α)) :
      IdealQOp sz op l l1 r → IdealQRun sz ops l1 l2 rs → IdealQRun sz (op :: ops) l l2 (r :: rs)

/-- Callers of move_items_in declare 0 (unknown) or the true size, a `size_t` (the assertions of lines 144 and 188). -/
def QOp.Honest (sz : α → Nat) : QOp α → Prop
  | .moveIn src n => n = 0 ∨ (n = sumSize sz src ∧ n < 2 ^ 64)
  | .moveInFront src n => n = 0 ∨ (n = sumSize sz src ∧ n < 2 ^ 64)
  | _ => True

end StAsio
