/-!
When two threads use one queue object at the same time.
-/
set_option autoImplicit false
namespace StAsio

/-- What a thread does with a queue object. -/
inductive QrKind where
  /-- changes the container (and the byte count): enqueue, move_items_in, move_items_out, try_dequeue -/
  | change
  /-- looks at the container: is_empty -/
  | look
  /-- reads the byte count: size_in_byte -/
  | count
  deriving DecidableEq, Repr

/-- The two queues of a socket. -/
inductive QrQueue where
  | send
  | recv
  deriving DecidableEq, Repr

/-- Two different threads are using the queue `q` at the same time, and at least one of them changes it. `at_ t`: the queue the thread `t` is using now, if any, and what it does with it. -/
def Overlap {T : Type} (at_ : T → Option (QrQueue × QrKind)) (q : QrQueue) : Prop :=
  ∃ t t' k, t ≠ t' ∧ at_ t = some (q, .change) ∧ at_ t' = some (q, k)

/-- The same, and both use the container itself (not only the byte count). -/
def ContainerOverlap {T : Type} (at_ : T → Option (QrQueue × QrKind)) (q : QrQueue) : Prop :=
  ∃ t t' k, t ≠ t' ∧ at_ t = some (q, .change) ∧ at_ t' = some (q, k) ∧ k ≠ .count

end StAsio
