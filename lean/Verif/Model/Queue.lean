/-!
Model of queue, include/container.h:60-257. Every public operation runs under the queue's lock, so a multi-threaded history
is a sequence of operations. `total` is the `size_t total_size`: arithmetic modulo 2^64.
`none` is a failed assertion. `α` is the message type, `sz` its `size()` (a `size_t`).
-/
set_option autoImplicit false
namespace StAsio

/-- `size_t` addition -/
def w64add (a b : Nat) : Nat := (a + b) % 2 ^ 64
/-- `size_t` subtraction -/
def w64sub (a b : Nat) : Nat := (a + (2 ^ 64 - b % 2 ^ 64)) % 2 ^ 64

/-- Members of queue: the container it inherits from, and total_size (line 256). -/
structure Q (α : Type) where
  items : List α
  total : Nat
  deriving DecidableEq, Repr

variable {α : Type}

/-- Line 72. -/
def Q.init : Q α := { items := [], total := 0 }

/-- `get_size_in_byte(can)`, include/base.h:646-656. -/
def getSizeInByte (sz : α → Nat) : List α → Nat
  | [] => 0
  | a :: l => w64add (sz a) (getSizeInByte sz l)

/-- `enqueue_`, lines 106-137 (both overloads; the second one leaves the caller's item empty). `fits = false`: the container
throws, which is caught. -/
def Q.enqueue (sz : α → Nat) (q : Q α) (a : α) (fits : Bool) : Q α × Bool :=
  if fits then ({ items := q.items ++ [a], total := w64add q.total (sz a) }, true) else (q, false)

/-- `enqueue_front_`, lines 150-181. -/
def Q.enqueueFront (sz : α → Nat) (q : Q α) (a : α) (fits : Bool) : Q α × Bool :=
  if fits then ({ items := a :: q.items, total := w64add q.total (sz a) }, true) else (q, false)

/-- Lines 141-144: the size to account for; `none`: the assertion of line 144 fails. -/
def Q.declared (sz : α → Nat) (src : List α) (sizeInByte : Nat) : Option Nat :=
  if sizeInByte = 0 then some (getSizeInByte sz src)
  else if getSizeInByte sz src = sizeInByte then some sizeInByte else none

/-- `move_items_in_`, lines 139-148. -/
def Q.moveIn (sz : α → Nat) (q : Q α) (src : List α) (sizeInByte : Nat) : Option (Q α) := do
  let n ← Q.declared sz src sizeInByte
  return { items := q.items ++ src, total := w64add q.total n }

/-- `move_items_in_front_`, lines 183-192. -/
def Q.moveInFront (sz : α → Nat) (q : Q α) (src : List α) (sizeInByte : Nat) : Option (Q α) := do
  let n ← Q.declared sz src sizeInByte
  return { items := src ++ q.items, total := w64add q.total n }

/-- `try_dequeue_`, line 194. -/
def Q.tryDequeue (sz : α → Nat) (q : Q α) : Q α × Option α :=
  match q.items with
  | [] => (q, none)
  | a :: l => ({ items := l, total := w64sub q.total (sz a) }, some a)

/-- The loop of lines 205-208: number of items passed and their size. -/
def Q.scanCount (sz : α → Nat) (max : Nat) : List α → (index pos size : Nat) → Nat × Nat
  | [], _, pos, size => (pos, size)
  | a :: l, index, pos, size =>
    if index < max then Q.scanCount sz max l (index + 1) (pos + 1) (w64add size (sz a)) else (pos, size)

/-- The loop of lines 220-227. -/
def Q.scanBytes (sz : α → Nat) (max : Nat) : List α → (pos size : Nat) → Nat × Nat
  | [], pos, size => (pos, size)
  | a :: l, pos, size =>
    let size := w64add size (sz a)
    if max ≤ size then (pos + 1, size) else Q.scanBytes sz max l (pos + 1) size

/-- `move_items_out(dest, end_iter, size)`, lines 245-253; `pos` is the position of `end_iter`. -/
def Q.splice (q : Q α) (dest : List α) (pos size : Nat) : Q α × List α :=
  let total := w64sub q.total size
  if pos = q.items.length then ({ items := [], total }, dest ++ q.items)
  else ({ items := q.items.drop pos, total }, dest ++ q.items.take pos)

/-- `(size_t) -1` -/
def npos : Nat := 2 ^ 64 - 1

/-- `move_items_out_(dest, max_item_num)`, lines 196-212. -/
def Q.moveOutCount (sz : α → Nat) (q : Q α) (dest : List α) (max : Nat) : Q α × List α :=
  if max = npos then ({ items := [], total := 0 }, dest ++ q.items)
  else if 0 < max then
    let (pos, size) := Q.scanCount sz max q.items 0 0 0
    q.splice dest pos size
  else (q, dest)

/-- `move_items_out_(max_size_in_byte, dest)`, lines 214-231. -/
def Q.moveOutBytes (sz : α → Nat) (q : Q α) (dest : List α) (max : Nat) : Q α × List α :=
  if max = npos then q.moveOutCount sz dest npos
  else
    let (pos, size) := Q.scanBytes sz max q.items 0 0
    q.splice dest pos size

/-- `swap`, lines 83-90. -/
def Q.swap (sz : α → Nat) (q : Q α) (can : List α) : Q α × List α :=
  ({ items := can, total := getSizeInByte sz can }, q.items)

/-- `clear`, line 82. -/
def Q.clear (_q : Q α) : Q α := { items := [], total := 0 }

inductive QOp (α : Type) where
  | enqueue (a : α) (fits : Bool)
  | enqueueFront (a : α) (fits : Bool)
  | moveIn (src : List α) (sizeInByte : Nat)
  | moveInFront (src : List α) (sizeInByte : Nat)
  | tryDequeue
  | moveOutCount (dest : List α) (max : Nat)
  | moveOutBytes (dest : List α) (max : Nat)
  | swap (can : List α)
  | clear

/-- What the caller sees: the returned flag, and what its container (or item) holds afterwards. -/
structure QRes (α : Type) where
  ret : Bool
  out : List α
  deriving DecidableEq, Repr

def Q.step (sz : α → Nat) (q : Q α) : QOp α → Option (Q α × QRes α)
  | .enqueue a fits => let r := q.enqueue sz a fits; some (r.1, { ret := r.2, out := [] })
  | .enqueueFront a fits => let r := q.enqueueFront sz a fits; some (r.1, { ret := r.2, out := [] })
  | .moveIn src n => (q.moveIn sz src n).map (fun q => (q, { ret := true, out := [] }))
  | .moveInFront src n => (q.moveInFront sz src n).map (fun q => (q, { ret := true, out := [] }))
  | .tryDequeue => let r := q.tryDequeue sz; some (r.1, { ret := r.2.isSome, out := r.2.toList })
  | .moveOutCount dest max => let r := q.moveOutCount sz dest max; some (r.1, { ret := true, out := r.2 })
  | .moveOutBytes dest max => let r := q.moveOutBytes sz dest max; some (r.1, { ret := true, out := r.2 })
  | .swap can => let r := q.swap sz can; some (r.1, { ret := true, out := r.2 })
  | .clear => some (q.clear, { ret := true, out := [] })

def Q.run (sz : α → Nat) : Q α → List (QOp α) → Option (Q α × List (QRes α))
  | q, [] => some (q, [])
  | q, op :: ops => do
    let (q, r) ← q.step sz op
    let (q, rs) ← Q.run sz q ops
    return (q, r :: rs)

end StAsio
