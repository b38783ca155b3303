import Verif.Lemmas.Queue
/-!
# C16, C17: the message queue
-/
set_option autoImplicit false
namespace StAsio
variable {α : Type}

/-- C16. Any history of operations behaves like the same operations on a plain list, no assertion fails, and size_in_byte()
is the sum of the sizes of the queued messages (modulo 2^64, hence exactly if the queued messages fit the address space). -/
theorem C16_fifo_exact_bytes (sz : α → Nat) (ops : List (QOp α)) (ho : ∀ op ∈ ops, op.Honest sz) :
    ∃ q rs, Q.run sz Q.init ops = some (q, rs) ∧ IdealQRun sz ops [] q.items rs ∧ q.total = sumSize sz q.items % 2 ^ 64 ∧
      (sumSize sz q.items < 2 ^ 64 → q.total = sumSize sz q.items) := by
  obtain ⟨q, rs, h1, h2, h3⟩ := Q.run_spec sz ops (q := Q.init) rfl ho
  refine ⟨q, rs, h1, h3, h2, ?_⟩
  intro hs
  have h2' : q.total = sumSize sz q.items % 2 ^ 64 := h2
  rw [h2', Nat.mod_eq_of_lt hs]

/-- Non-vacuity of C16: messages are numbers and are as big as they say. -/
example : (∀ op ∈ ([.enqueue 3 true, .moveIn [4, 5] 9, .enqueueFront 7 true, .tryDequeue, .moveOutBytes [] 4, .moveInFront [1, 2] 0, .moveOutCount [9] 2, .swap [8], .clear] : List (QOp Nat)), op.Honest id) ∧
    Q.run id Q.init [.enqueue 3 true, .moveIn [4, 5] 9, .enqueueFront 7 true, .tryDequeue, .moveOutBytes [] 4, .moveInFront [1, 2] 0, .moveOutCount [9] 2, .swap [8]] =
      some ({ items := [8], total := 8 }, [⟨true, []⟩, ⟨true, []⟩, ⟨true, []⟩, ⟨true, [7]⟩, ⟨true, [3, 4]⟩, ⟨true, []⟩, ⟨true, [9, 1, 2]⟩, ⟨true, [5]⟩]) := by
  constructor
  · intro op h
    simp at h
    rcases h with h | h | h | h | h | h | h | h | h <;> subst h <;> simp [QOp.Honest, sumSize]
  · decide +kernel

/-- C16: dequeuing returns the messages in the order they were enqueued (fifo), whatever is enqueued in between. -/
theorem C16_first_in_first_out (sz : α → Nat) (a : α) (l : List α) (t : Nat) (ops : List (QOp α))
    (hops : ∀ op ∈ ops, ∃ b fits, op = QOp.enqueue b fits) (q : Q α) (rs : List (QRes α))
    (h : Q.run sz { items := a :: l, total := t } ops = some (q, rs)) : (q.tryDequeue sz).2 = some a := by
  have : ∀ (ops : List (QOp α)), (∀ op ∈ ops, ∃ b fits, op = QOp.enqueue b fits) → ∀ (q0 q : Q α) (rs : List (QRes α)), (∃ l, q0.items = a :: l) →
      Q.run sz q0 ops = some (q, rs) → ∃ l, q.items = a :: l := by
    intro ops
    induction ops with
    | nil => intro _ q0 q rs hl h; cases h; exact hl
    | cons op ops ih =>
      intro ho q0 q rs ⟨l, hl⟩ h
      obtain ⟨b, fits, rfl⟩ := ho op (by simp)
      simp only [Q.run, Q.step, Option.bind_eq_bind, Option.bind_some] at h
      rw [Option.bind_eq_some_iff] at h
      obtain ⟨⟨q1, rs1⟩, h1, h2⟩ := h
      simp at h2
      rw [← h2.1]
      refine ih (fun o hm => ho o (by simp [hm])) _ q1 rs1 ?_ h1
      cases fits
      · exact ⟨l, hl⟩
      · exact ⟨l ++ [b], by simp [Q.enqueue, hl]⟩
  obtain ⟨l', hl'⟩ := this ops hops _ q rs ⟨l, rfl⟩ h
  simp [Q.tryDequeue, hl']

/-- C17. move_items_out(bytes): the shortest non-empty prefix that reaches the limit moves to the end of `dest`, in order. -/
theorem C17_move_out_bytes (sz : α → Nat) (q : Q α) (dest : List α) (max : Nat) (hmax : max ≠ 2 ^ 64 - 1) (hs : sumSize sz q.items < 2 ^ 64)
    (he : q.total = sumSize sz q.items) :
    ∃ p r, q.moveOutBytes sz dest max = ({ items := r, total := sumSize sz r }, dest ++ p) ∧ ShortestPrefix sz max q.items p r := by
  obtain ⟨q', r, h1, h2, p, h3, h4, h5⟩ := Q.step_spec sz (q := q) (by unfold Q.Exact; rw [he, Nat.mod_eq_of_lt hs]) (.moveOutBytes dest max) trivial
  rw [if_neg hmax] at h5
  have hq : (q.moveOutBytes sz dest max) = (q', r.out) := by
    simp only [Q.step, Option.some.injEq, Prod.mk.injEq] at h1
    rw [← h1.1, ← h1.2]
  have hle : sumSize sz q'.items < 2 ^ 64 := by rw [h4, sumSize_append] at hs; omega
  unfold Q.Exact at h2
  rw [Nat.mod_eq_of_lt hle] at h2
  refine ⟨p, q'.items, ?_, h5 hs⟩
  rw [hq, ← h3, ← h2]

/-- The shortest non-empty prefix is one item when 0 bytes are asked for. -/
theorem C17_zero_takes_one (sz : α → Nat) (a : α) (l p r : List α) (h : ShortestPrefix sz 0 (a :: l) p r) : p = [a] := by
  obtain ⟨h1, h2, h3, h4⟩ := h
  cases p with
  | nil => exact absurd rfl (h2 (by simp))
  | cons b p =>
    simp at h1
    cases p with
    | nil => rw [h1.1]
    | cons c p => have := h4 1 (by omega) (by simp); omega

/-- C17. move_items_out(count) moves exactly the first `min count size` messages; -1 moves everything. -/
theorem C17_move_out_count (sz : α → Nat) (q : Q α) (dest : List α) (max : Nat) (hs : sumSize sz q.items < 2 ^ 64) (hl : q.items.length < 2 ^ 64)
    (he : q.total = sumSize sz q.items) :
    q.moveOutCount sz dest max = ({ items := q.items.drop max, total := sumSize sz (q.items.drop max) }, dest ++ q.items.take max) := by
  obtain ⟨q', r, h1, h2, h3⟩ := Q.step_spec sz (q := q) (by unfold Q.Exact; rw [he, Nat.mod_eq_of_lt hs]) (.moveOutCount dest max) trivial
  have hq : (q.moveOutCount sz dest max) = (q', r.out) := by
    simp only [Q.step, Option.some.injEq, Prod.mk.injEq] at h1
    rw [← h1.1, ← h1.2]
  have h3' : q'.items = q.items.drop max ∧ r.out = dest ++ q.items.take max := by
    show _
    simp only [IdealQOp] at h3
    split at h3
    · rename_i hm
      rw [List.drop_of_length_le (by omega), List.take_of_length_le (by omega)]
      exact h3
    · exact h3
  have hle : sumSize sz q'.items < 2 ^ 64 := by
    rw [h3'.1]; have := take_drop_sum sz q.items max; omega
  unfold Q.Exact at h2
  rw [Nat.mod_eq_of_lt hle] at h2
  rw [hq, h3'.2, ← h3'.1, ← h2]

/-- Non-vacuity of C17. -/
example : (Q.moveOutBytes id { items := [3, 4, 5], total := 12 } [] 4) = ({ items := [5], total := 5 }, [3, 4]) ∧
    (Q.moveOutBytes id { items := [3, 4, 5], total := 12 } [] 3) = ({ items := [4, 5], total := 9 }, [3]) ∧
    (Q.moveOutCount id { items := [3, 4, 5], total := 12 } [1] 2) = ({ items := [5], total := 5 }, [1, 3, 4]) := by decide +kernel

end StAsio
