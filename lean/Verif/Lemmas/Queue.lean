import Verif.Spec.IdealQueue
set_option autoImplicit false
namespace StAsio
variable {α : Type}

theorem sumSize_nil (sz : α → Nat) : sumSize sz [] = 0 := rfl
theorem sumSize_cons (sz : α → Nat) (a : α) (l : List α) : sumSize sz (a :: l) = sz a + sumSize sz l := by simp [sumSize]
theorem sumSize_append (sz : α → Nat) (a b : List α) : sumSize sz (a ++ b) = sumSize sz a + sumSize sz b := by simp [sumSize]

theorem getSizeInByte_eq (sz : α → Nat) (l : List α) : getSizeInByte sz l = sumSize sz l % 2 ^ 64 := by
  induction l with
  | nil => rfl
  | cons a l ih => simp only [getSizeInByte, w64add, sumSize_cons, ih]; omega

theorem scanCount_eq (sz : α → Nat) (max : Nat) : ∀ (l : List α) (index pos size : Nat), index ≤ max →
    Q.scanCount sz max l index pos size = (pos + min (max - index) l.length, if l = [] ∨ max = index then size else (size + sumSize sz (l.take (max - index))) % 2 ^ 64) := by
  intro l
  induction l with
  | nil => intro index pos size h; simp [Q.scanCount]
  | cons a l ih =>
    intro index pos size h
    unfold Q.scanCount
    by_cases hi : index < max
    · rw [if_pos hi, ih _ _ _ (by omega)]
      have e1 : max - index = (max - (index + 1)) + 1 := by omega
      rw [e1]
      simp only [List.take_succ_cons, sumSize_cons, w64add, List.length_cons, List.cons_ne_nil, false_or]
      rw [if_neg (by omega : ¬ max = index)]
      congr 1
      · omega
      · split
        · rename_i hh
          have : sumSize sz (l.take (max - (index + 1))) = 0 := by
            rcases hh with hh | hh
            · subst hh; simp [sumSize_nil]
            · rw [hh, Nat.sub_self]; rfl
          omega
        · omega
    · rw [if_neg hi]
      have : max = index := by omega
      subst this
      simp

theorem scanBytes_eq (sz : α → Nat) (max : Nat) : ∀ (l : List α) (pos size : Nat), size < 2 ^ 64 →
    ∃ k, k ≤ l.length ∧ Q.scanBytes sz max l pos size = (pos + k, (size + sumSize sz (l.take k)) % 2 ^ 64) ∧ (l ≠ [] → 0 < k) ∧
      (size + sumSize sz l < 2 ^ 64 → (max ≤ size + sumSize sz (l.take k) ∨ k = l.length) ∧
        ∀ n, 0 < n → n < k → size + sumSize sz (l.take n) < max) := by
  intro l
  induction l with
  | nil =>
    intro pos size h
    refine ⟨0, Nat.le_refl _, ?_, fun h => absurd rfl h, fun _ => ⟨Or.inr rfl, by omega⟩⟩
    simp [Q.scanBytes, sumSize_nil]
    omega
  | cons a l ih =>
    intro pos size h
    unfold Q.scanBytes
    simp only
    by_cases hm : max ≤ w64add size (sz a)
    · rw [if_pos hm]
      refine ⟨1, by simp, ?_, fun _ => Nat.one_pos, ?_⟩
      · simp [sumSize_cons, sumSize_nil, w64add]
      · intro hs
        rw [sumSize_cons] at hs
        refine ⟨Or.inl ?_, by omega⟩
        simp only [List.take_succ_cons, List.take_zero, sumSize_cons, sumSize_nil, Nat.add_zero]
        unfold w64add at hm
        omega
    · rw [if_neg hm]
      have hw : w64add size (sz a) < 2 ^ 64 := by unfold w64add; omega
      obtain ⟨k, h1, h2, h3, h4⟩ := ih (pos + 1) (w64add size (sz a)) hw
      refine ⟨k + 1, by simpa using h1, ?_, fun _ => Nat.succ_pos _, ?_⟩
      · rw [h2]
        simp only [List.take_succ_cons, sumSize_cons, w64add]
        congr 1 <;> omega
      · intro hs
        rw [sumSize_cons] at hs
        have hwe : w64add size (sz a) = size + sz a := by unfold w64add; omega
        obtain ⟨h5, h6⟩ := h4 (by omega)
        refine ⟨?_, ?_⟩
        · simp only [List.take_succ_cons, sumSize_cons, List.length_cons]
          omega
        · intro n hn hk
          cases n with
          | zero => omega
          | succ n =>
            simp only [List.take_succ_cons, sumSize_cons]
            by_cases hn0 : n = 0
            · subst hn0; simp [sumSize_nil]; omega
            · have := h6 n (by omega) (by omega); omega

theorem splice_eq (q : Q α) (dest : List α) (pos size : Nat) :
    q.splice dest pos size = ({ items := q.items.drop pos, total := w64sub q.total size }, dest ++ q.items.take pos) := by
  unfold Q.splice
  simp only
  split
  · rename_i h; subst h; simp
  · rfl

/-- total_size is always the size of the content, modulo 2^64. -/
def Q.Exact (sz : α → Nat) (q : Q α) : Prop := q.total = sumSize sz q.items % 2 ^ 64

theorem w64sub_mod {a b c : Nat} (h : c = a + b) : w64sub (c % 2 ^ 64) (a % 2 ^ 64) = b % 2 ^ 64 := by
  unfold w64sub; omega

theorem take_drop_sum (sz : α → Nat) (l : List α) (k : Nat) : sumSize sz l = sumSize sz (l.take k) + sumSize sz (l.drop k) := by
  rw [← sumSize_append, List.take_append_drop]

theorem declared_spec (sz : α → Nat) (src : List α) (n : Nat) (h : n = 0 ∨ (n = sumSize sz src ∧ n < 2 ^ 64)) :
    Q.declared sz src n = some (sumSize sz src % 2 ^ 64) := by
  unfold Q.declared
  rw [getSizeInByte_eq]
  by_cases h0 : n = 0
  · rw [if_pos h0]
  · rw [if_neg h0]
    rcases h with h | ⟨h, h'⟩
    · exact absurd h h0
    · rw [← h, Nat.mod_eq_of_lt h', if_pos rfl]

theorem Q.step_spec (sz : α → Nat) {q : Q α} (h : q.Exact sz) (op : QOp α) (ho : op.Honest sz) :
    ∃ q' r, q.step sz op = some (q', r) ∧ q'.Exact sz ∧ IdealQOp sz op q.items q'.items r := by
  unfold Q.Exact at *
  cases op with
  | enqueue a fits =>
    cases fits with
    | true => exact ⟨_, _, rfl, by simp only [Q.enqueue, if_true, sumSize_append, sumSize_cons, sumSize_nil, w64add, h]; omega, rfl, rfl⟩
    | false => exact ⟨_, _, rfl, h, rfl, rfl⟩
  | enqueueFront a fits =>
    cases fits with
    | true => exact ⟨_, _, rfl, by simp only [Q.enqueueFront, if_true, sumSize_cons, w64add, h]; omega, rfl, rfl⟩
    | false => exact ⟨_, _, rfl, h, rfl, rfl⟩
  | moveIn src n =>
    have hd := declared_spec sz src n ho
    refine ⟨{ items := q.items ++ src, total := w64add q.total (sumSize sz src % 2 ^ 64) }, { ret := true, out := [] }, by simp [Q.step, Q.moveIn, hd], ?_, rfl⟩
    simp only [sumSize_append, w64add, h]; omega
  | moveInFront src n =>
    have hd := declared_spec sz src n ho
    refine ⟨{ items := src ++ q.items, total := w64add q.total (sumSize sz src % 2 ^ 64) }, { ret := true, out := [] }, by simp [Q.step, Q.moveInFront, hd], ?_, rfl⟩
    simp only [sumSize_append, w64add, h]; omega
  | tryDequeue =>
    cases hi : q.items with
    | nil =>
      refine ⟨q, { ret := false, out := [] }, by simp [Q.step, Q.tryDequeue, hi], by rw [hi] at h ⊢; exact h, Or.inl ⟨rfl, hi, rfl⟩⟩
    | cons a l =>
      refine ⟨{ items := l, total := w64sub q.total (sz a) }, { ret := true, out := [a] }, by simp [Q.step, Q.tryDequeue, hi], ?_, Or.inr ⟨a, rfl, rfl⟩⟩
      simp only [h, hi, sumSize_cons]
      unfold w64sub; omega
  | moveOutCount dest max =>
    refine ⟨_, _, rfl, ?_, ?_⟩
    · unfold Q.moveOutCount
      by_cases hm : max = npos
      · rw [if_pos hm]; simp [sumSize_nil]
      · rw [if_neg hm]
        by_cases h0 : 0 < max
        · rw [if_pos h0, scanCount_eq sz max q.items 0 0 0 (by omega)]
          simp only [splice_eq, h]
          simp only [Nat.sub_zero, Nat.zero_add]
          have e1 : min max q.items.length = min max q.items.length := rfl
          have e2 : q.items.drop (min max q.items.length) = q.items.drop max := by
            rcases Nat.le_total max q.items.length with hle | hle
            · rw [Nat.min_eq_left hle]
            · rw [Nat.min_eq_right hle, List.drop_of_length_le (Nat.le_refl _), List.drop_of_length_le hle]
          rw [e2]
          split
          · rename_i hh
            rcases hh with hh | hh
            · rw [hh]; simp [sumSize_nil, w64sub]
            · omega
          · exact w64sub_mod (take_drop_sum sz q.items max)
        · rw [if_neg h0]; exact h
    · show if max = 2 ^ 64 - 1 then _ else _
      unfold Q.moveOutCount
      by_cases hm : max = npos
      · rw [if_pos (by rw [hm]; rfl), if_pos hm]; exact ⟨rfl, rfl⟩
      · rw [if_neg (by intro hc; exact hm hc), if_neg hm]
        by_cases h0 : 0 < max
        · rw [if_pos h0, scanCount_eq sz max q.items 0 0 0 (by omega)]
          simp only [splice_eq, Nat.sub_zero, Nat.zero_add]
          rcases Nat.le_total max q.items.length with hle | hle
          · rw [Nat.min_eq_left hle]; exact ⟨rfl, rfl⟩
          · rw [Nat.min_eq_right hle, List.drop_of_length_le (Nat.le_refl _), List.drop_of_length_le hle, List.take_of_length_le hle, List.take_of_length_le (Nat.le_refl _)]
            exact ⟨rfl, rfl⟩
        · rw [if_neg h0]
          have : max = 0 := by omega
          subst this
          simp
  | moveOutBytes dest max =>
    by_cases hm : max = npos
    · refine ⟨{ items := [], total := 0 }, { ret := true, out := dest ++ q.items }, by simp [Q.step, Q.moveOutBytes, Q.moveOutCount, hm], by simp [sumSize_nil], q.items, rfl, by simp, ?_⟩
      rw [if_pos (by rw [hm]; rfl)]
    · obtain ⟨k, h1, h2, h3, h4⟩ := scanBytes_eq sz max q.items 0 0 (by decide)
      refine ⟨{ items := q.items.drop k, total := w64sub q.total (sumSize sz (q.items.take k) % 2 ^ 64) }, { ret := true, out := dest ++ q.items.take k }, ?_, ?_, q.items.take k, rfl, (List.take_append_drop _ _).symm, ?_⟩
      · simp only [Q.step, Q.moveOutBytes, if_neg hm, h2, splice_eq, Nat.zero_add]
      · simp only [h]; exact w64sub_mod (take_drop_sum sz q.items k)
      · rw [if_neg (by intro hc; exact hm hc)]
        intro hs
        rw [Nat.zero_add] at h4
        obtain ⟨h5, h6⟩ := h4 hs
        refine ⟨(List.take_append_drop _ _).symm, ?_, ?_, ?_⟩
        · intro hne hc
          have := h3 hne
          rw [List.take_eq_nil_iff] at hc
          rcases hc with hc | hc
          · omega
          · exact hne hc
        · rcases h5 with h5 | h5
          · left; omega
          · right; simp [h5]
        · intro n hn hk
          rw [List.length_take] at hk
          have := h6 n hn (by omega)
          rw [List.take_take, Nat.min_eq_left (by omega)]
          omega
  | swap can => exact ⟨_, _, rfl, by simp only [Q.swap, getSizeInByte_eq], rfl, rfl⟩
  | clear => exact ⟨_, _, rfl, rfl, rfl⟩

theorem Q.run_spec (sz : α → Nat) : ∀ (ops : List (QOp α)) {q : Q α}, q.Exact sz → (∀ op ∈ ops, op.Honest sz) →
    ∃ q' rs, q.run sz ops = some (q', rs) ∧ q'.Exact sz ∧ IdealQRun sz ops q.items q'.items rs := by
  intro ops
  induction ops with
  | nil => intro q h _; exact ⟨q, [], rfl, h, IdealQRun.nil _⟩
  | cons op ops ih =>
    intro q h ho
    obtain ⟨q1, r, h1, h2, h3⟩ := Q.step_spec sz h op (ho op (by simp))
    obtain ⟨q2, rs, k1, k2, k3⟩ := ih h2 (fun o hm => ho o (by simp [hm]))
    exact ⟨q2, r :: rs, by simp [Q.run, h1, k1], k2, IdealQRun.cons _ _ _ _ _ _ _ h3 k3⟩

end StAsio
