import Verif.Spec.SendBuffer
import Verif.Lemmas.Queue
set_option autoImplicit false
namespace StAsio
variable {α : Type}

theorem doDirectList_eq (sz : α → Nat) (q : Q α) (ms : List α) (prior : Bool) :
    doDirectList sz q ms prior = some { items := if prior then ms ++ q.items else q.items ++ ms, total := w64add q.total (sumSize sz ms % 2 ^ 64) } := by
  unfold doDirectList
  have hd : Q.declared sz ms (getSizeInByte sz ms) = some (sumSize sz ms % 2 ^ 64) := by
    unfold Q.declared
    simp only [getSizeInByte_eq]
    split <;> simp
  cases prior <;> simp [Q.moveIn, Q.moveInFront, hd]

theorem doDirectList_sound (sz : α → Nat) {q q' : Q α} {ms : List α} {prior : Bool} (h : q.Sound sz) (hf : pending sz q + sumSize sz ms < 2 ^ 64)
    (hq : doDirectList sz q ms prior = some q') : q'.Sound sz ∧ pending sz q' = pending sz q + sumSize sz ms := by
  rw [doDirectList_eq] at hq
  cases hq
  unfold Q.Sound pending at *
  simp only [w64add]
  have : sumSize sz (if prior then ms ++ q.items else q.items ++ ms) = sumSize sz q.items + sumSize sz ms := by
    cases prior <;> simp [sumSize_append, Nat.add_comm]
  simp only [this, h, and_true]
  omega

theorem moveOutBytes_sound (sz : α → Nat) {q : Q α} (h : q.Sound sz) (hf : pending sz q < 2 ^ 64) (dest : List α) (n : Nat) :
    (q.moveOutBytes sz dest n).1.Sound sz ∧ ∃ p, (q.moveOutBytes sz dest n).2 = dest ++ p ∧ q.items = p ++ (q.moveOutBytes sz dest n).1.items ∧
      (if n = 2 ^ 64 - 1 then (q.moveOutBytes sz dest n).1.items = [] else ShortestPrefix sz n q.items p (q.moveOutBytes sz dest n).1.items) := by
  have hex : q.Exact sz := by unfold Q.Exact; rw [h]; exact (Nat.mod_eq_of_lt hf).symm
  obtain ⟨q', r, h1, h2, p, h3, h4, h5⟩ := Q.step_spec sz hex (.moveOutBytes dest n) trivial
  simp only [Q.step, Option.some.injEq, Prod.mk.injEq] at h1
  obtain ⟨e1, e2⟩ := h1
  subst e1; subst e2
  refine ⟨?_, p, h3, h4, ?_⟩
  · unfold Q.Exact at h2
    unfold Q.Sound
    rw [h2]
    apply Nat.mod_eq_of_lt
    unfold pending at hf
    rw [h4, sumSize_append] at hf
    omega
  · split
    · next hn => rw [if_pos hn] at h5; exact h5
    · next hn => rw [if_neg hn] at h5; exact h5 hf

theorem moveOutBytes_removes (sz : α → Nat) {q : Q α} (h : q.Sound sz) (hf : pending sz q < 2 ^ 64) (dest : List α) (n : Nat) :
    pending sz (q.moveOutBytes sz dest n).1 ≤ pending sz q - n := by
  obtain ⟨h1, p, h2, h3, h4⟩ := moveOutBytes_sound sz h hf dest n
  unfold pending
  split at h4
  · rw [h4]; simp [sumSize]
  · obtain ⟨a, b, c, d⟩ := h4
    have : sumSize sz q.items = sumSize sz p + sumSize sz (q.moveOutBytes sz dest n).1.items := by
      rw [← sumSize_append]; exact congrArg (sumSize sz) h3
    rcases c with c | c
    · omega
    · rw [c]; simp [sumSize]

structure SbSt.Inv (sz : α → Nat) (c : SendCfg) (n M : Nat) (s : SbSt α) : Prop where
  sound : s.q.Sound sz
  bound : pending sz s.q + s.passed * M ≤ c.limit - 1 + n * M
  threads : s.passed ≤ n

theorem SbSt.step_inv (sz : α → Nat) (c : SendCfg) (n M : Nat) (hM : c.limit - 1 + n * M < 2 ^ 64)
    (hc : ∀ f, c.shrink = some f → ∀ p, c.limit ≤ p → p ≤ c.limit - 1 + n * M → f p ≠ 0 → p - f p < c.limit)
    {s s' : SbSt α} {a : SbAct α} (ha : ∀ ms prior, a = .put ms prior → sumSize sz ms ≤ M)
    (h : s.Inv sz c n M) (hs : s.step sz c n a = some s') : s'.Inv sz c n M := by
  have hp : pending sz s.q ≤ c.limit - 1 + n * M := by have := h.bound; omega
  have hp64 : pending sz s.q < 2 ^ 64 := by omega
  cases a with
  | check =>
    simp only [SbSt.step] at hs
    split at hs
    · cases hs
    · rename_i hn
      cases hs
      have pass : ∀ q : Q α, q.Sound sz → pending sz q < c.limit → SbSt.Inv sz c n M { q := q, passed := s.passed + 1 } := by
        intro q hq hl
        refine ⟨hq, ?_, by simp only; omega⟩
        have : (s.passed + 1) * M ≤ n * M := Nat.mul_le_mul_right M (by omega)
        simp only
        omega
      have htot : s.q.total = pending sz s.q := h.sound
      cases hsh : c.shrink with
      | none =>
        simp only [shrinkSendBuffer, hsh, sendBufferAvailable]
        by_cases hl : s.q.total < c.limit
        · simp only [hl, decide_true, if_true]
          exact pass _ h.sound (by omega)
        · simp only [hl, decide_false, Bool.false_eq_true, if_false]
          exact ⟨h.sound, h.bound, h.threads⟩
      | some f =>
        simp only [shrinkSendBuffer, hsh]
        by_cases hl : s.q.total < c.limit
        · simp only [hl, if_true]
          exact pass _ h.sound (by omega)
        · simp only [hl, if_false]
          by_cases hf : f s.q.total = 0
          · simp only [hf, if_true, Bool.false_eq_true, if_false]
            exact ⟨h.sound, h.bound, h.threads⟩
          · simp only [hf, if_false, if_true]
            have h1 := (moveOutBytes_sound sz h.sound hp64 [] (f s.q.total)).1
            have h2 := moveOutBytes_removes sz h.sound hp64 [] (f s.q.total)
            refine pass _ h1 ?_
            have h3 := hc f hsh s.q.total (by omega) (by omega) hf
            omega
  | put ms prior =>
    simp only [SbSt.step] at hs
    split at hs
    · cases hs
    · rename_i h0
      rw [Option.map_eq_some_iff] at hs
      obtain ⟨q, hq, hs⟩ := hs
      subst hs
      have hm := ha ms prior rfl
      have hmul : s.passed * M = (s.passed - 1) * M + M := by
        have : s.passed = (s.passed - 1) + 1 := by omega
        rw (occs := .pos [1]) [this]
        rw [Nat.add_mul, Nat.one_mul]
      have hb := h.bound
      obtain ⟨e1, e2⟩ := doDirectList_sound sz h.sound (by omega) hq
      refine ⟨e1, ?_, by have := h.threads; simp only; omega⟩
      simp only
      omega
  | take k =>
    simp only [SbSt.step, Option.some.injEq] at hs
    subst hs
    have h1 := (moveOutBytes_sound sz h.sound hp64 [] k).1
    have h2 := moveOutBytes_removes sz h.sound hp64 [] k
    have hb := h.bound
    exact ⟨h1, by simp only; omega, h.threads⟩
  | pop =>
    simp only [SbSt.step, Option.some.injEq] at hs
    subst hs
    have hb := h.bound
    unfold pending at hb hp64
    cases hi : s.q.items with
    | nil => simpa [Q.tryDequeue, hi] using h
    | cons m l =>
      have hso := h.sound
      unfold Q.Sound at hso
      rw [hi, sumSize_cons] at hb hso hp64
      refine ⟨?_, ?_, h.threads⟩
      · simp only [Q.tryDequeue, hi, Q.Sound, w64sub]; omega
      · simp only [Q.tryDequeue, hi, pending]; omega
  | popAll =>
    simp only [SbSt.step, Option.some.injEq] at hs
    subst hs
    have hb := h.bound
    refine ⟨by simp [Q.swap, Q.Sound, sumSize, getSizeInByte], ?_, h.threads⟩
    simp only [Q.swap, pending, sumSize_nil]
    omega

theorem SbSt.run_inv (sz : α → Nat) (c : SendCfg) (n M : Nat) (hM : c.limit - 1 + n * M < 2 ^ 64)
    (hc : ∀ f, c.shrink = some f → ∀ p, c.limit ≤ p → p ≤ c.limit - 1 + n * M → f p ≠ 0 → p - f p < c.limit)
    (as : List (SbAct α)) (ha : ∀ ms prior, SbAct.put ms prior ∈ as → sumSize sz ms ≤ M) {s s' : SbSt α}
    (h : s.Inv sz c n M) (hs : s.run sz c n as = some s') : s'.Inv sz c n M := by
  induction as generalizing s with
  | nil => simp [SbSt.run] at hs; subst hs; exact h
  | cons a as ih =>
    simp only [SbSt.run] at hs
    rw [Option.bind_eq_some_iff] at hs
    obtain ⟨s1, h1, h2⟩ := hs
    exact ih (fun ms prior hm => ha ms prior (by simp [hm])) (SbSt.step_inv sz c n M hM hc (fun ms prior e => ha ms prior (by simp [e])) h h1) h2

end StAsio
