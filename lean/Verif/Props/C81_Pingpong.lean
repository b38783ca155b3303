import Verif.Model.Pingpong
/-!
C81: the pingpong test (pingpong_client, pingpong_server).
-/
set_option autoImplicit false
namespace StAsio

theorem Pp.Run.trans {s s1 s2 : Pp} {as bs : List PpAct} {es fs : List PpEv} (h1 : Pp.Run s as s1 es) (h2 : Pp.Run s1 bs s2 fs) : Pp.Run s (as ++ bs) s2 (es ++ fs) := by
  induction h2 with
  | nil => simpa using h1
  | snoc t1 t2 bs b gs gs' _ hs ih =>
    rw [← List.append_assoc, ← List.append_assoc]
    exact .snoc _ _ _ _ _ _ _ ih hs

theorem Pp.exec_run {s s' : Pp} {as : List PpAct} {es : List PpEv} (h : Pp.exec s as = some (s', es)) : Pp.Run s as s' es := by
  induction as generalizing s es with
  | nil => simp only [Pp.exec, Option.some.injEq, Prod.mk.injEq] at h; obtain ⟨rfl, rfl⟩ := h; exact .nil _
  | cons a as ih =>
    simp only [Pp.exec] at h
    cases hs : s.step a with
    | none => simp [hs] at h
    | some r =>
      cases he : Pp.exec r.1 as with
      | none => simp [hs, he] at h
      | some q =>
        simp [hs, he] at h
        obtain ⟨rfl, rfl⟩ := h
        exact (Pp.Run.snoc s s r.1 [] a [] r.2 (.nil s) hs).trans (ih (s := r.1) (es := q.2) (by rw [he]))

/-- What the specification has for the state. -/
def Pp.missing (s : Pp) : Option Nat := if s.total = 0 then none else some (s.total - s.recv)

/-- A test in progress has not got its bytes yet. -/
def Pp.Going (s : Pp) : Prop := 0 < s.total → s.recv < s.total ∧ 0 < s.up + s.down

theorem Pp.step_going {s s' : Pp} {a : PpAct} {es : List PpEv} (h : s.Going) (hs : s.step a = some (s', es)) : s'.Going := by
  obtain ⟨total, recv, up, down⟩ := s
  cases a <;> simp only [Pp.step] at hs <;> (repeat' split at hs) <;> (try cases hs) <;> simp only [Pp.Going] at h ⊢ <;> intro hp
  · rename_i h1; exact ⟨Nat.mul_pos h1.2.1 h1.2.2, by omega⟩
  all_goals omega

theorem Pp.step_right {s s' : Pp} {a : PpAct} {es : List PpEv} (h : s.Going) (hs : s.step a = some (s', es)) (fs : List PpEv) : PpEv.rightFrom s.missing (es ++ fs) = PpEv.rightFrom s'.missing fs := by
  obtain ⟨total, recv, up, down⟩ := s
  cases a <;> simp only [Pp.step] at hs <;> (repeat' split at hs) <;> (try cases hs)
  · rename_i num len h1
    have : 0 < num * len := Nat.mul_pos h1.2.1 h1.2.2
    simp [Pp.missing, h1.1, PpEv.rightFrom, Nat.ne_of_gt this]
  · rfl
  · rename_i h1 h2; simp [Pp.missing, h2, PpEv.rightFrom]
  · rename_i h1 h2 h3
    simp only [Pp.Going] at h h2 h3
    have := h (by omega)
    simp only [Pp.missing, if_neg h2, List.cons_append, List.nil_append]
    rw [PpEv.rightFrom.eq_def]
    simp only
    rw [if_neg (by omega)]; rfl
  · rename_i h1 h2 h3
    simp only [Pp.Going] at h h2 h3
    simp only [Pp.missing, if_neg h2, List.cons_append, List.nil_append]
    rw [PpEv.rightFrom.eq_def]
    simp only
    rw [if_pos (by omega), Nat.sub_sub]

/-- **C81** (right): in any history of tests, however the bytes are split and interleaved, a link reports a test when and only when the bytes it received since the test began reach num * len, and reports it once;
a test in progress always has bytes on their way. -/
theorem C81_right {as : List PpAct} {s : Pp} {es : List PpEv} (hr : Pp.Run Pp.init as s es) : PpEv.rightFrom none es = true ∧ (0 < s.total → 0 < s.up + s.down) := by
  have key : s.Going ∧ ∀ fs, PpEv.rightFrom none (es ++ fs) = PpEv.rightFrom s.missing fs := by
    induction hr with
    | nil => exact ⟨by simp [Pp.Going, Pp.init], fun fs => rfl⟩
    | snoc s1 s2 as a es es' _ hs ih =>
      refine ⟨Pp.step_going ih.1 hs, fun fs => ?_⟩
      rw [List.append_assoc, ih.2, Pp.step_right ih.1 hs]
  refine ⟨?_, fun h => (key.1 h).2⟩
  have := key.2 []
  rw [List.append_nil] at this
  rw [this]
  cases s.missing <;> rfl

/-- Bytes on their way plus bytes still missing: an upper bound for the number of receptions to come. -/
def Pp.work (s : Pp) : Nat := 2 * (s.total - s.recv) + s.up

def PpAct.isStart : PpAct → Bool
  | .start _ _ => true
  | _ => false

theorem Pp.step_work {s s' : Pp} {a : PpAct} {es : List PpEv} (h : s.Going) (ht : 0 < s.total) (ha : a.isStart = false) (hs : s.step a = some (s', es)) : es.contains .completed = true ∨ (0 < s'.total ∧ s'.work < s.work) := by
  obtain ⟨total, recv, up, down⟩ := s
  cases a with
  | start n l => cases ha
  | server k =>
    simp only [Pp.step] at hs; split at hs <;> cases hs
    right; simp only [Pp.work] at *; omega
  | client k =>
    simp only [Pp.step] at hs; (repeat' split at hs) <;> cases hs
    · simp only at *; omega
    · left; decide_cbv
    · right; simp only [Pp.work, Pp.Going] at *; omega

/-- **C81** (ends): a test in progress can always go on, and whatever happens next, after at most `work` receptions it is reported. -/
theorem C81_ends {as bs : List PpAct} {s s' : Pp} {es fs : List PpEv} (hr : Pp.Run Pp.init as s es) (ht : 0 < s.total) :
    (∃ a s1 gs, a.isStart = false ∧ s.step a = some (s1, gs)) ∧
    (Pp.Run s bs s' fs → (∀ b ∈ bs, b.isStart = false) → 2 * (s.total - s.recv) + s.up < bs.length → PpEv.completed ∈ fs) := by
  have hg : s.Going := by
    clear ht
    induction hr with
    | nil => simp [Pp.Going, Pp.init]
    | snoc s1 s2 as a es es' _ hs ih => exact Pp.step_going ih hs
  refine ⟨?_, ?_⟩
  · have := (hg ht).2
    by_cases hu : 0 < s.up
    · exact ⟨.server 1, _, _, rfl, by simp only [Pp.step]; rw [if_pos ⟨by omega, by omega⟩]⟩
    · have : ∃ r, s.step (.client 1) = some r := by
        simp only [Pp.step]; rw [if_pos ⟨by omega, by omega⟩]; split <;> (try split) <;> exact ⟨_, rfl⟩
      obtain ⟨r, hr⟩ := this
      exact ⟨.client 1, r.1, r.2, rfl, hr⟩
  · intro h2 hb hl
    have key : PpEv.completed ∈ fs ∨ (s'.Going ∧ 0 < s'.total ∧ s'.work + bs.length ≤ s.work) := by
      clear hl
      induction h2 with
      | nil => exact .inr ⟨hg, ht, by simp⟩
      | snoc s1 s2 bs b gs gs' _ hs ih =>
        cases ih (fun b hb' => hb b (List.mem_append_left _ hb')) with
        | inl h => exact .inl (List.mem_append_left _ h)
        | inr h =>
          cases Pp.step_work h.1 h.2.1 (hb b (by simp)) hs with
          | inl hc => left; exact List.mem_append_right _ (by simpa using hc)
          | inr hw =>
            right
            refine ⟨Pp.step_going h.1 hs, hw.1, ?_⟩
            simp only [List.length_append, List.length_singleton]; omega
    cases key with
    | inl h => exact h
    | inr h => simp only [Pp.work] at h; omega

theorem C81_ends_demo : ∃ s es, Pp.Run Pp.init [.start 3 4, .server 2, .client 1] s es ∧ 0 < s.total ∧ 2 * (s.total - s.recv) + s.up = 25 :=
  ⟨_, _, Pp.exec_run rfl, by decide, by decide⟩

example : (Pp.exec Pp.init [.start 3 4, .server 4, .client 4, .server 4, .client 1, .client 3, .server 4, .client 4]).map (·.2) =
    some [.began 3 4, .got 4, .got 1, .got 3, .got 4, .completed] := rfl

/-- The bytes an event says the client received. -/
def PpEv.bytes : PpEv → Nat
  | .got k => k
  | _ => 0

/-- The bytes a read handed to the client. -/
def PpAct.read : PpAct → Nat
  | .client k => k
  | _ => 0

/-- **C81** (nothing unseen): the history of a link shows every byte it was handed, also between tests. -/
theorem C81_bytes {as : List PpAct} {s : Pp} {es : List PpEv} (hr : Pp.Run Pp.init as s es) : (es.map PpEv.bytes).sum = (as.map PpAct.read).sum := by
  induction hr with
  | nil => rfl
  | snoc s1 s2 as a es es' _ hs ih =>
    have : (es'.map PpEv.bytes).sum = a.read := by
      cases a <;> simp only [Pp.step] at hs <;> (repeat' split at hs) <;> (try cases hs) <;> simp [PpEv.bytes, PpAct.read]
    simp [ih, this]

example : (Pp.exec Pp.init [.start 1 4, .server 4, .client 1, .client 3, .start 1 1, .server 1, .client 1]).map (fun r => (r.2.map PpEv.bytes).sum) = some 5 := rfl

/-- A test on its own, in progress or reported. -/
def Pp.Own (num len : Nat) (s : Pp) (es : List PpEv) : Prop :=
  (s.total = num * len ∧ s.recv < s.total ∧ s.up + s.down = len ∧ PpEv.completed ∉ es) ∨ (s.total = 0 ∧ s.recv < num * len + len ∧ s.up + s.down < len ∧ PpEv.completed ∈ es)

theorem Pp.step_own {num len : Nat} {s s' : Pp} {a : PpAct} {es es' : List PpEv} (h : Pp.Own num len s es) (ha : a.isStart = false) (hs : s.step a = some (s', es')) : Pp.Own num len s' (es ++ es') := by
  obtain ⟨total, recv, up, down⟩ := s
  simp only [Pp.Own] at h
  cases a with
  | start n l => cases ha
  | server k =>
    simp only [Pp.step] at hs; split at hs <;> cases hs
    simp only [Pp.Own, List.append_nil] at h ⊢
    cases h with
    | inl h => exact .inl ⟨h.1, h.2.1, by omega, h.2.2.2⟩
    | inr h => exact .inr ⟨h.1, h.2.1, by omega, h.2.2.2⟩
  | client k =>
    simp only [Pp.step] at hs; (repeat' split at hs) <;> cases hs <;> simp only [Pp.Own, List.mem_append] at h ⊢
    · rename_i h1 h2
      cases h with
      | inl h => omega
      | inr h => exact .inr ⟨h.1, h.2.1, by omega, .inl h.2.2.2⟩
    · rename_i h1 h2 h3
      cases h with
      | inl h => exact .inr ⟨trivial, by omega, by omega, .inr (by simp)⟩
      | inr h => omega
    · rename_i h1 h2 h3
      cases h with
      | inl h => exact .inl ⟨h.1, by omega, by omega, by simp [h.2.2.2]⟩
      | inr h => omega

/-- **C81** (one test at a time): a test which begins with nothing left of the tests before keeps exactly its own `len` bytes going until it is reported, and it is reported before it received `num * len + len` bytes. -/
theorem C81_own_partial {as : List PpAct} {s s1 s' : Pp} {es : List PpEv} {num len : Nat} (h0 : s.up + s.down = 0) (hb : s.step (.start num len) = some (s1, [.began num len]))
    (hr : Pp.Run s1 as s' es) (ha : ∀ a ∈ as, a.isStart = false) :
    (PpEv.completed ∉ es → s'.up + s'.down = len) ∧ (PpEv.completed ∈ es → s'.up + s'.down < len ∧ s'.total = 0) ∧ s'.recv < num * len + len := by
  have key : Pp.Own num len s' es := by
    induction hr with
    | nil =>
      simp only [Pp.step] at hb; split at hb <;> cases hb
      rename_i h1
      exact .inl ⟨rfl, Nat.mul_pos h1.2.1 h1.2.2, by simp only; omega, by simp⟩
    | snoc s2 s3 as a es es' _ hs ih => exact Pp.step_own (ih (fun b hb' => ha b (List.mem_append_left _ hb'))) (ha a (by simp)) hs
  cases key with
  | inl h => exact ⟨fun _ => h.2.2.1, fun hc => absurd hc h.2.2.2, by have := h.1; omega⟩
  | inr h => exact ⟨fun hc => absurd h.2.2.2 hc, fun _ => ⟨h.2.2.1, h.1⟩, h.2.1⟩

theorem C81_own_demo : ∃ s1 s' es, Pp.init.step (.start 2 4) = some (s1, [.began 2 4]) ∧ Pp.Run s1 [.server 4, .client 3, .client 1, .server 2, .server 2, .client 1, .client 3] s' es ∧
    PpEv.completed ∈ es ∧ s'.recv = 8 ∧ s'.up + s'.down = 1 :=
  ⟨_, _, _, rfl, Pp.exec_run rfl, by decide, by decide, by decide⟩

/-- **C81 is false** of tests in a row: what is left of one test is counted by the next one. Tests of one round of two bytes, each of which was reported: after n of them n bytes are on their way. -/
theorem C81_fails_leftover (n : Nat) : ∃ as s es, Pp.Run Pp.init as s es ∧ es.count .completed = n ∧ (∀ num len, .began num len ∈ es → num = 1 ∧ len = 2) ∧ s.total = 0 ∧ s.up + s.down = n := by
  induction n with
  | zero => exact ⟨[], _, [], .nil _, rfl, by simp, rfl, rfl⟩
  | succ n ih =>
    obtain ⟨as, s, es, hr, hc, hb, ht, hf⟩ := ih
    obtain ⟨total, recv, up, down⟩ := s
    simp only at ht hf
    subst ht
    have h2 : Pp.exec ⟨0, recv, up, down⟩ [.start 1 2, .server (up + 2), .client 1, .client 1] = some (⟨0, 2, 1, down + up⟩, [.began 1 2, .got 1, .got 1, .completed]) := by
      have h1 : 1 ≤ down + (up + 2) := by omega
      simp [Pp.exec, Pp.step, h1, show 1 ≤ down + (up + 1) by omega]
    refine ⟨_, _, _, hr.trans (Pp.exec_run h2), ?_, ?_, rfl, by simp only; omega⟩
    · rw [List.count_append, hc]; rfl
    · intro num len h
      cases List.mem_append.mp h with
      | inl h => exact hb _ _ h
      | inr h => simp at h; exact h

end StAsio
