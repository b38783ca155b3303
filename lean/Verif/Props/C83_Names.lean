import Verif.Model.Names
/-!
C83: links that are managed by name (socket_management).
-/
set_option autoImplicit false
namespace StAsio

/-- **C83** (own): in every history, whatever is told or shut down by name is the link added last under this name, never another one. -/
theorem C83_own_partial {as : List NmAct} {s : Nm} {es : List NmEv} (hr : Nm.Run Nm.free as s es) : NmEv.own es := by
  suffices h : NmEv.own es ∧ ∀ n k, s.map n = some k → NmEv.latest n es = some k from h.1
  induction hr with
  | nil => exact ⟨trivial, fun n k h => by cases h⟩
  | snoc s1 s2 as a es es' _ _ hs ih =>
    obtain ⟨ho, hm⟩ := ih
    cases a <;> simp only [Nm.step] at hs <;> (repeat' split at hs) <;> (try cases hs) <;> simp only [List.cons_append, List.nil_append, NmEv.own, NmEv.latest, nmSet] <;> grind

/-- State and history agree, and a link that is not gone is the one of its name, if there is one. -/
def Nm.Agree (s : Nm) (es : List NmEv) : Prop :=
  (∀ n, NmEv.current n es = s.map n) ∧ (∀ n k, s.map n = some k → s.name k = n) ∧ (∀ n k, s.map n = some k → k < s.next) ∧
  (∀ k, k < s.next → s.phase k ≠ .gone → s.map (s.name k) = some k ∨ s.map (s.name k) = none) ∧ (∀ k, s.next ≤ k → s.phase k = .none)

theorem Nm.step_agree {s s' : Nm} {a : NmAct} {es es' : List NmEv} (h : s.Agree es) (hp : s.patient a = true) (hs : s.step a = some (s', es')) (hr : NmEv.right es) : s'.Agree (es' ++ es) ∧ NmEv.right (es' ++ es) := by
  obtain ⟨h1, h2, h3, h4, h5⟩ := h
  cases a with
  | add n ok =>
    simp only [Nm.step] at hs
    split at hs
    · cases hs
      refine ⟨⟨?_, h2, h3, h4, h5⟩, ?_⟩
      · intro m; simp [NmEv.current, h1]
      · simp only [List.cons_append, List.nil_append, NmEv.right]; grind
    · split at hs
      · cases hs
        simp only [Nm.patient, List.all_eq_true, List.mem_range] at hp
        refine ⟨⟨?_, ?_, ?_, ?_, ?_⟩, ?_⟩
        · intro m; simp [NmEv.current, h1, nmSet, eq_comm]
        · intro m k; simp only [nmSet]; grind
        · intro m k; simp only [nmSet]; grind
        · intro k hk hg
          simp only [nmSet] at *
          have := hp k
          grind
        · intro k hk; simp only [nmSet] at *; grind
        · rename_i hn _
          refine ⟨hr, ?_⟩
          show NmEv.current n es = none
          rw [h1]; cases h7 : s.map n <;> simp_all
      · cases hs; exact ⟨⟨h1, h2, h3, h4, h5⟩, hr⟩
  | del n =>
    simp only [Nm.step] at hs
    split at hs <;> cases hs
    · refine ⟨⟨?_, ?_, ?_, ?_, h5⟩, ?_⟩
      · intro m; simp [NmEv.current, h1, nmSet, eq_comm]
      · intro m k; simp only [nmSet]; grind
      · intro m k; simp only [nmSet]; grind
      · intro k hk hg; simp only [nmSet] at *; have := h4 k hk hg; grind
      · simp only [List.cons_append, List.nil_append, NmEv.right]; grind
    · refine ⟨⟨?_, h2, h3, h4, h5⟩, ?_⟩
      · intro m; simp [NmEv.current, h1]
      · simp only [List.cons_append, List.nil_append, NmEv.right]; grind
  | send n =>
    simp only [Nm.step] at hs
    split at hs <;> cases hs <;> refine ⟨⟨?_, h2, h3, h4, h5⟩, ?_⟩
    · intro m; simp [NmEv.current, h1]
    · simp only [List.cons_append, List.nil_append, NmEv.right]; grind
    · intro m; simp [NmEv.current, h1]
    · simp only [List.cons_append, List.nil_append, NmEv.right]; grind
  | connect k =>
    simp only [Nm.step] at hs
    split at hs <;> cases hs
    refine ⟨⟨h1, h2, h3, ?_, ?_⟩, hr⟩
    · intro j hj hg; simp only [nmSet] at *; have := h4 j hj; grind
    · intro j hj; simp only [nmSet] at *; have := h5 j hj; grind
  | connectFail k =>
    simp only [Nm.step] at hs
    split at hs <;> cases hs
    simp only [Nm.patient] at hp
    refine ⟨⟨?_, h2, h3, ?_, ?_⟩, ?_⟩
    · intro m; simp only [List.cons_append, List.nil_append, NmEv.current, h1]; grind
    · intro j hj hg; simp only [nmSet] at *; have := h4 j hj; grind
    · intro j hj; simp only [nmSet] at *; have := h5 j hj; grind
    · exact ⟨hr, trivial⟩
  | recvError k =>
    simp only [Nm.step] at hs
    split at hs <;> cases hs
    have hk : k < s.next := by
      false_or_by_contra
      have := h5 k (by omega); grind
    have h6 := h4 k hk (by grind)
    refine ⟨⟨?_, ?_, ?_, ?_, ?_⟩, ?_⟩
    · intro m; simp only [List.cons_append, List.nil_append, NmEv.current, h1, nmSet]; grind
    · intro m j; simp only [nmSet]; grind
    · intro m j; simp only [nmSet]; grind
    · intro j hj hg; simp only [nmSet] at *; have := h4 j hj; grind
    · intro j hj; simp only [nmSet] at *; have := h5 j hj; grind
    · exact ⟨hr, trivial⟩

/-- **C83** (right), if connecting succeeds and a name is used again only when the links that had it are gone: every answer is about the link the name stands for. -/
theorem C83_right_partial {as : List NmAct} {s : Nm} {es : List NmEv} (hr : Nm.Run Nm.patient as s es) : NmEv.right es ∧ ∀ n, NmEv.current n es = s.map n := by
  have key : s.Agree es ∧ NmEv.right es := by
    induction hr with
    | nil => exact ⟨⟨fun n => rfl, fun n k h => (by cases h), fun n k h => (by cases h), fun k hk => absurd hk (Nat.not_lt_zero _), fun k _ => rfl⟩, trivial⟩
    | snoc s1 s2 as a es es' _ hp hs ih => exact Nm.step_agree ih.1 hp hs ih.2
  exact ⟨key.2, key.1.1⟩

def Nm.run (p : Nm → NmAct → Bool) : List NmAct → Nm × List NmEv → Option (Nm × List NmEv)
  | [], r => some r
  | a :: as, r => if p r.1 a then (r.1.step a).bind fun q => Nm.run p as (q.1, q.2 ++ r.2) else none

theorem Nm.run_run {p : Nm → NmAct → Bool} {as bs : List NmAct} {r q : Nm × List NmEv} (h0 : Nm.Run p bs r.1 r.2) (h : Nm.run p as r = some q) : Nm.Run p (bs ++ as) q.1 q.2 := by
  induction as generalizing r bs with
  | nil => simp only [Nm.run, Option.some.injEq] at h; subst h; simpa using h0
  | cons a as ih =>
    simp only [Nm.run] at h
    split at h
    · rename_i hp
      cases hs : r.1.step a with
      | none => simp [hs] at h
      | some t =>
        simp only [hs, Option.bind_some] at h
        have := ih (r := (t.1, t.2 ++ r.2)) (Nm.Run.snoc _ _ _ _ _ _ h0 hp hs) h
        simpa using this
    · cases h

theorem C83_right_demo : ∃ s es, Nm.Run Nm.patient [.add 7 true, .connect 0, .send 7, .del 7, .recvError 0, .send 7, .add 7 true, .add 7 true, .send 7] s es ∧
    es = [.told 7 1, .exists_ 7, .added 7 1, .toldNone 7, .ended 0, .deleted 7 0, .told 7 0, .added 7 0] :=
  by
  obtain ⟨q, h1, h2⟩ : ∃ q, Nm.run Nm.patient [.add 7 true, .connect 0, .send 7, .del 7, .recvError 0, .send 7, .add 7 true, .add 7 true, .send 7] (Nm.init, []) = some q ∧ q.2 = [.told 7 1, .exists_ 7, .added 7 1, .toldNone 7, .ended 0, .deleted 7 0, .told 7 0, .added 7 0] := ⟨_, rfl, rfl⟩
  exact ⟨_, _, Nm.run_run (bs := []) .nil h1, h2⟩

/-- **C83 is false**: on_recv_error of a link that was shut down by name removes the entry of its name, even if the entry is another link's by now. That link is connected, but it can be neither told anything nor shut down by name,
and a third one can be added under its name. -/
theorem C83_fails_again : ∃ s es, Nm.Run Nm.free [.add 7 true, .connect 0, .del 7, .add 7 true, .connect 1, .recvError 0, .send 7, .del 7, .add 7 true] s es ∧
    es = [.added 7 2, .deletedNone 7, .toldNone 7, .ended 0, .added 7 1, .deleted 7 0, .added 7 0] ∧ s.phase 1 = .up ∧ ¬ NmEv.right es :=
  by
  obtain ⟨q, h1, h2, h3⟩ : ∃ q, Nm.run Nm.free [.add 7 true, .connect 0, .del 7, .add 7 true, .connect 1, .recvError 0, .send 7, .del 7, .add 7 true] (Nm.init, []) = some q ∧ q.2 = [.added 7 2, .deletedNone 7, .toldNone 7, .ended 0, .added 7 1, .deleted 7 0, .added 7 0] ∧ q.1.phase 1 = .up := ⟨_, rfl, rfl, rfl⟩
  exact ⟨_, _, Nm.run_run (bs := []) .nil h1, h2, h3, by rw [h2]; simp [NmEv.right, NmEv.current, Nm.init]⟩

/-- **C83 is false**: the entry of a link that could not be connected stays: messages are given to it, and its name cannot be used again. -/
theorem C83_fails_unconnected : ∃ s es, Nm.Run Nm.free [.add 7 true, .connectFail 0, .send 7, .add 7 true] s es ∧
    es = [.exists_ 7, .told 7 0, .ended 0, .added 7 0] ∧ s.phase 0 = .gone ∧ ¬ NmEv.right es :=
  by
  obtain ⟨q, h1, h2, h3⟩ : ∃ q, Nm.run Nm.free [.add 7 true, .connectFail 0, .send 7, .add 7 true] (Nm.init, []) = some q ∧ q.2 = [.exists_ 7, .told 7 0, .ended 0, .added 7 0] ∧ q.1.phase 0 = .gone := ⟨_, rfl, rfl, rfl⟩
  exact ⟨_, _, Nm.run_run (bs := []) .nil h1, h2, h3, by rw [h2]; simp [NmEv.right, NmEv.current, Nm.init]⟩

end StAsio
