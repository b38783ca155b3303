import Verif.Lemmas.UdpSend
set_option autoImplicit false
namespace StAsio

/-- Actions the library and the kernel perform on their own while congestion control lets messages pass: sends may fail, but the
socket stays valid. -/
def UAct.Internal : UAct → Prop
  | .loadReady | .loadFlag | .runPosted | .strand true _ | .timerCC | .resumeCheck | .complete _ true _ | .complete _ false false | .handler _ => True
  | _ => False

def Ux.pcWork (s : Ux) : Nat :=
  match s.pc with
  | .idle => 0
  | .errClear => 1
  | .test => if s.q.items.isEmpty then 5 else 3
  | .cc => if s.q.items.isEmpty then 4 else 2
  | .move => if s.q.items.isEmpty then 3 else 1
  | .clear => if s.q.items.isEmpty then 2 else 5
  | .check => if s.q.items.isEmpty then 1 else 4

/-- Upper bound of the number of internal actions possible. -/
def Ux.work (s : Ux) : Nat :=
  10 * s.ccTimer.toNat + 9 * s.atEmpty + 8 * s.atReady + 7 * s.atFlag + 6 * s.posted + s.pcWork + 7 * s.writes.length + 6 * s.dones.length + 10 * s.q.items.length

theorem Ux.step_work {conn : Bool} {s s' : Ux} {a : UAct} {es : List UEv} (ha : a.Internal)
    (hs : s.step conn a = some (s', es)) : s'.work < s.work := by
  cases a with
  | loadReady =>
    simp only [Ux.step] at hs
    split at hs
    · cases hs
    · cases hs
      simp only [Ux.work, Ux.pcWork]
      split <;> omega
  | loadFlag =>
    simp only [Ux.step] at hs
    split at hs
    · cases hs
    · cases hs
      simp only [Ux.work, Ux.pcWork]
      split <;> omega
  | runPosted =>
    simp only [Ux.step] at hs
    split at hs
    · cases hs
    · rename_i hc
      cases hs
      have hpc : s.pc = .idle := by
        cases hpc : s.pc <;> first | rfl | exact absurd (Or.inr (by simp [hpc])) hc
      have : s.posted ≠ 0 := fun h0 => hc (Or.inl h0)
      simp only [Ux.work, Ux.pcWork, hpc]
      split <;> omega
  | strand ccOk custom =>
    cases ccOk with
    | false => exact absurd ha (by simp [UAct.Internal])
    | true =>
      simp only [Ux.step, Ux.strand] at hs
      cases hpc : s.pc with
      | idle => rw [hpc] at hs; cases hs
      | test =>
        rw [hpc] at hs
        simp only at hs
        split at hs
        · cases hs; simp only [Ux.work, Ux.pcWork, hpc]; split <;> omega
        · cases hs; simp only [Ux.work, Ux.pcWork, hpc]; split <;> omega
      | cc =>
        rw [hpc] at hs
        simp at hs
        obtain ⟨rfl, rfl⟩ := hs
        simp only [Ux.work, Ux.pcWork, hpc]; split <;> omega
      | move =>
        rw [hpc] at hs
        cases hi : s.q.items with
        | nil =>
          simp [Q.tryDequeue, hi] at hs
          obtain ⟨rfl, rfl⟩ := hs
          simp [Ux.work, Ux.pcWork, hpc, hi]
        | cons m l =>
          simp only [Q.tryDequeue, hi] at hs
          split at hs
          · cases hs; simp [Ux.work, Ux.pcWork, hpc, hi]; omega
          · cases hs; simp [Ux.work, Ux.pcWork, hpc, hi]; omega
      | clear => rw [hpc] at hs; simp only at hs; cases hs; simp only [Ux.work, Ux.pcWork, hpc]; split <;> omega
      | check =>
        rw [hpc] at hs; simp only at hs; cases hs
        simp only [Ux.work, Ux.pcWork, hpc]
        by_cases hq : s.q.items.isEmpty = true
        · simp only [hq, if_true]; omega
        · simp only [hq]; simp
      | errClear => rw [hpc] at hs; simp only at hs; cases hs; simp only [Ux.work, Ux.pcWork, hpc]; omega
  | timerCC =>
    simp only [Ux.step] at hs
    split at hs
    · rename_i hc
      cases hs
      simp only [Ux.work, Ux.pcWork, hc]
      simp only [Bool.toNat_true, Bool.toNat_false]
      omega
    · cases hs
  | resumeCheck =>
    simp only [Ux.step] at hs
    split at hs
    · cases hs
    · cases hs
      simp only [Ux.work, Ux.pcWork]
      split <;> omega
  | complete i ok fatal =>
    simp only [Ux.step] at hs
    cases hw : s.writes[i]? with
    | none => simp [hw] at hs
    | some m =>
      simp only [hw, Option.bind_eq_bind, Option.bind_some] at hs
      cases hs
      have hlt : i < s.writes.length := by
        rcases Nat.lt_or_ge i s.writes.length with h1 | h1
        · exact h1
        · rw [List.getElem?_eq_none h1] at hw; cases hw
      simp only [Ux.work, Ux.pcWork, List.length_eraseIdx, hlt, if_true, List.length_append, List.length_cons, List.length_nil]
      omega
  | handler i =>
    simp only [Ux.step] at hs
    cases hd : s.dones[i]? with
    | none => simp [hd] at hs
    | some d =>
      simp only [hd, Option.bind_eq_bind, Option.bind_some] at hs
      split at hs
      · cases hs
      · rename_i hc
        have hpc : s.pc = .idle := by
          cases hpc : s.pc <;> first | rfl | exact absurd (by simp [hpc]) hc
        have hlt : i < s.dones.length := by
          rcases Nat.lt_or_ge i s.dones.length with h1 | h1
          · exact h1
          · rw [List.getElem?_eq_none h1] at hd; cases hd
        simp only [Option.some.injEq] at hs
        unfold Ux.handler at hs
        simp only at hs
        split at hs
        · cases hs
          simp only [Ux.work, Ux.pcWork, hpc, List.length_eraseIdx, hlt, if_true]
          omega
        · split at hs
          · cases hs
            simp only [Ux.work, Ux.pcWork, hpc, List.length_eraseIdx, hlt, if_true]
            split <;> omega
          · cases hs
            simp only [Ux.work, Ux.pcWork, hpc, List.length_eraseIdx, hlt, if_true]
            cases d.fatal <;> simp only [if_true, Bool.false_eq_true, if_false] <;> (try split) <;> omega
  | send m prior fits => exact absurd ha (by simp [UAct.Internal])
  | timerLost => exact absurd ha (by simp [UAct.Internal])
  | pop => exact absurd ha (by simp [UAct.Internal])
  | popAll => exact absurd ha (by simp [UAct.Internal])
  | shrink n => exact absurd ha (by simp [UAct.Internal])
  | linkUp => exact absurd ha (by simp [UAct.Internal])
  | onClose => exact absurd ha (by simp [UAct.Internal])
  | reset => exact absurd ha (by simp [UAct.Internal])

theorem Ux.run_work {conn : Bool} {s s' : Ux} {as : List UAct} {es : List UEv} (hr : Ux.Run conn s as s' es)
    (ha : ∀ a ∈ as, a.Internal) : as.length + s'.work ≤ s.work := by
  induction hr with
  | nil => simp
  | snoc s1 s2 as a es es' hr hs ih =>
    have h1 := ih (fun x hx => ha x (by simp [hx]))
    have h2 := Ux.step_work (ha a (by simp)) hs
    simp only [List.length_append, List.length_cons, List.length_nil]
    omega

/-- All threads, timers and the strand are idle, nothing is outstanding. -/
def Ux.Quiet (s : Ux) : Prop :=
  s.posted = 0 ∧ s.pc = .idle ∧ s.writes = [] ∧ s.dones = [] ∧ s.atReady = 0 ∧ s.atFlag = 0 ∧ s.atEmpty = 0 ∧ s.ccTimer = false

theorem Ux.progress (conn : Bool) (s : Ux) (h : ¬ s.Quiet) : ∃ a s' es, UAct.Internal a ∧ s.step conn a = some (s', es) := by
  by_cases h1 : s.atReady = 0
  · by_cases h2 : s.atFlag = 0
    · by_cases h4 : s.atEmpty = 0
      · by_cases h5 : s.ccTimer = true
        · exact ⟨.timerCC, _, _, trivial, by simp only [Ux.step]; rw [if_pos h5]⟩
        · have h5 : s.ccTimer = false := by simpa using h5
          by_cases hpc : s.pc = .idle
          · by_cases h3 : s.posted = 0
            · cases hd : s.dones with
              | cons d l => exact ⟨.handler 0, _, _, trivial, by simp only [Ux.step, hd, List.getElem?_cons_zero, Option.bind_eq_bind, Option.bind_some]; rw [if_neg (by simp [hpc])]⟩
              | nil =>
                cases hw : s.writes with
                | nil => exact absurd ⟨h3, hpc, hw, hd, h1, h2, h4, h5⟩ h
                | cons w l => exact ⟨.complete 0 true false, _, _, trivial, by simp only [Ux.step, hw, List.getElem?_cons_zero, Option.bind_eq_bind, Option.bind_some]; rfl⟩
            · exact ⟨.runPosted, _, _, trivial, by simp only [Ux.step]; rw [if_neg (by simp [h3, hpc])]⟩
          · refine ⟨.strand true false, ?_⟩
            cases hp : s.pc with
            | idle => exact absurd hp hpc
            | test =>
              cases hse : s.sending
              · exact ⟨_, _, trivial, by simp only [Ux.step, Ux.strand, hp, hse]; rfl⟩
              · exact ⟨_, _, trivial, by simp only [Ux.step, Ux.strand, hp, hse]; rfl⟩
            | cc => exact ⟨_, _, trivial, by simp only [Ux.step, Ux.strand, hp, Bool.not_true, Bool.and_false]; rfl⟩
            | move =>
              cases hi : s.q.items with
              | nil => exact ⟨_, _, trivial, by simp only [Ux.step, Ux.strand, hp, Q.tryDequeue, hi]; rfl⟩
              | cons m l => exact ⟨_, _, trivial, by simp only [Ux.step, Ux.strand, hp, Q.tryDequeue, hi, Bool.and_false]; rfl⟩
            | clear => exact ⟨_, _, trivial, by simp only [Ux.step, Ux.strand, hp]; rfl⟩
            | check => exact ⟨_, _, trivial, by simp only [Ux.step, Ux.strand, hp]; rfl⟩
            | errClear => exact ⟨_, _, trivial, by simp only [Ux.step, Ux.strand, hp]; rfl⟩
      · exact ⟨.resumeCheck, _, _, trivial, by simp only [Ux.step]; rw [if_neg h4]⟩
    · exact ⟨.loadFlag, _, _, trivial, by simp only [Ux.step]; rw [if_neg h2]⟩
  · exact ⟨.loadReady, _, _, trivial, by simp only [Ux.step]; rw [if_neg h1]⟩

theorem Ux.run_trans {conn : Bool} {s s1 s2 : Ux} {as bs : List UAct} {es fs : List UEv} (h1 : Ux.Run conn s as s1 es) (h2 : Ux.Run conn s1 bs s2 fs) :
    Ux.Run conn s (as ++ bs) s2 (es ++ fs) := by
  induction h2 with
  | nil => simpa using h1
  | snoc s2 s3 bs a fs fs' _ hs ih =>
    rw [← List.append_assoc, ← List.append_assoc]
    exact Ux.Run.snoc _ _ _ _ _ _ _ ih hs

theorem Ux.run_one {conn : Bool} {s s1 : Ux} {a : UAct} {es : List UEv} (h : s.step conn a = some (s1, es)) : Ux.Run conn s [a] s1 es := by
  have := Ux.Run.snoc _ _ _ _ _ _ _ (Ux.Run.nil (conn := conn) s) h
  simpa using this

theorem Ux.drain (conn : Bool) : ∀ (n : Nat) (s : Ux), s.work ≤ n →
    ∃ as s' es, Ux.Run conn s as s' es ∧ (∀ a ∈ as, UAct.Internal a) ∧ s'.Quiet := by
  intro n
  induction n with
  | zero =>
    intro s hw
    by_cases hq : s.Quiet
    · exact ⟨[], s, [], Ux.Run.nil s, by simp, hq⟩
    · obtain ⟨a, s', es, ha, hs⟩ := Ux.progress conn s hq
      have := Ux.step_work ha hs
      omega
  | succ n ih =>
    intro s hw
    by_cases hq : s.Quiet
    · exact ⟨[], s, [], Ux.Run.nil s, by simp, hq⟩
    · obtain ⟨a, s', es, ha, hs⟩ := Ux.progress conn s hq
      have h1 := Ux.step_work ha hs
      obtain ⟨as, s2, fs, r, hia, hq2⟩ := ih s' (by omega)
      refine ⟨[a] ++ as, s2, es ++ fs, Ux.run_trans (Ux.run_one hs) r, ?_, hq2⟩
      intro b hb
      simp at hb
      rcases hb with rfl | hb
      · exact ha
      · exact hia b hb

theorem Ux.exec_run {conn : Bool} {s s' : Ux} {as : List UAct} {es : List UEv} (h : Ux.exec conn s as = some (s', es)) : Ux.Run conn s as s' es := by
  induction as generalizing s es with
  | nil => simp [Ux.exec] at h; obtain ⟨rfl, rfl⟩ := h; exact Ux.Run.nil _
  | cons a as ih =>
    simp only [Ux.exec, Option.bind_eq_bind] at h
    rw [Option.bind_eq_some_iff] at h
    obtain ⟨⟨s1, e1⟩, h1, h2⟩ := h
    rw [Option.bind_eq_some_iff] at h2
    obtain ⟨⟨s2, e2⟩, h2, h3⟩ := h2
    simp at h3
    obtain ⟨rfl, rfl⟩ := h3
    exact Ux.run_trans (Ux.run_one h1) (ih h2)

theorem Ux.internal_step {conn : Bool} {s s' : Ux} {a : UAct} {es : List UEv} (ha : UAct.Internal a) (hs : s.step conn a = some (s', es)) :
    s'.ready = s.ready ∧ s'.stopped = s.stopped ∧ uAccepted es = [] ∧ uFatal false a = false := by
  cases a with
  | loadReady =>
    simp only [Ux.step] at hs
    split at hs
    · cases hs
    · cases hs; exact ⟨rfl, rfl, rfl, rfl⟩
  | loadFlag =>
    simp only [Ux.step] at hs
    split at hs
    · cases hs
    · cases hs; exact ⟨rfl, rfl, rfl, rfl⟩
  | runPosted =>
    simp only [Ux.step] at hs
    split at hs
    · cases hs
    · cases hs; exact ⟨rfl, rfl, rfl, rfl⟩
  | strand c d =>
    simp only [Ux.step, Ux.strand] at hs
    cases hpc : s.pc with
    | idle => rw [hpc] at hs; cases hs
    | test => rw [hpc] at hs; simp only at hs; split at hs <;> (cases hs; exact ⟨rfl, rfl, rfl, rfl⟩)
    | cc => rw [hpc] at hs; simp only at hs; split at hs <;> (cases hs; exact ⟨rfl, rfl, rfl, rfl⟩)
    | move =>
      rw [hpc] at hs; simp only at hs
      split at hs
      · cases hs; exact ⟨rfl, rfl, rfl, rfl⟩
      · split at hs <;> (cases hs; exact ⟨rfl, rfl, rfl, rfl⟩)
    | clear => rw [hpc] at hs; simp only at hs; cases hs; exact ⟨rfl, rfl, rfl, rfl⟩
    | check => rw [hpc] at hs; simp only at hs; cases hs; exact ⟨rfl, rfl, rfl, rfl⟩
    | errClear => rw [hpc] at hs; simp only at hs; cases hs; exact ⟨rfl, rfl, rfl, rfl⟩
  | timerCC =>
    simp only [Ux.step] at hs
    split at hs
    · cases hs; exact ⟨rfl, rfl, rfl, rfl⟩
    · cases hs
  | resumeCheck =>
    simp only [Ux.step] at hs
    split at hs
    · cases hs
    · cases hs; exact ⟨rfl, rfl, rfl, rfl⟩
  | complete i ok fatal =>
    simp only [Ux.step] at hs
    cases hw : s.writes[i]? with
    | none => simp [hw] at hs
    | some w =>
      simp only [hw, Option.bind_eq_bind, Option.bind_some] at hs
      cases hs
      refine ⟨rfl, rfl, rfl, ?_⟩
      cases ok <;> cases fatal <;> first | rfl | exact absurd ha (by simp [UAct.Internal])
  | handler i =>
    simp only [Ux.step] at hs
    cases hd : s.dones[i]? with
    | none => simp [hd] at hs
    | some d =>
      simp only [hd, Option.bind_eq_bind, Option.bind_some] at hs
      split at hs
      · cases hs
      · simp only [Option.some.injEq] at hs
        unfold Ux.handler at hs
        simp only at hs
        split at hs
        · cases hs; exact ⟨rfl, rfl, rfl, rfl⟩
        · split at hs <;> (cases hs; exact ⟨rfl, rfl, by rw [uAccepted_append, (uOther_promise _ _).2.1]; rfl, rfl⟩)
  | send m prior fits => exact absurd ha (by simp [UAct.Internal])
  | timerLost => exact absurd ha (by simp [UAct.Internal])
  | pop => exact absurd ha (by simp [UAct.Internal])
  | popAll => exact absurd ha (by simp [UAct.Internal])
  | shrink n => exact absurd ha (by simp [UAct.Internal])
  | linkUp => exact absurd ha (by simp [UAct.Internal])
  | onClose => exact absurd ha (by simp [UAct.Internal])
  | reset => exact absurd ha (by simp [UAct.Internal])

theorem Ux.internal_run {conn : Bool} {s s' : Ux} {as : List UAct} {es : List UEv} (hr : Ux.Run conn s as s' es) (ha : ∀ a ∈ as, UAct.Internal a) :
    s'.ready = s.ready ∧ s'.stopped = s.stopped ∧ uAccepted es = [] ∧ as.foldl uFatal false = false := by
  induction hr with
  | nil => exact ⟨rfl, rfl, rfl, rfl⟩
  | snoc s1 s2 as a es es' hr hs ih =>
    have ih := ih (fun x hx => ha x (by simp [hx]))
    have h1 := Ux.internal_step (ha a (by simp)) hs
    refine ⟨h1.1.trans ih.1, h1.2.1.trans ih.2.1, ?_, ?_⟩
    · rw [uAccepted_append, ih.2.2.1, h1.2.2.1]; rfl
    · rw [List.foldl_append, ih.2.2.2]; exact h1.2.2.2

end StAsio
