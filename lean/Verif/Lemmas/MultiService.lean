import Verif.Model.MultiService
/-!
Lemmas about services with many sockets.
-/
set_option linter.unusedSimpArgs false
set_option autoImplicit false
namespace StAsio

theorem IdealSk.monitor_append (i : IdealSk) (xs ys : List SkEv) : IdealSk.monitor i (xs ++ ys) = (IdealSk.monitor i xs).bind (fun j => IdealSk.monitor j ys) := by
  induction xs generalizing i with
  | nil => rfl
  | cons e xs ih =>
    simp only [List.cons_append, IdealSk.monitor]
    cases h : i.event e with
    | none => rfl
    | some j => simp only [Option.bind_some]; exact ih j

theorem Ms.exec_run {guard : Bool} {s : Ms} {as : List MsAct} {t : Ms} {es : List SkEv} (h : Ms.exec guard s as = some (t, es)) : Ms.Run guard s as t es := by
  have aux : ∀ (bs : List MsAct) (u : Ms) (xs : List SkEv), Ms.Run guard s bs u xs → ∀ (as : List MsAct) (t : Ms) (es : List SkEv), Ms.exec guard u as = some (t, es) → Ms.Run guard s (bs ++ as) t (xs ++ es) := by
    intro bs u xs hr as
    induction as generalizing bs u xs with
    | nil =>
      intro t es he
      simp only [Ms.exec, Option.some.injEq, Prod.mk.injEq] at he
      obtain ⟨rfl, rfl⟩ := he
      simpa using hr
    | cons a as ih =>
      intro t es he
      simp only [Ms.exec] at he
      cases hs : u.step guard a with
      | none => rw [hs] at he; simp at he
      | some p =>
        obtain ⟨v, ys⟩ := p
        rw [hs] at he
        cases hx : Ms.exec guard v as with
        | none => simp [hx] at he
        | some q =>
          obtain ⟨w, zs⟩ := q
          simp [hx] at he
          obtain ⟨rfl, rfl⟩ := he
          have := ih (bs ++ [a]) v (xs ++ ys) (.snoc _ _ _ _ _ _ _ hr hs) w zs hx
          simpa [List.append_assoc] using this
  simpa using aux [] s [] (.nil s) as t es h

theorem Ms.run_append {guard : Bool} {s t u : Ms} {as bs : List MsAct} {xs ys : List SkEv} (h : Ms.Run guard s as t xs) (h2 : Ms.Run guard t bs u ys) : Ms.Run guard s (as ++ bs) u (xs ++ ys) := by
  induction h2 with
  | nil => simpa using h
  | snoc t1 t2 bs b ys zs hr hs ih =>
    have := Ms.Run.snoc _ _ _ _ _ _ _ ih hs
    simpa [List.append_assoc] using this

/-- What start() changes. -/
theorem Ms.start_only (s : Ms) (k : Nat) (ok : Bool) : (s.start k ok).1 = { s with live := (s.start k ok).1.live } := by
  unfold Ms.start; split
  · rfl
  · split
    · rfl
    · split <;> rfl

theorem Ms.startAll_only (fail : List Nat) (ks : List Nat) (s : Ms) : (Ms.startAll fail s ks).1 = { s with live := (Ms.startAll fail s ks).1.live } := by
  induction ks generalizing s with
  | nil => rfl
  | cons k ks ih =>
    simp only [Ms.startAll]
    rw [ih]
    have := Ms.start_only s k (!fail.contains k)
    generalize hr : s.start k (!fail.contains k) = r at this
    rw [this]

theorem Ms.start_live (s : Ms) (k : Nat) (ok : Bool) (j : Nat) : j ∈ (s.start k ok).1.live ↔ j ∈ s.live ∨ (j = k ∧ ok = true ∧ s.ioStopped = false) := by
  unfold Ms.start
  split
  · rename_i h; simp [h]
  · rename_i h
    split
    · rename_i h2
      simp only
      constructor
      · exact Or.inl
      · rintro (h3 | ⟨rfl, _⟩)
        · exact h3
        · exact h2
    · split
      · rename_i h3; simp [h3, h]; exact or_comm
      · rename_i h3; simp [h3]

theorem Ms.startAll_live (fail : List Nat) (ks : List Nat) (s : Ms) (j : Nat) : j ∈ (Ms.startAll fail s ks).1.live ↔ j ∈ s.live ∨ (j ∈ ks ∧ j ∉ fail ∧ s.ioStopped = false) := by
  induction ks generalizing s with
  | nil => simp [Ms.startAll]
  | cons k ks ih =>
    simp only [Ms.startAll]
    rw [ih, Ms.start_live]
    have h1 : (s.start k (!fail.contains k)).1.ioStopped = s.ioStopped := by rw [Ms.start_only]
    rw [h1]
    simp only [List.mem_cons]
    constructor
    · rintro ((h | ⟨rfl, h2, h3⟩) | ⟨h1, h2, h3⟩)
      · exact Or.inl h
      · refine Or.inr ⟨Or.inl rfl, ?_, h3⟩
        simpa using h2
      · exact Or.inr ⟨Or.inr h1, h2, h3⟩
    · rintro (h | ⟨rfl | h, h2, h3⟩)
      · exact Or.inl (Or.inl h)
      · refine Or.inl (Or.inr ⟨rfl, ?_, h3⟩)
        simpa using h2
      · exact Or.inr ⟨h, h2, h3⟩

/-- The state of the ideal observer. -/
structure Ms.See (s : Ms) (i : IdealSk) : Prop where
  on : i.on = s.live
  known : ∀ k, k ∈ i.known ↔ k < s.n

theorem Ms.see_start {s : Ms} {i : IdealSk} (h : s.See i) (k : Nat) (ok : Bool) (hk : k < s.n) : ∃ j, IdealSk.monitor i (s.start k ok).2 = some j ∧ (s.start k ok).1.See j := by
  obtain ⟨on, kn⟩ := i
  obtain ⟨h1, h2⟩ := h
  simp only at h1 h2
  subst h1
  have h3 := (h2 k).mpr hk
  unfold Ms.start
  split
  · exact ⟨_, rfl, rfl, h2⟩
  · split
    · refine ⟨⟨on, s.live⟩, ?_, rfl, h2⟩
      simp [IdealSk.monitor, IdealSk.event, h3]
    · rename_i hl
      split
      · refine ⟨⟨on, k :: s.live⟩, ?_, rfl, h2⟩
        simp [IdealSk.monitor, IdealSk.event, h3, hl]
      · refine ⟨⟨on, s.live⟩, ?_, rfl, h2⟩
        simp [IdealSk.monitor, IdealSk.event, h3]

theorem Ms.see_startAll (fail : List Nat) (ks : List Nat) {s : Ms} {i : IdealSk} (h : s.See i) (hk : ∀ k ∈ ks, k < s.n) : ∃ j, IdealSk.monitor i (Ms.startAll fail s ks).2 = some j ∧ (Ms.startAll fail s ks).1.See j := by
  induction ks generalizing s i with
  | nil => exact ⟨i, rfl, h⟩
  | cons k ks ih =>
    obtain ⟨j, h1, h2⟩ := Ms.see_start h k (!fail.contains k) (hk k (List.mem_cons_self ..))
    have hn : (s.start k (!fail.contains k)).1.n = s.n := by rw [Ms.start_only]
    obtain ⟨j2, h3, h4⟩ := ih h2 (fun x hx => hn ▸ hk x (List.mem_cons_of_mem _ hx))
    refine ⟨j2, ?_, h4⟩
    simp only [Ms.startAll]
    rw [IdealSk.monitor_append, h1]
    exact h3

theorem IdealSk.monitor_shut (i : IdealSk) (ks : List Nat) (h : ∀ k ∈ ks, k ∈ i.on) : IdealSk.monitor i (ks.map SkEv.shut) = some i := by
  induction ks with
  | nil => rfl
  | cons k ks ih =>
    simp only [List.map_cons, IdealSk.monitor, IdealSk.event]
    rw [if_pos (h k (List.mem_cons_self ..))]
    exact ih (fun x hx => h x (List.mem_cons_of_mem _ hx))

theorem Ms.toShut_live (s : Ms) (k : Nat) (h : k ∈ s.toShut) : k ∈ s.live := by
  unfold Ms.toShut at h
  simp only [List.mem_filter, decide_eq_true_eq] at h
  exact h.2.1

structure Ms.Inv (s : Ms) : Prop where
  pool : ∀ k ∈ s.pool, k < s.n
  live : ∀ k ∈ s.live, k < s.n
  adders : ∀ k ∈ s.adders, k < s.n
  starters : ∀ k ∈ s.starters, k < s.n
  shut : ∀ k ∈ s.shut, k ∈ s.live
  stopped : s.ioStopped = true → s.live = []
  off : s.on = false → s.pc = .idle ∧ s.live = []
  fresh : s.on = false → s.ioStopped = false → s.starters = [] ∧ s.up = false
  final : s.pc = .final → s.ioStopped = true
  pcOn : s.pc ≠ .idle → s.on = true

theorem Ms.inv_init : Ms.init.Inv := by constructor <;> simp [Ms.init]

set_option maxHeartbeats 2000000 in
theorem Ms.inv_step {guard : Bool} {s t : Ms} {a : MsAct} {es : List SkEv} (h : s.Inv) (hs : s.step guard a = some (t, es)) : t.Inv := by
  obtain ⟨h1, h2, h3, h4, h5, h6, h7, h8, h9, h10⟩ := h
  cases a with
  | addStart k ok =>
    simp only [Ms.step] at hs
    split at hs
    · rename_i hk
      simp only [Option.some.injEq] at hs
      have hl := Ms.start_live { s with starters := s.starters.filter (· ≠ k) } k ok
      have ho := Ms.start_only { s with starters := s.starters.filter (· ≠ k) } k ok
      rw [hs] at hl ho
      simp only at hl ho
      generalize t.live = lv at hl ho
      subst ho
      have hne : s.starters ≠ [] := by intro hc; rw [hc] at hk; simp at hk
      have hkn := h4 k hk
      constructor <;> simp only at * <;> try grind
      · intro hst
        apply List.eq_nil_iff_forall_not_mem.mpr
        intro j hj
        have := (hl j).mp hj
        have hle := h6 hst
        grind
      · intro ho
        refine ⟨(h7 ho).1, ?_⟩
        have := h7 ho
        have := h8 ho
        apply List.eq_nil_iff_forall_not_mem.mpr
        intro j hj
        have := (hl j).mp hj
        grind
    · exact absurd hs (by simp)
  | initAll fail =>
    simp only [Ms.step] at hs
    split at hs
    · exact absurd hs (by simp)
    · rename_i hp
      split at hs
      · simp only [Option.some.injEq, Prod.mk.injEq] at hs
        obtain ⟨rfl, rfl⟩ := hs
        constructor <;> simp only at * <;> grind
      · simp only [Option.some.injEq, Prod.mk.injEq] at hs
        obtain ⟨rfl, rfl⟩ := hs
        have hl := Ms.startAll_live fail s.pool s
        rw [Ms.startAll_only]
        generalize (Ms.startAll fail s s.pool).1.live = lv at *
        constructor <;> simp only at * <;> try grind
        intro hst
        apply List.eq_nil_iff_forall_not_mem.mpr
        intro j hj
        have := (hl j).mp hj
        have hle := h6 hst
        grind
  | svcStart fail =>
    simp only [Ms.step] at hs
    split at hs
    · rename_i hp
      split at hs
      · simp only [Option.some.injEq, Prod.mk.injEq] at hs
        obtain ⟨rfl, rfl⟩ := hs
        constructor <;> grind
      · simp only [Option.some.injEq, Prod.mk.injEq] at hs
        obtain ⟨rfl, rfl⟩ := hs
        have hl := Ms.startAll_live fail s.pool s
        rw [Ms.startAll_only]
        generalize (Ms.startAll fail s s.pool).1.live = lv at *
        constructor <;> simp only at * <;> try grind
        intro hst
        apply List.eq_nil_iff_forall_not_mem.mpr
        intro j hj
        have := (hl j).mp hj
        have hle := h6 hst
        grind
    · exact absurd hs (by simp)
  | stop =>
    simp only [Ms.step] at hs
    have htl := Ms.toShut_live s
    split at hs
    · split at hs
      · simp only [Ms.shutAll, Option.some.injEq, Prod.mk.injEq] at hs
        obtain ⟨rfl, rfl⟩ := hs
        constructor <;> simp only at * <;> grind
      · simp only [Option.some.injEq, Prod.mk.injEq] at hs
        obtain ⟨rfl, rfl⟩ := hs
        constructor <;> simp only at * <;> grind
    · exact absurd hs (by simp)
  | svcStop =>
    simp only [Ms.step] at hs
    have htl := Ms.toShut_live s
    split at hs
    · simp only [Ms.shutAll, Option.some.injEq, Prod.mk.injEq] at hs
      obtain ⟨rfl, rfl⟩ := hs
      constructor <;> simp only at * <;> grind
    · exact absurd hs (by simp)
  | closed early k =>
    simp only [Ms.step] at hs
    split at hs
    · simp only [Option.some.injEq, Prod.mk.injEq] at hs
      obtain ⟨rfl, rfl⟩ := hs
      constructor <;> simp only [List.mem_filter] at * <;> grind
    · exact absurd hs (by simp)
  | _ =>
    simp only [Ms.step] at hs
    repeat' split at hs
    all_goals first
      | (simp only [reduceCtorEq] at hs; done)
      | (simp only [Option.some.injEq, Prod.mk.injEq] at hs
         obtain ⟨rfl, rfl⟩ := hs
         constructor <;> simp only [List.mem_filter, List.mem_cons] at * <;> grind)

theorem Ms.inv_run {guard : Bool} {s t : Ms} {as : List MsAct} {es : List SkEv} (hr : Ms.Run guard s as t es) (h : s.Inv) : t.Inv := by
  induction hr with
  | nil => exact h
  | snoc s1 s2 as a es es' _ hs ih => exact Ms.inv_step ih hs

theorem Ms.see_step {guard : Bool} {s t : Ms} {a : MsAct} {es : List SkEv} {i : IdealSk} (h : s.Inv) (hi : s.See i) (hs : s.step guard a = some (t, es)) : ∃ j, IdealSk.monitor i es = some j ∧ t.See j := by
  cases a with
  | add =>
    simp only [Ms.step, Option.some.injEq, Prod.mk.injEq] at hs
    obtain ⟨rfl, rfl⟩ := hs
    have hk : s.n ∉ i.known := by rw [hi.known]; omega
    refine ⟨{ i with known := s.n :: i.known }, by simp [IdealSk.monitor, IdealSk.event, hk], hi.on, ?_⟩
    intro k
    simp only [List.mem_cons, hi.known]
    omega
  | addStart k ok =>
    simp only [Ms.step] at hs
    split at hs
    · rename_i hk
      simp only [Option.some.injEq] at hs
      have h1 : Ms.See { s with starters := s.starters.filter (· ≠ k) } i := ⟨hi.on, hi.known⟩
      have := Ms.see_start h1 k ok (h.starters k hk)
      rw [hs] at this
      exact this
    · exact absurd hs (by simp)
  | initAll fail =>
    simp only [Ms.step] at hs
    split at hs
    · exact absurd hs (by simp)
    · split at hs
      · simp only [Option.some.injEq, Prod.mk.injEq] at hs
        obtain ⟨rfl, rfl⟩ := hs
        exact ⟨i, rfl, hi.on, hi.known⟩
      · simp only [Option.some.injEq, Prod.mk.injEq] at hs
        obtain ⟨rfl, rfl⟩ := hs
        obtain ⟨j, h1, h2⟩ := Ms.see_startAll fail s.pool hi h.pool
        exact ⟨j, h1, h2.on, h2.known⟩
  | svcStart fail =>
    simp only [Ms.step] at hs
    split at hs
    · split at hs
      · simp only [Option.some.injEq, Prod.mk.injEq] at hs
        obtain ⟨rfl, rfl⟩ := hs
        exact ⟨i, rfl, hi.on, hi.known⟩
      · simp only [Option.some.injEq, Prod.mk.injEq] at hs
        obtain ⟨rfl, rfl⟩ := hs
        obtain ⟨j, h1, h2⟩ := Ms.see_startAll fail s.pool hi h.pool
        exact ⟨j, h1, h2.on, h2.known⟩
    · exact absurd hs (by simp)
  | stop =>
    simp only [Ms.step] at hs
    split at hs
    · split at hs
      · simp only [Ms.shutAll, Option.some.injEq, Prod.mk.injEq] at hs
        obtain ⟨rfl, rfl⟩ := hs
        refine ⟨i, ?_, hi.on, hi.known⟩
        simp only [IdealSk.monitor, IdealSk.event, Option.bind_some]
        exact IdealSk.monitor_shut i _ (fun k hk => by rw [hi.on]; exact Ms.toShut_live s k hk)
      · simp only [Option.some.injEq, Prod.mk.injEq] at hs
        obtain ⟨rfl, rfl⟩ := hs
        exact ⟨i, rfl, hi.on, hi.known⟩
    · exact absurd hs (by simp)
  | svcStop =>
    simp only [Ms.step] at hs
    split at hs
    · simp only [Ms.shutAll, Option.some.injEq, Prod.mk.injEq] at hs
      obtain ⟨rfl, rfl⟩ := hs
      refine ⟨i, ?_, hi.on, hi.known⟩
      exact IdealSk.monitor_shut i _ (fun k hk => by rw [hi.on]; exact Ms.toShut_live s k hk)
    · exact absurd hs (by simp)
  | closed early k =>
    simp only [Ms.step] at hs
    split at hs
    · rename_i hk
      simp only [Option.some.injEq, Prod.mk.injEq] at hs
      obtain ⟨rfl, rfl⟩ := hs
      have hk2 : k ∈ i.on := by rw [hi.on]; exact h.shut k hk.1
      refine ⟨{ i with on := i.on.filter (· ≠ k) }, by simp [IdealSk.monitor, IdealSk.event, hk2], ?_, hi.known⟩
      simp only [hi.on]
    · exact absurd hs (by simp)
  | remove early k =>
    simp only [Ms.step] at hs
    split at hs
    · split at hs
      · rename_i hk
        simp only [Option.some.injEq, Prod.mk.injEq] at hs
        obtain ⟨rfl, rfl⟩ := hs
        have hk2 : k ∈ i.on := by rw [hi.on]; exact hk.1
        exact ⟨i, by simp [IdealSk.monitor, IdealSk.event, hk2], hi.on, hi.known⟩
      · simp only [Option.some.injEq, Prod.mk.injEq] at hs
        obtain ⟨rfl, rfl⟩ := hs
        exact ⟨i, rfl, hi.on, hi.known⟩
    · exact absurd hs (by simp)
  | brk k =>
    simp only [Ms.step] at hs
    split at hs
    · rename_i hk
      simp only [Option.some.injEq, Prod.mk.injEq] at hs
      obtain ⟨rfl, rfl⟩ := hs
      have hk2 : k ∈ i.on := by rw [hi.on]; exact hk.1
      exact ⟨i, by simp [IdealSk.monitor, IdealSk.event, hk2], hi.on, hi.known⟩
    · exact absurd hs (by simp)
  | off =>
    simp only [Ms.step] at hs
    split at hs
    · rename_i hk
      simp only [Option.some.injEq, Prod.mk.injEq] at hs
      obtain ⟨rfl, rfl⟩ := hs
      have hk2 : i.on = [] := by rw [hi.on]; exact h.stopped (h.final hk)
      exact ⟨i, by simp [IdealSk.monitor, IdealSk.event, hk2], hi.on, hi.known⟩
    · exact absurd hs (by simp)
  | _ =>
    simp only [Ms.step] at hs
    repeat' split at hs
    all_goals first
      | (simp only [reduceCtorEq] at hs; done)
      | (simp only [Option.some.injEq, Prod.mk.injEq] at hs
         obtain ⟨rfl, rfl⟩ := hs
         exact ⟨i, rfl, hi.on, hi.known⟩)

theorem Ms.see_run {guard : Bool} {s t : Ms} {as : List MsAct} {es : List SkEv} {i : IdealSk} (hr : Ms.Run guard s as t es) (h : s.Inv) (hi : s.See i) : ∃ j, IdealSk.monitor i es = some j ∧ t.See j := by
  induction hr with
  | nil => exact ⟨i, rfl, hi⟩
  | snoc s1 s2 as a es es' hr hs ih =>
    obtain ⟨j, h1, h2⟩ := ih
    obtain ⟨j2, h3, h4⟩ := Ms.see_step (Ms.inv_run hr h) h2 hs
    refine ⟨j2, ?_, h4⟩
    rw [IdealSk.monitor_append, h1]
    exact h3

/-- do_start() of socket k does not fail in this action. -/
def MsAct.spares (k : Nat) : MsAct → Prop
  | .addStart j ok => j = k → ok = true
  | .initAll fail => k ∉ fail
  | .svcStart fail => k ∉ fail
  | _ => True

/-- With `guard`, the io_context runs from start to stop. -/
structure Ms.Kept (s : Ms) : Prop where
  running : s.on = true → s.pc = .idle ∨ s.pc = .init → s.ioStopped = false
  up : s.up = true → s.on = true ∧ s.pc = .idle

theorem Ms.kept_step {s t : Ms} {a : MsAct} {es : List SkEv} (hi : s.Inv) (h : s.Kept) (hs : s.step true a = some (t, es)) : t.Kept := by
  obtain ⟨h1, h2⟩ := h
  have h3 := hi.pcOn
  have h4 := hi.off
  cases a with
  | addStart k ok =>
    simp only [Ms.step] at hs
    split at hs
    · simp only [Option.some.injEq] at hs
      have ho := Ms.start_only { s with starters := s.starters.filter (· ≠ k) } k ok
      rw [hs] at ho
      simp only at ho
      rw [ho]
      exact ⟨h1, h2⟩
    · exact absurd hs (by simp)
  | initAll fail =>
    simp only [Ms.step] at hs
    split at hs
    · exact absurd hs (by simp)
    · split at hs
      · simp only [Option.some.injEq, Prod.mk.injEq] at hs
        obtain ⟨rfl, rfl⟩ := hs
        constructor <;> grind
      · simp only [Option.some.injEq, Prod.mk.injEq] at hs
        obtain ⟨rfl, rfl⟩ := hs
        rw [Ms.startAll_only]
        constructor <;> grind
  | svcStart fail =>
    simp only [Ms.step] at hs
    split at hs
    · split at hs
      · simp only [Option.some.injEq, Prod.mk.injEq] at hs
        obtain ⟨rfl, rfl⟩ := hs
        exact ⟨h1, h2⟩
      · simp only [Option.some.injEq, Prod.mk.injEq] at hs
        obtain ⟨rfl, rfl⟩ := hs
        rw [Ms.startAll_only]
        constructor <;> grind
    · exact absurd hs (by simp)
  | _ =>
    simp only [Ms.step, Ms.shutAll] at hs
    repeat' split at hs
    all_goals first
      | (simp only [reduceCtorEq] at hs; done)
      | (simp only [Option.some.injEq, Prod.mk.injEq] at hs
         obtain ⟨rfl, rfl⟩ := hs
         constructor <;> grind)

/-- Socket k of a service that is up is started, or add_socket is still at work on it. -/
def Ms.Going (k : Nat) (s : Ms) : Prop := s.up = true → k ∈ s.pool → k ∈ s.live ∨ k ∈ s.adders ∨ k ∈ s.starters

theorem Ms.going_step {s t : Ms} {a : MsAct} {es : List SkEv} {k : Nat} (hi : s.Inv) (hk : s.Kept) (h : s.Going k) (ha : a.spares k) (hs : s.step true a = some (t, es)) : t.Going k := by
  obtain ⟨h1, h2⟩ := hk
  have h3 := hi.pcOn
  have h4 := hi.off
  unfold Ms.Going at *
  cases a with
  | addStart j ok =>
    simp only [Ms.step] at hs
    split at hs
    · rename_i hj
      simp only [Option.some.injEq] at hs
      have hl := Ms.start_live { s with starters := s.starters.filter (· ≠ j) } j ok k
      have ho := Ms.start_only { s with starters := s.starters.filter (· ≠ j) } j ok
      rw [hs] at hl ho
      simp only at hl ho
      generalize t.live = lv at hl ho
      subst ho
      simp only [MsAct.spares, List.mem_filter] at *
      grind
    · exact absurd hs (by simp)
  | initAll fail =>
    simp only [Ms.step] at hs
    split at hs
    · exact absurd hs (by simp)
    · split at hs
      · simp only [Option.some.injEq, Prod.mk.injEq] at hs
        obtain ⟨rfl, rfl⟩ := hs
        exact h
      · simp only [Option.some.injEq, Prod.mk.injEq] at hs
        obtain ⟨rfl, rfl⟩ := hs
        have hl := Ms.startAll_live fail s.pool s k
        rw [Ms.startAll_only]
        generalize (Ms.startAll fail s s.pool).1.live = lv at *
        simp only [MsAct.spares] at *
        grind
  | svcStart fail =>
    simp only [Ms.step] at hs
    split at hs
    · split at hs
      · simp only [Option.some.injEq, Prod.mk.injEq] at hs
        obtain ⟨rfl, rfl⟩ := hs
        exact h
      · simp only [Option.some.injEq, Prod.mk.injEq] at hs
        obtain ⟨rfl, rfl⟩ := hs
        have hl := Ms.startAll_live fail s.pool s k
        rw [Ms.startAll_only]
        generalize (Ms.startAll fail s s.pool).1.live = lv at *
        simp only [MsAct.spares] at *
        grind
    · exact absurd hs (by simp)
  | _ =>
    simp only [Ms.step, Ms.shutAll] at hs
    repeat' split at hs
    all_goals first
      | (simp only [reduceCtorEq] at hs; done)
      | (simp only [Option.some.injEq, Prod.mk.injEq] at hs
         obtain ⟨rfl, rfl⟩ := hs
         grind)

theorem Ms.going_run {s t : Ms} {as : List MsAct} {es : List SkEv} {k : Nat} (hr : Ms.Run true s as t es) (hi : s.Inv) (hk : s.Kept) (h : s.Going k) (ha : ∀ a ∈ as, a.spares k) : t.Kept ∧ t.Going k := by
  induction hr with
  | nil => exact ⟨hk, h⟩
  | snoc s1 s2 as a es es' hr hs ih =>
    obtain ⟨h1, h2⟩ := ih (fun x hx => ha x (List.mem_append_left _ hx))
    have hi1 := Ms.inv_run hr hi
    exact ⟨Ms.kept_step hi1 h1 hs, Ms.going_step hi1 h1 h2 (ha a (by simp)) hs⟩

/-- No socket leaves the pool while add_socket is at work on it, and no socket leaves it without being shut down. -/
def MsAct.tidy : MsAct → Prop
  | .del _ => False
  | .remove early _ => early = false
  | .closed early _ => early = false
  | .finalize early => early = false
  | _ => True

/-- Every live socket can be found in the pool, or is being shut down. -/
structure Ms.Found (s : Ms) : Prop where
  live : ∀ k ∈ s.live, k ∈ s.pool ∨ k ∈ s.shut
  pend : ∀ k, k ∈ s.adders ∨ k ∈ s.starters → k ∈ s.pool

theorem Ms.found_step {guard : Bool} {s t : Ms} {a : MsAct} {es : List SkEv} (hi : s.Inv) (h : s.Found) (ha : a.tidy) (hs : s.step guard a = some (t, es)) : t.Found := by
  obtain ⟨h1, h2⟩ := h
  have h3 := hi.stopped
  cases a with
  | addStart j ok =>
    simp only [Ms.step] at hs
    split at hs
    · rename_i hj
      simp only [Option.some.injEq] at hs
      have hl := Ms.start_live { s with starters := s.starters.filter (· ≠ j) } j ok
      have ho := Ms.start_only { s with starters := s.starters.filter (· ≠ j) } j ok
      rw [hs] at hl ho
      simp only at hl ho
      generalize t.live = lv at hl ho
      subst ho
      constructor <;> simp only [List.mem_filter] at * <;> grind
    · exact absurd hs (by simp)
  | initAll fail =>
    simp only [Ms.step] at hs
    split at hs
    · exact absurd hs (by simp)
    · split at hs
      · simp only [Option.some.injEq, Prod.mk.injEq] at hs
        obtain ⟨rfl, rfl⟩ := hs
        exact ⟨h1, h2⟩
      · simp only [Option.some.injEq, Prod.mk.injEq] at hs
        obtain ⟨rfl, rfl⟩ := hs
        have hl := Ms.startAll_live fail s.pool s
        rw [Ms.startAll_only]
        generalize (Ms.startAll fail s s.pool).1.live = lv at *
        constructor <;> grind
  | svcStart fail =>
    simp only [Ms.step] at hs
    split at hs
    · split at hs
      · simp only [Option.some.injEq, Prod.mk.injEq] at hs
        obtain ⟨rfl, rfl⟩ := hs
        exact ⟨h1, h2⟩
      · simp only [Option.some.injEq, Prod.mk.injEq] at hs
        obtain ⟨rfl, rfl⟩ := hs
        have hl := Ms.startAll_live fail s.pool s
        rw [Ms.startAll_only]
        generalize (Ms.startAll fail s s.pool).1.live = lv at *
        constructor <;> grind
    · exact absurd hs (by simp)
  | finalize early =>
    simp only [Ms.step] at hs
    split at hs
    · rename_i hk
      simp only [Option.some.injEq, Prod.mk.injEq] at hs
      obtain ⟨rfl, rfl⟩ := hs
      have hl := h3 hk.1
      have hp := hk.2.2.2
      rw [show early = false from ha] at hp
      constructor
      · simp [hl]
      · intro k hk2
        have := h2 k hk2
        have hc := (List.any_eq_false.mp hp.symm) k this
        simp [Ms.pending] at hc
        grind
    · exact absurd hs (by simp)
  | _ =>
    simp only [Ms.step, Ms.shutAll] at hs
    simp only [MsAct.tidy] at ha
    repeat' split at hs
    all_goals first
      | (simp only [reduceCtorEq] at hs; done)
      | (simp only [Option.some.injEq, Prod.mk.injEq] at hs
         obtain ⟨rfl, rfl⟩ := hs
         constructor <;> grind [Ms.pending])

theorem Ms.found_run {guard : Bool} {s t : Ms} {as : List MsAct} {es : List SkEv} (hr : Ms.Run guard s as t es) (hi : s.Inv) (h : s.Found) (ha : ∀ a ∈ as, a.tidy) : t.Found := by
  induction hr with
  | nil => exact h
  | snoc s1 s2 as a es es' hr hs ih => exact Ms.found_step (Ms.inv_run hr hi) (ih (fun x hx => ha x (List.mem_append_left _ hx))) (ha a (by simp)) hs

/-- stop_service() is waiting and every live socket is being shut down. -/
structure Ms.Ending (s : Ms) : Prop where
  pc : s.on = true → s.pc = .waiting ∨ s.pc = .final
  adders : s.adders = []
  starters : s.starters = []
  live : ∀ k ∈ s.live, k ∈ s.shut

theorem Ms.ending_step {guard : Bool} {s t : Ms} {a : MsAct} {es : List SkEv} (hi : s.Inv) (h : s.Ending) (ha : a ≠ .add ∧ a ≠ .pumpStart) (hs : s.step guard a = some (t, es)) : t.Ending := by
  obtain ⟨h1, h2, h3, h4⟩ := h
  have h5 := hi.pcOn
  have h6 := hi.off
  cases a with
  | addStart j ok => simp [Ms.step, h3] at hs
  | addCheck j => simp [Ms.step, h2] at hs
  | initAll fail =>
    simp only [Ms.step] at hs
    split at hs
    · exact absurd hs (by simp)
    · grind
  | svcStart fail =>
    simp only [Ms.step] at hs
    split at hs
    · grind
    · exact absurd hs (by simp)
  | _ =>
    simp only [Ms.step, Ms.shutAll] at hs
    repeat' split at hs
    all_goals first
      | (simp only [reduceCtorEq] at hs; done)
      | (simp only [Option.some.injEq, Prod.mk.injEq] at hs
         obtain ⟨rfl, rfl⟩ := hs
         constructor <;> grind)

theorem Ms.ending_run {guard : Bool} {s t : Ms} {as : List MsAct} {es : List SkEv} (hr : Ms.Run guard s as t es) (hi : s.Inv) (h : s.Ending) (ha : ∀ a ∈ as, a ≠ .add ∧ a ≠ .pumpStart) : t.Ending := by
  induction hr with
  | nil => exact h
  | snoc s1 s2 as a es es' hr hs ih => exact Ms.ending_step (Ms.inv_run hr hi) (ih (fun x hx => ha x (List.mem_append_left _ hx))) (ha a (by simp)) hs

/-- What happens without the user: sockets close, the io_context runs out of work, stop_service() finishes. -/
def MsAct.own : MsAct → Bool
  | .closed _ _ => true
  | .ioStop => true
  | .finalize _ => true
  | .off => true
  | _ => false

theorem Ms.ending_live {guard : Bool} (m : Nat) : ∀ (s : Ms), s.Inv → s.Ending → s.live.length ≤ m → s.on = true → ∃ as t es, Ms.Run guard s as t es ∧ (∀ a ∈ as, a.own = true) ∧ t.live = [] ∧ t.on = true := by
  induction m with
  | zero =>
    intro s hi h hm ho
    exact ⟨[], s, [], .nil s, by simp, List.eq_nil_of_length_eq_zero (by omega), ho⟩
  | succ m ih =>
    intro s hi h hm ho
    by_cases hl : s.live = []
    · exact ⟨[], s, [], .nil s, by simp, hl, ho⟩
    · obtain ⟨k, hk⟩ := List.exists_mem_of_ne_nil _ hl
      have hks := h.live k hk
      have hp : s.pending k = false := by simp [Ms.pending, h.adders, h.starters]
      generalize hte : ({ s with live := s.live.filter (· ≠ k), shut := s.shut.filter (· ≠ k), pool := s.pool.filter (· ≠ k) } : Ms) = t
      have hs : s.step guard (.closed false k) = some (t, [.closed k]) := by simp [Ms.step, hks, hp, ← hte]
      have hlen : t.live.length < s.live.length := by
        rw [← hte]
        simp only
        rw [List.length_filter_lt_length_iff_exists]
        exact ⟨k, hk, by simp⟩
      have hon : t.on = true := by rw [← hte]; exact ho
      obtain ⟨as, u, es, h1, h2, h3, h4⟩ := ih t (Ms.inv_step hi hs) (Ms.ending_step hi h (by simp) hs) (by omega) hon
      refine ⟨[.closed false k] ++ as, u, [.closed k] ++ es, Ms.run_append (Ms.Run.snoc s s t [] _ [] _ (.nil s) hs) h1, ?_, h3, h4⟩
      intro a ha
      simp only [List.cons_append, List.nil_append, List.mem_cons] at ha
      rcases ha with rfl | ha
      · rfl
      · exact h2 a ha

theorem Ms.own_calm {as : List MsAct} (h : ∀ a ∈ as, a.own = true) : ∀ a ∈ as, a ≠ .add ∧ a ≠ .pumpStart := by
  intro a ha
  have := h a ha
  constructor <;> rintro rfl <;> simp [MsAct.own] at this

theorem Ms.ending_ends {guard : Bool} {s : Ms} (hi : s.Inv) (h : s.Ending) (ho : s.on = true) : ∃ as t es, Ms.Run guard s as t es ∧ (∀ a ∈ as, a.own = true) ∧ t.on = false ∧ SkEv.pumpDown ∈ es := by
  obtain ⟨as, t, es, h1, h2, h3, h4⟩ := Ms.ending_live (guard := guard) s.live.length s hi h (Nat.le_refl _) ho
  have hi1 := Ms.inv_run h1 hi
  have he1 := Ms.ending_run h1 hi h (Ms.own_calm h2)
  have key : ∃ bs u xs, Ms.Run guard t bs u xs ∧ (∀ b ∈ bs, b.own = true) ∧ u.on = false ∧ SkEv.pumpDown ∈ xs := by
    have hfin : ∀ v : Ms, v.pc = .final → ∃ u, Ms.Run guard v [.off] u [.pumpDown] ∧ u.on = false := by
      intro v hv
      refine ⟨{ v with on := false, pc := .idle }, ?_, rfl⟩
      exact Ms.Run.snoc v v _ [] _ [] _ (.nil v) (by simp [Ms.step, hv])
    have hstopped : ∀ v : Ms, v.pc = .waiting → v.ioStopped = true → v.on = true → ∃ bs u xs, Ms.Run guard v bs u xs ∧ (∀ b ∈ bs, b.own = true) ∧ u.on = false ∧ SkEv.pumpDown ∈ xs := by
      intro v hv hv2 hv3
      obtain ⟨u, hu, hu2⟩ := hfin { v with pool := [], pc := .final } rfl
      have hs : v.step guard (.finalize (v.pool.any v.pending)) = some ({ v with pool := [], pc := .final }, []) := by simp [Ms.step, hv, hv2, hv3]
      refine ⟨[.finalize (v.pool.any v.pending)] ++ [.off], u, [] ++ [.pumpDown], Ms.run_append (Ms.Run.snoc v v _ [] _ [] _ (.nil v) hs) hu, ?_, hu2, by simp⟩
      simp [MsAct.own]
    rcases he1.pc h4 with hw | hf
    · cases hst : t.ioStopped with
      | true => exact hstopped t hw hst h4
      | false =>
        obtain ⟨bs, u, xs, g1, g2, g3, g4⟩ := hstopped { t with ioStopped := true } hw rfl h4
        have hs : t.step guard .ioStop = some ({ t with ioStopped := true }, []) := by simp [Ms.step, h3, h4, hst, hw]
        refine ⟨[.ioStop] ++ bs, u, [] ++ xs, Ms.run_append (Ms.Run.snoc t t _ [] _ [] _ (.nil t) hs) g1, ?_, g3, by simpa using g4⟩
        intro b hb
        simp only [List.cons_append, List.nil_append, List.mem_cons] at hb
        rcases hb with rfl | hb
        · rfl
        · exact g2 b hb
    · obtain ⟨u, hu, hu2⟩ := hfin t hf
      exact ⟨_, u, _, hu, by simp [MsAct.own], hu2, by simp⟩
  obtain ⟨bs, u, xs, g1, g2, g3, g4⟩ := key
  refine ⟨as ++ bs, u, es ++ xs, Ms.run_append h1 g1, ?_, g3, by simp [g4]⟩
  intro a ha
  rcases List.mem_append.mp ha with ha | ha
  · exact h2 a ha
  · exact g2 a ha

end StAsio
