import Verif.Spec.Lifecycle
set_option autoImplicit false
namespace StAsio

theorem LPhase.run_append (p : LPhase) (a b : List LEv) : p.run (a ++ b) = (p.run a).bind (fun q => q.run b) := by
  induction a generalizing p with
  | nil => rfl
  | cons e a ih =>
    simp only [List.cons_append, LPhase.run]
    cases p.step e with
    | none => rfl
    | some q => exact ih q

def Life.phase (s : Life) : LPhase :=
  if s.started then .up
  else if s.lock = .closer2 then .closing
  else match s.dc with
    | .none => .down
    | .closed => .down
    | _ => .closing

structure Life.Inv (s : Life) : Prop where
  chk : s.chk = 0
  st_dc : s.started = true → s.dc = .none
  starter : s.lock = .starter → s.started = false ∧ s.dc = .none
  c1 : s.lock = .closer1 → s.started = true
  c2 : s.lock = .closer2 → s.started = false ∧ s.dc = .none

theorem Life.step_inv {tr : Bool} {s s' : Life} {a : LAct} {es : List LEv} (h : s.Inv) (ha : a ≠ .startCheck) (hs : s.step tr a = some (s', es)) :
    s'.Inv ∧ s.phase.run es = some s'.phase := by
  have h1 := h.chk; have h2 := h.st_dc; have h3 := h.starter; have h4 := h.c1; have h5 := h.c2
  cases a
  all_goals
    simp only [Life.step, Life.tryStart, Life.isClosing] at hs
    refine ⟨⟨?_, ?_, ?_, ?_, ?_⟩, ?_⟩
    all_goals grind [Life.phase, LPhase.run, LPhase.step]

theorem Life.init_inv : Life.init.Inv := ⟨rfl, by simp [Life.init], by simp [Life.init], by simp [Life.init], by simp [Life.init]⟩

theorem Life.run_inv {tr : Bool} {s0 s : Life} {as : List LAct} {es : List LEv} (h0 : s0.Inv) (ha : ∀ a ∈ as, a ≠ .startCheck) (hr : Life.Run tr s0 as s es) :
    s.Inv ∧ s0.phase.run es = some s.phase := by
  induction hr with
  | nil => exact ⟨h0, rfl⟩
  | snoc s1 s2 as a es es' hr hs ih =>
    have ih := ih (fun x hx => ha x (by simp [hx]))
    have h1 := Life.step_inv ih.1 (ha a (by simp)) hs
    refine ⟨h1.1, ?_⟩
    rw [LPhase.run_append, ih.2]
    exact h1.2

/-- Number of on_close calls whose handler did not yet set obsoleted_. -/
def Life.owing (s : Life) : Nat := s.fin + if s.dc = .closed then 1 else 0

theorem Life.step_owing {tr : Bool} {s s' : Life} {a : LAct} {es : List LEv} (hbad : LEv.bad ∉ es) (hs : s.step tr a = some (s', es)) :
    s.owing + es.countP LEv.isOnClose = s'.owing + es.countP (· == .obsoleted) := by
  cases a
  all_goals
    simp only [Life.step, Life.tryStart, Life.isClosing] at hs
    simp only [Life.owing]
    grind [LEv.isOnClose]

theorem Life.run_owing {tr : Bool} {s0 s : Life} {as : List LAct} {es : List LEv} (hr : Life.Run tr s0 as s es) (hbad : LEv.bad ∉ es) :
    s0.owing + es.countP LEv.isOnClose = s.owing + es.countP (· == .obsoleted) := by
  induction hr with
  | nil => rfl
  | snoc s1 s2 as a es es' hr hs ih =>
    have ih := ih (fun h => hbad (by simp [h]))
    have h1 := Life.step_owing (fun h => hbad (by simp [h])) hs
    simp only [List.countP_append]
    omega

theorem LPhase.run_no_bad {p q : LPhase} {es : List LEv} (h : p.run es = some q) : LEv.bad ∉ es := by
  induction es generalizing p with
  | nil => simp
  | cons e es ih =>
    simp only [LPhase.run] at h
    intro hm
    rcases List.mem_cons.1 hm with rfl | hm
    · cases p <;> simp [LPhase.step] at h
    · cases hp : p.step e with
      | none => simp [hp] at h
      | some r => simp only [hp] at h; exact ih h hm

/-- Between the decision and on_close nothing begins unless a thread of the user begins it. -/
def Life.Quiet (s : Life) : Prop := s.Inv ∧ (s.dc = .checked → s.refs = 0)

theorem Life.step_quiet {s s' : Life} {a : LAct} {es : List LEv} (h : s.Quiet) (ha : a ≠ .startCheck) (hx : a ≠ .extern) (hs : s.step true a = some (s', es)) : s'.Quiet := by
  refine ⟨(Life.step_inv h.1 ha hs).1, ?_⟩
  have h1 := h.1.chk; have h2 := h.1.st_dc; have h3 := h.1.starter; have h4 := h.1.c1; have h5 := h.1.c2; have h6 := h.2
  cases a
  all_goals
    simp only [Life.step, Life.tryStart, Life.isClosing] at hs
    grind

theorem Life.run_quiet {s0 s : Life} {as : List LAct} {es : List LEv} (h : s0.Quiet) (ha : ∀ a ∈ as, a ≠ .startCheck ∧ a ≠ .extern) (hr : Life.Run true s0 as s es) : s.Quiet := by
  induction hr with
  | nil => exact h
  | snoc s1 s2 as a es es' hr hs ih =>
    exact Life.step_quiet (ih (fun x hx => ha x (by simp [hx]))) (ha a (by simp)).1 (ha a (by simp)).2 hs

theorem Life.run_trans {tr : Bool} {s s1 s2 : Life} {as bs : List LAct} {es fs : List LEv} (h1 : Life.Run tr s as s1 es) (h2 : Life.Run tr s1 bs s2 fs) :
    Life.Run tr s (as ++ bs) s2 (es ++ fs) := by
  induction h2 with
  | nil => simpa using h1
  | snoc s2 s3 bs a fs fs' _ hs ih =>
    rw [← List.append_assoc, ← List.append_assoc]
    exact Life.Run.snoc _ _ _ _ _ _ _ ih hs

theorem Life.run_one {tr : Bool} {s s1 : Life} {a : LAct} {es : List LEv} (h : s.step tr a = some (s1, es)) : Life.Run tr s [a] s1 es := by
  have := Life.Run.snoc _ _ _ _ _ _ _ (Life.Run.nil (tracked := tr) s) h
  simpa using this

theorem Life.exec_run {tr : Bool} {s s' : Life} {as : List LAct} {es : List LEv} (h : Life.exec tr s as = some (s', es)) : Life.Run tr s as s' es := by
  induction as generalizing s es with
  | nil => simp [Life.exec] at h; obtain ⟨rfl, rfl⟩ := h; exact Life.Run.nil _
  | cons a as ih =>
    simp only [Life.exec, Option.bind_eq_bind] at h
    rw [Option.bind_eq_some_iff] at h
    obtain ⟨⟨s1, e1⟩, h1, h2⟩ := h
    rw [Option.bind_eq_some_iff] at h2
    obtain ⟨⟨s2, e2⟩, h2, h3⟩ := h2
    simp at h3
    obtain ⟨rfl, rfl⟩ := h3
    exact Life.run_trans (Life.run_one h1) (ih h2)

/-- The pending calls can be finished. -/
theorem Life.drain {tr : Bool} (s : Life) : Life.Run tr s (List.replicate s.refs .finish) { s with refs := 0 } [] := by
  generalize hn : s.refs = n
  induction n generalizing s with
  | zero =>
    have : s = { s with refs := 0 } := by rw [← hn]
    rw [← this]
    exact Life.Run.nil _
  | succ n ih =>
    have h1 : s.step tr .finish = some ({ s with refs := n }, []) := by simp [Life.step, hn]
    have h2 := ih { s with refs := n } rfl
    have := Life.run_trans (Life.run_one h1) h2
    simpa [List.replicate_succ] using this

/-- The socket is dead: nothing of it runs, and nothing of it will unless somebody calls start() or begins an asynchronous call. -/
def Life.Dead (s : Life) : Prop := s.started = false ∧ s.lock = .free ∧ s.chk = 0 ∧ s.refs = 0 ∧ s.dc = .none ∧ s.fin = 0

theorem Life.step_dead {tr : Bool} {s s' : Life} {a : LAct} {es : List LEv} (h : s.Dead) (ha : a ≠ .startCheck ∧ a ≠ .start ∧ a ≠ .extern) (hs : s.step tr a = some (s', es)) :
    s'.Dead ∧ ∀ e ∈ es, e = .closeFalse := by
  obtain ⟨h1, h2, h3, h4, h5, h6⟩ := h
  cases a
  all_goals
    simp only [Life.step, Life.tryStart, Life.isClosing] at hs
    simp only [Life.Dead]
    grind

end StAsio
