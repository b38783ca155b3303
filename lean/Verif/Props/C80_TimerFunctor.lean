import Verif.Model.TimerFunctor
/-!
C80: the function object given to a timer exists until its invocation returned (include/timer.h).
-/
set_option autoImplicit false
namespace StAsio

theorem CfEv.fineFrom_append (D : List Nat) (es fs : List CfEv) : CfEv.fineFrom D (es ++ fs) = (CfEv.fineFrom D es && CfEv.fineFrom ((CfEv.deadOf es).reverse ++ D) fs) := by
  induction es generalizing D with
  | nil => simp [CfEv.fineFrom, CfEv.deadOf]
  | cons e es ih =>
    cases e <;> simp [CfEv.fineFrom, CfEv.deadOf, ih, Bool.and_assoc]

theorem CfEv.fine_append (es fs : List CfEv) : CfEv.fine (es ++ fs) = (CfEv.fine es && CfEv.fineFrom (CfEv.deadOf es).reverse fs) := by
  simp [CfEv.fine, CfEv.fineFrom_append]

theorem CfEv.deadOf_append (es fs : List CfEv) : CfEv.deadOf (es ++ fs) = CfEv.deadOf es ++ CfEv.deadOf fs := by simp [CfEv.deadOf]

theorem Cf.GoodRun.trans {p : Cf → CfAct → Bool} {s s1 s2 : Cf} {as bs : List CfAct} {es fs : List CfEv} (h1 : Cf.GoodRun p s as s1 es) (h2 : Cf.GoodRun p s1 bs s2 fs) :
    Cf.GoodRun p s (as ++ bs) s2 (es ++ fs) := by
  induction h2 with
  | nil => simpa using h1
  | snoc t1 t2 bs b gs gs' _ hp hs ih =>
    rw [← List.append_assoc, ← List.append_assoc]
    exact .snoc _ _ _ _ _ _ _ ih hp hs

theorem Cf.goodExec_run {p : Cf → CfAct → Bool} {s s' : Cf} {as : List CfAct} {es : List CfEv} (h : Cf.goodExec p s as = some (s', es)) : Cf.GoodRun p s as s' es := by
  induction as generalizing s es with
  | nil => simp only [Cf.goodExec, Option.some.injEq, Prod.mk.injEq] at h; obtain ⟨rfl, rfl⟩ := h; exact .nil _
  | cons a as ih =>
    simp only [Cf.goodExec] at h
    cases hp : p s a with
    | false => simp [hp] at h
    | true =>
      cases hs : s.step a with
      | none => simp [hp, hs] at h
      | some r =>
        cases he : Cf.goodExec p r.1 as with
        | none => simp [hp, hs, he] at h
        | some q =>
          simp [hp, hs, he] at h
          obtain ⟨rfl, rfl⟩ := h
          exact (Cf.GoodRun.snoc s s r.1 [] a [] r.2 (.nil s) hp hs).trans (ih (s := r.1) (es := q.2) (by rw [he]))

theorem Cf.Run.trans {s s1 s2 : Cf} {as bs : List CfAct} {es fs : List CfEv} (h1 : Cf.Run s as s1 es) (h2 : Cf.Run s1 bs s2 fs) : Cf.Run s (as ++ bs) s2 (es ++ fs) := by
  induction h2 with
  | nil => simpa using h1
  | snoc t1 t2 bs b gs gs' _ hs ih =>
    rw [← List.append_assoc, ← List.append_assoc]
    exact .snoc _ _ _ _ _ _ _ ih hs

theorem Cf.exec_run {s s' : Cf} {as : List CfAct} {es : List CfEv} (h : Cf.exec s as = some (s', es)) : Cf.Run s as s' es := by
  induction as generalizing s es with
  | nil => simp only [Cf.exec, Option.some.injEq, Prod.mk.injEq] at h; obtain ⟨rfl, rfl⟩ := h; exact .nil _
  | cons a as ih =>
    simp only [Cf.exec] at h
    cases hs : s.step a with
    | none => simp [hs] at h
    | some r =>
      cases he : Cf.exec r.1 as with
      | none => simp [hs, he] at h
      | some q =>
        simp [hs, he] at h
        obtain ⟨rfl, rfl⟩ := h
        exact (Cf.Run.snoc s s r.1 [] a [] r.2 (.nil s) hs).trans (ih (s := r.1) (es := q.2) (by rw [he]))

/-- Who owns the function objects. `D`: those destroyed. -/
structure Cf.Own (s : Cf) (D : List Nat) : Prop where
  cbNew : ∀ o, s.tm.cb = some o → o < s.fresh ∧ o ∉ s.kept ∧ o ∉ D
  keptNew : ∀ o ∈ s.kept, o < s.fresh ∧ o ∉ D
  keptOnce : s.kept.Nodup
  deadOld : ∀ o ∈ D, o < s.fresh

theorem Tm.start_cb (t : Tm) : t.start.1.cb = t.cb := by
  unfold Tm.start Tm.abort; split <;> (try rfl); simp only; split <;> simp_all

theorem Tm.stop_cb (t : Tm) : t.stop.cb = t.cb := by
  unfold Tm.stop Tm.abort; split <;> (try rfl); split <;> simp_all

theorem Tm.after_cb (q : Nat) (r : Bool) (t : Tm) : (Tm.after q r t).cb = t.cb := by
  unfold Tm.after; split
  · exact Tm.start_cb t
  · split <;> rfl

theorem Cf.step_own {s s' : Cf} {a : CfAct} {es : List CfEv} {D : List Nat} (h : s.Own D) (hs : s.step a = some (s', es)) : s'.Own ((CfEv.deadOf es).reverse ++ D) := by
  obtain ⟨h1, h2, h3, h4⟩ := h
  cases a with
  | set reads keep start =>
    simp only [Cf.step] at hs
    have hcb : (if start = true then (Tm.start { s.tm with cb := some s.fresh }).1 else { s.tm with cb := some s.fresh }).cb = some s.fresh := by split <;> simp [Tm.start_cb]
    split at hs
    · cases hs
      constructor
      · intro o ho
        simp only [hcb] at ho; cases ho
        simp only [CfEv.deadOf]
        grind
      · simp only [CfEv.deadOf]; grind
      · exact h3
      · simp only [CfEv.deadOf]; grind
    · rename_i c hc
      have := h1 c hc
      split at hs <;> cases hs <;> constructor <;> simp only [CfEv.deadOf, hcb] <;> grind
  | start => cases hs; constructor <;> simp only [CfEv.deadOf, Tm.start_cb] <;> grind
  | stop => cases hs; constructor <;> simp only [CfEv.deadOf, Tm.stop_cb] <;> grind
  | drop i =>
    simp only [Cf.step] at hs
    split at hs
    · cases hs
    · rename_i o ho
      cases hs
      have hm := List.mem_of_getElem? ho
      have hsub : ∀ x ∈ s.kept.eraseIdx i, x ∈ s.kept ∧ x ≠ o := by
        intro x hx
        refine ⟨List.mem_of_mem_eraseIdx hx, ?_⟩
        intro hxo
        subst hxo
        rw [List.getElem?_eq_some_iff] at ho
        obtain ⟨hi, ho⟩ := ho
        rw [List.mem_eraseIdx_iff_getElem] at hx
        obtain ⟨j, hj, hji, hx⟩ := hx
        have h5 := (List.getElem_inj h3 (h₀ := hj) (h₁ := hi)).1 (by rw [hx, ho])
        exact hji h5
      constructor <;> simp only [CfEv.deadOf] <;> (try exact h3.sublist (List.eraseIdx_sublist _ _)) <;> grind
  | expire =>
    simp only [Cf.step] at hs
    split at hs <;> cases hs
    constructor <;> simp only [CfEv.deadOf] <;> grind
  | handler i =>
    simp only [Cf.step] at hs
    repeat' split at hs
    all_goals cases hs
    all_goals constructor <;> simp only [CfEv.deadOf, Tm.after_cb] <;> grind
  | ret i r =>
    simp only [Cf.step] at hs
    repeat' split at hs
    all_goals cases hs
    all_goals constructor <;> simp only [CfEv.deadOf, Tm.after_cb] <;> grind

/-- An invariant of steps under which every step is harmless makes all runs harmless. -/
theorem Cf.run_fine {p : Cf → CfAct → Bool} (J : Cf → Prop) (h0 : J Cf.init)
    (hstep : ∀ (s s' : Cf) (a : CfAct) (es : List CfEv) (D : List Nat), s.Own D → J s → p s a = true → s.step a = some (s', es) → J s' ∧ CfEv.fineFrom D es = true)
    {as : List CfAct} {s : Cf} {es : List CfEv} (hr : Cf.GoodRun p Cf.init as s es) : J s ∧ s.Own (CfEv.deadOf es).reverse ∧ CfEv.fine es = true := by
  induction hr with
  | nil => exact ⟨h0, ⟨by simp [Cf.init, Tm.new], by simp [Cf.init], by simp [Cf.init], by simp [CfEv.deadOf]⟩, rfl⟩
  | snoc s1 s2 as a es es' _ hp hs ih =>
    obtain ⟨i1, i2, i3⟩ := ih
    obtain ⟨j1, j2⟩ := hstep s1 s2 a es' _ i2 i1 hp hs
    refine ⟨j1, ?_, ?_⟩
    · have := Cf.step_own i2 hs
      rwa [CfEv.deadOf_append, List.reverse_append]
    · rw [CfEv.fine_append, i3, j2]; rfl

/-- Invocations in progress use function objects that somebody owns. -/
def Cf.Held (s : Cf) : Prop := ∀ r ∈ s.runs, s.tm.cb = some r.1 ∨ r.1 ∈ s.kept

theorem List.mem_eraseIdx_of_ne {α : Type} {l : List α} {i : Nat} {o x : α} (ho : l[i]? = some o) (hx : x ∈ l) (hne : x ≠ o) : x ∈ l.eraseIdx i := by
  rw [List.mem_eraseIdx_iff_getElem?]
  obtain ⟨j, hj⟩ := List.getElem?_of_mem hx
  refine ⟨j, ?_, hj⟩
  intro h; subst h; rw [hj] at ho; cases ho; exact hne rfl

theorem Cf.step_held {s s' : Cf} {a : CfAct} {es : List CfEv} {D : List Nat} (ho : s.Own D) (hj : s.Held) (hp : s.careful a = true) (hs : s.step a = some (s', es)) : s'.Held ∧ CfEv.fineFrom D es = true := by
  obtain ⟨h1, h2, h3, h4⟩ := ho
  unfold Cf.Held at hj ⊢
  cases a with
  | set reads keep start =>
    simp only [Cf.step] at hs
    have hcb : (if start = true then (Tm.start { s.tm with cb := some s.fresh }).1 else { s.tm with cb := some s.fresh }).cb = some s.fresh := by split <;> simp [Tm.start_cb]
    simp only [Cf.careful, Bool.or_eq_true, List.all_eq_true, bne_iff_ne, ne_eq] at hp
    split at hs
    · cases hs
      simp only [hcb, CfEv.fineFrom]
      refine ⟨?_, trivial⟩
      intro r hr
      cases hj r hr with
      | inl h => simp_all
      | inr h => exact .inr h
    · rename_i c hc
      split at hs <;> cases hs <;> simp only [hcb, CfEv.fineFrom]
      · refine ⟨?_, trivial⟩
        intro r hr
        cases hj r hr with
        | inl h => rw [hc] at h; cases h; exact .inr (List.mem_cons_self)
        | inr h => exact .inr (List.mem_cons_of_mem _ h)
      · refine ⟨?_, ?_⟩
        · intro r hr
          cases hj r hr with
          | inl h =>
            cases hp with
            | inl hp => simp_all
            | inr hp => exact absurd h.symm (hp r hr)
          | inr h => exact .inr h
        · have := (h1 c hc).2.2
          simp [this]
  | start => cases hs; simpa only [Tm.start_cb, CfEv.fineFrom, and_true] using hj
  | stop => cases hs; simpa only [Tm.stop_cb, CfEv.fineFrom, and_true] using hj
  | drop i =>
    simp only [Cf.step] at hs
    split at hs
    · cases hs
    · rename_i o ho
      cases hs
      simp only [Cf.careful, ho, List.all_eq_true, bne_iff_ne, ne_eq] at hp
      refine ⟨?_, ?_⟩
      · intro r hr
        cases hj r hr with
        | inl h => exact .inl h
        | inr h => exact .inr (List.mem_eraseIdx_of_ne ho h (hp r hr))
      · have := (h2 o (List.mem_of_getElem? ho)).2
        simp [CfEv.fineFrom, this]
  | expire =>
    simp only [Cf.step] at hs
    split at hs <;> cases hs
    exact ⟨hj, rfl⟩
  | handler i =>
    simp only [Cf.step] at hs
    repeat' split at hs
    all_goals cases hs
    · rename_i o hc
      refine ⟨?_, ?_⟩
      · intro r hr
        cases List.mem_append.1 hr with
        | inl h => exact hj r h
        | inr h => rw [List.mem_singleton.1 h]; exact .inl hc
      · have := (h1 o hc).2.2
        simp [CfEv.fineFrom, this]
    · refine ⟨?_, rfl⟩
      simpa only [Tm.after_cb] using hj
  | ret i r =>
    simp only [Cf.step] at hs
    split at hs <;> cases hs
    rename_i o q ho
    have hm := List.mem_of_getElem? ho
    refine ⟨?_, ?_⟩
    · intro r hr
      simp only [Tm.after_cb]
      exact hj r (List.mem_of_mem_eraseIdx hr)
    · have : o ∉ D := by
        cases hj _ hm with
        | inl h => exact (h1 o h).2.2
        | inr h => exact (h2 o h).2
      simp [CfEv.fineFrom, this]

/-- **C80** (part). If call backs are replaced only while they are not running, or by somebody who keeps the old function object until it is not running, no function object is ever used after it was destroyed: whatever
call backs are set, started, stopped, expire, run (also several at a time) and return. Missing: replacements while it is running (see C80_fails_graceful_shutdown, C80_fails_check_recv, which the library does itself). -/
theorem C80_careful_partial {as : List CfAct} {s : Cf} {es : List CfEv} (hr : Cf.GoodRun Cf.careful Cf.init as s es) : CfEv.fine es = true :=
  (Cf.run_fine Cf.Held (by simp [Cf.Held, Cf.init]) (fun _ _ _ _ _ ho hj hp hs => Cf.step_held ho hj hp hs) hr).2.2

/-- The call back is replaced by itself, which keeps the old function object until it returned. -/
theorem C80_careful_demo : ∃ s, Cf.GoodRun Cf.careful Cf.init [.set true false true, .expire, .handler 0, .set true true true, .ret 0 false, .drop 0, .expire, .handler 0, .ret 0 true, .stop, .set true false true] s
    [.called 0, .returned 0 true, .destroyed 0, .called 1, .returned 1 true, .destroyed 1] := by
  refine ⟨_, Cf.goodExec_run (by rfl)⟩

theorem Cf.step_plain {s s' : Cf} {a : CfAct} {es : List CfEv} {D : List Nat} (ho : s.Own D) (hj : s.readers = []) (hp : s.plain a = true) (hs : s.step a = some (s', es)) : s'.readers = [] ∧ CfEv.fineFrom D es = true := by
  obtain ⟨h1, h2, h3, h4⟩ := ho
  cases a <;> simp only [Cf.step, Cf.plain] at hs hp <;> (repeat' split at hs) <;> cases hs
  all_goals (refine ⟨by simp_all, ?_⟩)
  all_goals (first | rfl | skip)
  all_goals (simp only [CfEv.fineFrom, hj])
  all_goals (simp <;> grind [List.mem_of_getElem?])

/-- **C80** (part). With function objects that do nothing after what they wrap returned (boost::bind and the like), replacing the call back is safe at any time. -/
theorem C80_plain_partial {as : List CfAct} {s : Cf} {es : List CfEv} (hr : Cf.GoodRun Cf.plain Cf.init as s es) : CfEv.fine es = true :=
  (Cf.run_fine (fun s => s.readers = []) rfl (fun _ _ _ _ _ ho hj hp hs => Cf.step_plain ho hj hp hs) hr).2.2

/-- TIMER_DISPATCH_MSG: set again on another thread while timer_handler is still in the call back (socket.h:767, 785-787). -/
theorem C80_plain_demo : ∃ s, Cf.GoodRun Cf.plain Cf.init [.set false false true, .expire, .handler 0, .set false false true, .ret 0 false, .expire, .handler 0, .ret 0 false] s
    [.called 0, .destroyed 0, .returned 0 false, .called 1, .returned 1 false] := by
  refine ⟨_, Cf.goodExec_run (by rfl)⟩

/-- There is one wait or one invocation at a time, and is_timer() tells. -/
structure Cf.One (s : Cf) : Prop where
  one : s.runs.length + s.tm.queue.length + s.tm.armed.toList.length ≤ 1
  run : ∀ r ∈ s.runs, s.tm.status = .started ∧ s.tm.cb = some r.1 ∧ r.2 = s.tm.seq
  wait : ∀ w ∈ s.tm.queue, s.tm.status = .started → w.seq = s.tm.seq
  arm : ∀ q g, s.tm.armed = some (q, g) → s.tm.status = .started ∧ q = s.tm.seq

theorem Cf.step_one {s s' : Cf} {a : CfAct} {es : List CfEv} {D : List Nat} (ho : s.Own D) (hj : s.One) (hp : s.guarded a = true) (hs : s.step a = some (s', es)) : s'.One ∧ CfEv.fineFrom D es = true := by
  obtain ⟨h1, h2, h3, h4⟩ := ho
  obtain ⟨i1, i2, i3, i4⟩ := hj
  cases a with
  | set reads keep start =>
    simp only [Cf.guarded, Bool.and_eq_true, decide_eq_true_eq, List.isEmpty_iff] at hp
    obtain ⟨hst, hq⟩ := hp
    have ha : s.tm.armed = none := by
      cases h : s.tm.armed with
      | none => rfl
      | some x => exact absurd (i4 x.1 x.2 h).1 hst
    have hr : s.runs = [] := by
      cases h : s.runs with
      | nil => rfl
      | cons x l => exact absurd (i2 x (by rw [h]; exact List.mem_cons_self)).1 hst
    have hfin : ∀ s' : Cf, s'.runs = [] → s'.tm = (if start = true then (Tm.start { s.tm with cb := some s.fresh }).1 else { s.tm with cb := some s.fresh }) → s'.One := by
      intro s' e1 e2
      constructor
      · rw [e1, e2]; cases start <;> simp [Tm.start, Tm.abort, ha, hq]
      · rw [e1]; simp
      · rw [e2]; cases start <;> simp [Tm.start, Tm.abort, ha, hq]
      · rw [e2]; cases start <;> simp [Tm.start, Tm.abort, ha] <;> grind
    simp only [Cf.step] at hs
    split at hs
    · cases hs; exact ⟨hfin _ hr rfl, rfl⟩
    · rename_i c hc
      split at hs <;> cases hs
      · exact ⟨hfin _ hr rfl, rfl⟩
      · refine ⟨hfin _ hr rfl, ?_⟩
        have := (h1 c hc).2.2
        simp [CfEv.fineFrom, this]
  | start =>
    simp only [Cf.guarded, Bool.and_eq_true, decide_eq_true_eq, List.isEmpty_iff] at hp
    obtain ⟨hst, hq⟩ := hp
    have ha : s.tm.armed = none := by
      cases h : s.tm.armed with
      | none => rfl
      | some x => exact absurd (i4 x.1 x.2 h).1 hst
    have hr : s.runs = [] := by
      cases h : s.runs with
      | nil => rfl
      | cons x l => exact absurd (i2 x (by rw [h]; exact List.mem_cons_self)).1 hst
    cases hs
    refine ⟨?_, rfl⟩
    cases hc : s.tm.cb with
    | none => constructor <;> simp [Tm.start, hc, hr, hq, ha]
    | some c => constructor <;> simp [Tm.start, Tm.abort, hc, hr, hq, ha] <;> grind
  | stop =>
    simp only [Cf.guarded, List.isEmpty_iff] at hp
    cases hs
    refine ⟨?_, rfl⟩
    unfold Tm.stop Tm.abort
    by_cases hst : s.tm.status = .started
    · rw [if_pos hst]
      cases ha : s.tm.armed with
      | none => constructor <;> simp [hp]; simp [ha, hp] at i1; exact i1
      | some x =>
        simp only [ha, hp, Option.toList, List.length_nil, List.length_singleton] at i1
        have hq : s.tm.queue = [] := List.length_eq_zero_iff.1 (by omega)
        constructor <;> simp [hp, hq]
    · rw [if_neg hst]; exact ⟨i1, i2, i3, i4⟩
  | drop i =>
    simp only [Cf.step] at hs
    split at hs
    · cases hs
    · rename_i o ho
      cases hs
      refine ⟨⟨i1, i2, i3, i4⟩, ?_⟩
      have := (h2 o (List.mem_of_getElem? ho)).2
      simp [CfEv.fineFrom, this]
  | expire =>
    simp only [Cf.step] at hs
    split at hs <;> cases hs
    rename_i q g ha
    have := i4 q g ha
    simp only [ha, Option.toList, List.length_singleton] at i1
    have hq : s.tm.queue = [] := List.length_eq_zero_iff.1 (by omega)
    have hr : s.runs = [] := List.length_eq_zero_iff.1 (by omega)
    refine ⟨?_, rfl⟩
    constructor <;> simp [hq, hr, this]
  | handler i =>
    simp only [Cf.step] at hs
    split at hs
    · cases hs
    · rename_i w hw
      have hm := List.mem_of_getElem? hw
      have hlen : s.tm.queue.length = 1 := by have := List.length_pos_of_mem hm; omega
      have hi : i = 0 := by rw [List.getElem?_eq_some_iff] at hw; obtain ⟨hw, _⟩ := hw; omega
      have hr : s.runs = [] := List.length_eq_zero_iff.1 (by omega)
      have ha : s.tm.armed = none := by
        cases h : s.tm.armed with
        | none => rfl
        | some x => simp only [h, Option.toList, List.length_singleton] at i1; omega
      have hq : s.tm.queue.eraseIdx i = [] := List.length_eq_zero_iff.1 (by rw [List.length_eraseIdx_of_lt (by omega)]; omega)
      split at hs
      · rename_i hst
        split at hs <;> cases hs
        rename_i o hc
        refine ⟨?_, ?_⟩
        · have := i3 w hm hst.1
          constructor <;> simp [hq, hr, ha, hst.1, hc, this]
        · have := (h1 o hc).2.2
          simp [CfEv.fineFrom, this]
      · cases hs
        refine ⟨?_, rfl⟩
        unfold Tm.after
        simp only [Bool.false_eq_true, false_and, if_false]
        split <;> constructor <;> simp [hr, ha, hq]
  | ret i r =>
    simp only [Cf.step] at hs
    split at hs <;> cases hs
    rename_i o q ho
    have hm := List.mem_of_getElem? ho
    obtain ⟨j1, j2, j3⟩ := i2 _ hm
    simp only at j2 j3
    have hlen : s.runs.length = 1 := by have := List.length_pos_of_mem hm; omega
    have hi : i = 0 := by rw [List.getElem?_eq_some_iff] at ho; obtain ⟨ho, _⟩ := ho; omega
    have hq : s.tm.queue = [] := List.length_eq_zero_iff.1 (by omega)
    have ha : s.tm.armed = none := by
      cases h : s.tm.armed with
      | none => rfl
      | some x => simp only [h, Option.toList, List.length_singleton] at i1; omega
    have hr : s.runs.eraseIdx i = [] := List.length_eq_zero_iff.1 (by rw [List.length_eraseIdx_of_lt (by omega)]; omega)
    refine ⟨?_, ?_⟩
    · unfold Tm.after
      cases r with
      | true => constructor <;> simp [j1, Tm.start, Tm.abort, j2, ha, hq, hr] <;> grind
      | false => constructor <;> simp [j3, ha, hq, hr]
    · have := (h1 o j2).2.2
      simp [CfEv.fineFrom, this]

/-- **C80** (part). Setting a timer again only if is_timer() is false is safe, whatever the call backs are, if the handlers of earlier waits have run, and the timer is not stopped or started while its call back is running;
there is then never more than one invocation at a time. (This is how the library uses TIMER_CONNECT and TIMER_HEARTBEAT_CHECK.) -/
theorem C80_guarded_partial {as : List CfAct} {s : Cf} {es : List CfEv} (hr : Cf.GoodRun Cf.guarded Cf.init as s es) : CfEv.fine es = true ∧ s.runs.length ≤ 1 := by
  have := Cf.run_fine Cf.One (by constructor <;> simp [Cf.init, Tm.new]) (fun _ _ _ _ _ ho hj hp hs => Cf.step_one ho hj hp hs) hr
  refine ⟨this.2.2, ?_⟩
  have := this.1.one
  omega

/-- TIMER_CONNECT with two failing attempts: the next one is set after the call back of the one before returned. Then a heartbeat like timer that repeats, is stopped and set again. -/
theorem C80_guarded_demo : ∃ s, Cf.GoodRun Cf.guarded Cf.init [.set true false true, .expire, .handler 0, .ret 0 false, .set true false true, .expire, .handler 0, .ret 0 false, .set true false true, .expire, .handler 0, .ret 0 true, .stop, .handler 0, .set true false true] s
    [.called 0, .returned 0 true, .destroyed 0, .called 1, .returned 1 true, .destroyed 1, .called 2, .returned 2 true, .destroyed 2] := by
  refine ⟨_, Cf.goodExec_run (by rfl)⟩

/-- **C80 fails.** If the timer is stopped while its call back is running, is_timer() is false and does not tell that the call back is running: set again, the running function object is destroyed. -/
theorem C80_fails_stop_set : ∃ as s es, Cf.Run Cf.init as s es ∧ CfEv.fine es = false ∧ as = [.set true false true, .expire, .handler 0, .stop, .set true false true, .ret 0 false] := by
  have h : Cf.Run Cf.init [.set true false true, .expire, .handler 0, .stop, .set true false true, .ret 0 false] _ _ := Cf.exec_run rfl
  exact ⟨_, _, _, h, by decide, rfl⟩

/-- **C80 fails**: TIMER_CHECK_RECV. The call back resumes receiving (socket.h:692-715); before it returned, another thread has received more messages, the buffer is full again, and handled_msg sets the timer again
(socket.h:723). The function object, of the kind that reads, is destroyed while it is running. -/
theorem C80_fails_check_recv : ∃ s, Cf.Run Cf.init [.set true false true, .expire, .handler 0, .set true false true, .ret 0 false] s [.called 0, .destroyed 0, .returned 0 true] ∧
    CfEv.fine [.called 0, .destroyed 0, .returned 0 true] = false := by
  have h : Cf.Run Cf.init [.set true false true, .expire, .handler 0, .set true false true, .ret 0 false] _ _ := Cf.exec_run rfl
  exact ⟨_, h, by decide⟩

/-- What a graceful shutdown with `n + 1` rounds does with the function objects, from number `o`. -/
def CfEv.rounds (o : Nat) : Nat → List CfEv
  | 0 => [.called o, .returned o true]
  | n + 1 => [.called o, .destroyed o, .returned o true] ++ CfEv.rounds (o + 1) n

/-- A call back that reads is set and waiting. -/
structure Cf.Ready (o : Nat) (s : Cf) : Prop where
  runs : s.runs = []
  queue : s.tm.queue = []
  status : s.tm.status = .started
  armed : ∃ g, s.tm.armed = some (s.tm.seq, g)
  cb : s.tm.cb = some o
  fresh : s.fresh = o + 1
  readers : s.readers.contains o = true

theorem Cf.rounds_run (n : Nat) : ∀ (o : Nat) (s : Cf), s.Ready o → ∃ s', Cf.Run s (Cf.rounds n) s' (CfEv.rounds o n) := by
  induction n with
  | zero =>
    intro o s h
    obtain ⟨h1, h2, h3, ⟨g, h4⟩, h5, h6, h7⟩ := h
    refine ⟨_, Cf.exec_run (by simp [Cf.rounds, CfEv.rounds, Cf.exec, Cf.step, h4, h2, h3, h5, h1] <;> exact ⟨rfl, by simpa using h7⟩)⟩
  | succ n ih =>
    intro o s h
    obtain ⟨h1, h2, h3, ⟨g, h4⟩, h5, h6, h7⟩ := h
    have hx : ∃ s', Cf.exec s [.expire, .handler 0, .set true false false, .ret 0 true] = some (s', [.called o, .destroyed o, .returned o true]) ∧ s'.Ready (o + 1) := by
      have h8 : o ∈ s.readers := by simpa using h7
      simp [Cf.exec, Cf.step, h4, h2, h3, h5, h1, h8]
      constructor <;> simp [Tm.after, Tm.start, Tm.abort, h6]
    obtain ⟨s1, e1, e2⟩ := hx
    obtain ⟨s2, e3⟩ := ih (o + 1) s1 e2
    exact ⟨s2, (Cf.exec_run e1).trans e3⟩

/-- **C80 fails**: graceful shutdown. With ST_ASIO_GRACEFUL_SHUTDOWN_MAX_DURATION * 100 = n + 1 rounds and a peer that never answers, every round but the last destroys the function object that is running
(tcp/socket.h:469), and then reads the freed memory: n times. -/
theorem C80_fails_graceful_shutdown (n : Nat) : ∃ s, Cf.Run Cf.init (.set true false true :: Cf.rounds n) s (CfEv.rounds 0 n) := by
  have hx : ∃ s, Cf.exec Cf.init [.set true false true] = some (s, []) ∧ s.Ready 0 := ⟨_, rfl, ⟨rfl, rfl, rfl, ⟨1, rfl⟩, rfl, rfl, rfl⟩⟩
  obtain ⟨s1, h, hr⟩ := hx
  obtain ⟨s, hs⟩ := Cf.rounds_run n 0 s1 hr
  exact ⟨s, (Cf.exec_run h).trans hs⟩

/-- How often freed memory is read. -/
def CfEv.wildFrom : List Nat → List CfEv → Nat
  | _, [] => 0
  | dead, .called _ :: es => CfEv.wildFrom dead es
  | dead, .returned o reads :: es => (if reads && dead.contains o then 1 else 0) + CfEv.wildFrom dead es
  | dead, .destroyed o :: es => CfEv.wildFrom (o :: dead) es

theorem CfEv.rounds_wild (n : Nat) : ∀ (o : Nat) (D : List Nat), (∀ x ∈ D, x < o) → CfEv.wildFrom D (CfEv.rounds o n) = n := by
  induction n with
  | zero =>
    intro o D h
    have : o ∉ D := fun hm => Nat.lt_irrefl _ (h o hm)
    simp [CfEv.rounds, CfEv.wildFrom, this]
  | succ n ih =>
    intro o D h
    simp only [CfEv.rounds, List.cons_append, List.nil_append, CfEv.wildFrom]
    rw [ih (o + 1) (o :: D) (by intro x hx; cases List.mem_cons.1 hx with | inl h => omega | inr h' => have := h x h'; omega)]
    simp; omega

/-- How often freed memory is read in it. -/
theorem C80_fails_graceful_count (n : Nat) : CfEv.wildFrom [] (CfEv.rounds 0 n) = n ∧ CfEv.fine (CfEv.rounds 0 (n + 1)) = false :=
  ⟨CfEv.rounds_wild n 0 [] (by simp), by simp [CfEv.fine, CfEv.rounds, CfEv.fineFrom]⟩

end StAsio
