import Verif.Lemmas.TimedTimer2
/-!
# C71, C72: when timers call back

`Tt.Run u steady aligned (Tt.init m x) as s es`: a history of one timer; `u` ticks are a millisecond, `steady`: ST_ASIO_USE_STEADY_TIMER, `aligned`: ST_ASIO_ALIGNED_TIMER. The times in the events are
those of a clock that cannot be set. `steady = true ∨ TtEv.clock ∉ es`: a steady timer, or nobody sets the system clock.
-/
set_option autoImplicit false
namespace StAsio

/-- C71, in every history: each call of the call back belongs to a start of the timer (by the program, or by the library after a call) made at least as long ago as it said, and no two calls belong to the same start. -/
theorem C71_own_start (u : Nat) (steady aligned : Bool) (m : Nat) (x : Int) (as : List TtAct) (s : Tt) (es : List TtEv) (hr : Tt.Run u steady aligned (Tt.init m x) as s es)
    (hcl : steady = true ∨ TtEv.clock ∉ es) :
    (∀ pre t g post, es = pre ++ .fired t g :: post → 0 < g ∧ ∃ t0 ms, (ttStarts pre)[g - 1]? = some (t0, ms) ∧ t0 + ms * u ≤ t) ∧ (ttFired es).Nodup := by
  refine ⟨?_, (List.nodup_append.mp (Tt.run_inv hcl hr).nodup).2.1⟩
  induction hr with
  | nil => simp
  | snoc s1 s2 as a es fs hr hs ih =>
    intro pre t g post e
    have hi := Tt.run_inv (by grind) hr
    rcases append_cons_cases e with ⟨q, hq⟩ | ⟨p, hp, hf⟩
    · exact ih (by grind) pre t g q hq
    · have hl := (Tt.step_eq hs).2
      obtain ⟨_, _, g3⟩ := Tt.live_shape hl
      have hm : TtEv.fired t g ∈ fs := by rw [hf]; simp
      have hfs := g3 t g hm
      rw [hfs] at hf
      obtain ⟨rfl, _, _⟩ := singleton_split hf
      rw [List.append_nil] at hp
      subst hp
      obtain ⟨w, hw, hok, _, rfl, rfl⟩ := Tt.live_fired hl hm
      obtain ⟨q1, q2, q3⟩ := hi.queue w hw hok
      exact ⟨q1, q3⟩

/-- C71, never early: if the timer is never started while an expiry waits for its handler, the call back is invoked only when it is due: not before the milliseconds given by the newest start have passed,
once per start, and not after a stop. -/
theorem C71_never_early_partial (u : Nat) (steady aligned : Bool) (m : Nat) (x : Int) (as : List TtAct) (s : Tt) (es : List TtEv) (hr : Tt.Run u steady aligned (Tt.init m x) as s es)
    (hcl : steady = true ∨ TtEv.clock ∉ es) (hc : CleanStart es) (pre : List TtEv) (t g : Nat) (post : List TtEv) (he : es = pre ++ .fired t g :: post) : ∃ d, due u pre = some d ∧ d ≤ t := by
  induction hr generalizing pre t g post with
  | nil => simp at he
  | snoc s1 s2 as a es fs hr hs ih =>
    rcases append_cons_cases he with ⟨q, hq⟩ | ⟨p, hp, hf⟩
    · exact ih (by grind) hc.left pre t g q hq
    · obtain ⟨hn, hl⟩ := Tt.step_eq hs
      obtain ⟨_, _, g3⟩ := Tt.live_shape hl
      have hm : TtEv.fired t g ∈ fs := by rw [hf]; simp
      rw [g3 t g hm] at hf
      obtain ⟨rfl, _, _⟩ := singleton_split hf
      rw [List.append_nil] at hp
      subst hp
      obtain ⟨w, hw, hok, hst, rfl, rfl⟩ := Tt.live_fired hl hm
      rcases Tt.run_cinv (by grind) hc.left hr with h | h
      · rw [hn] at h; cases h
      · exact h.queue hst w hw hok

/-- C71, not late: when the call back of a running timer is due, it can be invoked at this very moment by the library alone. -/
theorem C71_prompt_partial (u : Nat) (steady aligned : Bool) (m : Nat) (x : Int) (as : List TtAct) (s : Tt) (es : List TtEv) (hr : Tt.Run u steady aligned (Tt.init m x) as s es)
    (hcl : steady = true ∨ TtEv.clock ∉ es) (hc : CleanStart es) (hok : s.crashed = false) (hst : s.status = .started) (d : Nat) (hd : due u es = some d) (hle : d ≤ s.mono) :
    ∃ bs s' fs g, Tt.Run u steady aligned s bs s' fs ∧ (∀ b ∈ bs, b = .expire ∨ ∃ i, b = .run i) ∧ TtEv.fired s.mono g ∈ fs := by
  have hi := Tt.run_inv hcl hr
  rcases Tt.run_cinv hcl hc hr with h | h
  · rw [hok] at h; cases h
  have key : ∀ s1 : Tt, s1.crashed = false → s1.status = .started → s1.mono = s.mono → (∃ w ∈ s1.queue, w.ok = true) →
      ∃ i s' g, s1.step u steady aligned (.run i) = some (s', [.fired s.mono g]) := by
    intro s1 h1 h2 h3 ⟨w, h4, h5⟩
    obtain ⟨i, hlt, hi⟩ := List.getElem_of_mem h4
    refine ⟨i, { s1 with queue := s1.queue.eraseIdx i, calls := s1.calls ++ [⟨s1.mono, s1.sys, w.seq⟩] }, w.gen, ?_⟩
    have : s1.queue[i]? = some w := by rw [List.getElem?_eq_getElem hlt, hi]
    simp [Tt.step, Tt.live, h1, this, h2, h5, h3]
  rcases h.due hst (by rw [hd]; simp) with ⟨w, hw⟩ | hp
  · obtain ⟨d', d1, d2⟩ := h.armed hst w hw
    rw [hd, Option.some.injEq] at d1
    subst d1
    have hdl : w.dl ≤ s.clock steady := by rw [hi.clock, d2]; omega
    have h1 : s.step u steady aligned .expire = some ({ s with armed := none, queue := s.queue ++ [⟨true, w.seq, w.gen⟩] }, [.expired]) := by
      simp [Tt.step, Tt.live, hok, hw, hdl]
    obtain ⟨i, s', g, h2⟩ := key { s with armed := none, queue := s.queue ++ [⟨true, w.seq, w.gen⟩] } hok hst rfl ⟨⟨true, w.seq, w.gen⟩, by simp, rfl⟩
    exact ⟨_, s', _, g, .snoc _ _ _ _ _ _ _ (.snoc _ _ _ _ _ _ _ (.nil s) h1) h2, by simp, by simp⟩
  · have hq : ∃ w ∈ s.queue, w.ok = true := by
      rw [hi.pend] at hp
      obtain ⟨w, hw⟩ := List.exists_mem_of_length_pos hp
      exact ⟨w, (List.mem_filter.mp hw).1, (List.mem_filter.mp hw).2⟩
    obtain ⟨i, s', g, h2⟩ := key s hok hst rfl hq
    exact ⟨_, s', _, g, .snoc _ _ _ _ _ _ _ (.nil s) h2, by simp, by simp⟩

/-- C71: a running timer (is_timer) is due at some time, or its call back is running. -/
theorem C71_not_forgotten_partial (u : Nat) (steady aligned : Bool) (m : Nat) (x : Int) (as : List TtAct) (s : Tt) (es : List TtEv) (hr : Tt.Run u steady aligned (Tt.init m x) as s es)
    (hcl : steady = true ∨ TtEv.clock ∉ es) (hc : CleanStart es) (hok : s.crashed = false) (hst : s.status = .started) : (∃ d, due u es = some d) ∨ 0 < running es := by
  have hi := Tt.run_inv hcl hr
  rcases Tt.run_cinv hcl hc hr with h | h
  · rw [hok] at h; cases h
  rcases h.live hst with ⟨w, hw⟩ | hp | ⟨k, hk, _⟩
  · obtain ⟨d, d1, _⟩ := h.armed hst w hw
    exact .inl ⟨d, d1⟩
  · rw [hi.pend] at hp
    obtain ⟨w, hw⟩ := List.exists_mem_of_length_pos hp
    obtain ⟨d, d1, _⟩ := h.queue hst w (List.mem_filter.mp hw).1 (List.mem_filter.mp hw).2
    exact .inl ⟨d, d1⟩
  · exact .inr (by rw [hi.run]; exact List.length_pos_of_mem hk)

/-- C71, period without ST_ASIO_ALIGNED_TIMER: the library starts the timer again when the call back returns true, for the interval in effect. -/
theorem C71_period (u : Nat) (steady : Bool) (m : Nat) (x : Int) (as : List TtAct) (s : Tt) (es : List TtEv) (hr : Tt.Run u steady false (Tt.init m x) as s es)
    (pre : List TtEv) (b t ms : Nat) (post : List TtEv) (he : es = pre ++ .again b t ms :: post) : ms = inEffect pre ∧ ∃ pre', pre = pre' ++ [.ended t true] := by
  obtain ⟨s1, as1, pre', hr1, i, k, rfl, hk, hst, hp, ht, hms⟩ := Tt.run_again hr he
  simp only [Bool.false_eq_true, if_false, Option.some.injEq] at hms
  rw [← hms, inEffect_append, (Tt.run_einv hr1).interval]
  exact ⟨rfl, pre', rfl⟩

/-- C71, period with ST_ASIO_ALIGNED_TIMER: after a call which began at `b` and ended at `t`, the timer becomes due a whole number of intervals after `b` (at least one), give or take less than a millisecond,
and not more than one interval after `t`. -/
theorem C71_aligned (u : Nat) (hu : 0 < u) (steady : Bool) (m : Nat) (x : Int) (as : List TtAct) (s : Tt) (es : List TtEv) (hr : Tt.Run u steady true (Tt.init m x) as s es) (hcl : TtEv.clock ∉ es)
    (pre : List TtEv) (b t ms : Nat) (post : List TtEv) (he : es = pre ++ .again b t ms :: post) (hlong : t - b < 4294967296 * u) :
    (∃ g, TtEv.fired b g ∈ pre) ∧ b ≤ t ∧ ms ≤ inEffect pre ∧ ∃ k r, 1 ≤ k ∧ r < u ∧ t + ms * u = b + k * inEffect pre * u + r := by
  obtain ⟨s1, as1, pre', hr1, i, k, rfl, hk, hst, hb, ht, hms⟩ := Tt.run_again hr he
  have hei := Tt.run_einv hr1
  obtain ⟨hc1, g, hc2⟩ := hei.calls k (List.mem_of_getElem? hk)
  obtain ⟨p1, p2⟩ := Tt.run_parallel hr1 (by grind)
  have p3 := p2 k (List.mem_of_getElem? hk)
  have hie : inEffect (pre' ++ [.ended t true]) = s1.interval := by rw [inEffect_append, hei.interval]; rfl
  rw [hie]
  simp only [if_true] at hms
  have hs : s1.sys = k.sys + ((t - b : Nat) : Int) := by rw [p1, p3, hb, ht]; omega
  rw [hs] at hms
  obtain ⟨w1, n, r, w2, w3, w4⟩ := alignedWait_spec hu hlong hms
  exact ⟨⟨g, by rw [hb]; simp [hc2]⟩, by omega, w1, n, r, w2, w3, by omega⟩

/-- ... and never more than one interval after `t`, even if the system clock is set during the call. -/
theorem C71_aligned_bounded (u : Nat) (steady : Bool) (m : Nat) (x : Int) (as : List TtAct) (s : Tt) (es : List TtEv) (hr : Tt.Run u steady true (Tt.init m x) as s es)
    (pre : List TtEv) (b t ms : Nat) (post : List TtEv) (he : es = pre ++ .again b t ms :: post) : ms ≤ inEffect pre := by
  obtain ⟨s1, as1, pre', hr1, i, k, rfl, hk, hst, hb, ht, hms⟩ := Tt.run_again hr he
  rw [inEffect_append, ← (Tt.run_einv hr1).interval]
  exact alignedWait_le hms

/-- C71: the process never crashes, except with ST_ASIO_ALIGNED_TIMER and an interval of zero. -/
theorem C71_no_crash (u : Nat) (steady aligned : Bool) (m : Nat) (x : Int) (as : List TtAct) (s : Tt) (es : List TtEv) (hr : Tt.Run u steady aligned (Tt.init m x) as s es)
    (pre post : List TtEv) (he : es = pre ++ .crash :: post) : aligned = true ∧ inEffect pre = 0 := by
  induction hr generalizing pre post with
  | nil => simp at he
  | snoc s1 s2 as a es fs hr hs ih =>
    rcases append_cons_cases he with ⟨q, hq⟩ | ⟨p, hp, hf⟩
    · exact ih pre q hq
    · obtain ⟨hn, hl⟩ := Tt.step_eq hs
      have hm : TtEv.crash ∈ fs := by rw [hf]; simp
      obtain ⟨i, k, ret, rfl, hk, hfs, hw⟩ := Tt.live_crash hl hm
      rw [hfs] at hf
      rcases pair_split hf with ⟨_, h, _⟩ | ⟨rfl, _, _⟩
      · cases h
      · subst hp
        cases aligned with
        | false => simp at hw
        | true =>
          refine ⟨rfl, ?_⟩
          rw [inEffect_append, ← (Tt.run_einv hr).interval]
          simp only [if_true, alignedWait] at hw
          split at hw
          · split at hw
            · assumption
            · cases hw
          · cases hw

/-- C72: if the program does not start the timer while an expiry waits for its handler or while the call back is running, calls of the call back never overlap, and (C71) nothing happens early. -/
theorem C72_in_sequence_partial (u : Nat) (steady aligned : Bool) (m : Nat) (x : Int) (as : List TtAct) (s : Tt) (es : List TtEv) (hr : Tt.Run u steady aligned (Tt.init m x) as s es)
    (hcl : steady = true ∨ TtEv.clock ∉ es) (hc : Separate es) : running es ≤ 1 ∧ CleanStart es := by
  obtain ⟨h1, h2⟩ := Tt.run_sinv hcl hc hr
  unfold Tt.SInv at h1
  exact ⟨by omega, h2⟩

/-- C72 is false of the code: if the call back starts its timer and runs on, it is invoked again, on another service thread, before it has returned (timer.h:32 says that it is called in sequence). -/
theorem C72_fails_restart : ∃ as s es, Tt.Run 1000 true false (Tt.init 0 0) as s es ∧ running es = 2 ∧ CleanStart es ∧
    es = [.start 0 100, .expired, .fired 100000 1, .start 100000 100, .expired, .fired 200000 2] := by
  have h : Tt.Run 1000 true false (Tt.init 0 0) [.set 100, .tick 100000, .expire, .run 0, .start, .tick 100000, .expire, .run 0] _ _ := Tt.exec_run rfl
  refine ⟨_, _, _, h, by decide +kernel, ?_, by decide +kernel⟩
  constructor
  · intro pre t ms post e
    change [TtEv.start 0 100, .expired, .fired 100000 1, .start 100000 100, .expired, .fired 200000 2] = pre ++ .start t ms :: post at e
    rcases pre with _ | ⟨a, _ | ⟨b, _ | ⟨c, _ | ⟨d, _ | ⟨f, _ | ⟨g, pre⟩⟩⟩⟩⟩⟩ <;> simp at e <;> (try (obtain ⟨rfl, rfl, rfl, _⟩ := e)) <;> first | rfl | decide
  · intro pre b t ms post e
    change [TtEv.start 0 100, .expired, .fired 100000 1, .start 100000 100, .expired, .fired 200000 2] = pre ++ .again b t ms :: post at e
    rcases pre with _ | ⟨a, _ | ⟨b, _ | ⟨c, _ | ⟨d, _ | ⟨f, _ | ⟨g, pre⟩⟩⟩⟩⟩⟩ <;> simp at e

/-- C71 is false of the code if an expiry waits for its handler while the timer is set again: it is set for a minute and calls back at once. -/
theorem C71_fails_stale : ∃ as s es, Tt.Run 1000 true false (Tt.init 0 0) as s es ∧ es = [.start 0 100, .expired, .start 100000 60000, .fired 100000 1] := by
  have h : Tt.Run 1000 true false (Tt.init 0 0) [.set 100, .tick 100000, .expire, .set 60000, .run 0] _ _ := Tt.exec_run rfl
  exact ⟨_, _, _, h, by decide +kernel⟩

/-- C71 is false of the code without ST_ASIO_USE_STEADY_TIMER: when the system clock is set forward by a minute, a timer set for a minute calls back at once. -/
theorem C71_fails_clock : ∃ as s es, Tt.Run 1000 false false (Tt.init 0 0) as s es ∧ es = [.start 0 60000, .clock, .expired, .fired 0 1] := by
  have h : Tt.Run 1000 false false (Tt.init 0 0) [.set 60000, .setClock 60000000, .expire, .run 0] _ _ := Tt.exec_run rfl
  exact ⟨_, _, _, h, by decide +kernel⟩

/-- With ST_ASIO_ALIGNED_TIMER, a timer with interval 0 crashes the process if its call back takes a millisecond and returns true: division by zero. -/
theorem C71_fails_zero (steady : Bool) : ∃ as s es, Tt.Run 1000 steady true (Tt.init 0 0) as s es ∧ s.crashed = true ∧ es = [.start 0 0, .expired, .fired 0 1, .ended 1000 true, .crash] := by
  have h : Tt.Run 1000 steady true (Tt.init 0 0) [.set 0, .expire, .run 0, .tick 1000, .finish 0 true] _ _ := Tt.exec_run (by cases steady <;> rfl)
  exact ⟨_, _, _, h, by cases steady <;> decide +kernel, by cases steady <;> decide +kernel⟩

/-- Non-vacuity: a timer with an interval of 100 ms whose call back takes 30 ms, twice, then 250 ms, with both settings. -/
theorem C71_demo : (∃ s, Tt.Run 1000 true false (Tt.init 0 0) [.set 100, .tick 100000, .expire, .run 0, .tick 30000, .finish 0 true, .tick 100000, .expire, .run 0, .tick 250000, .finish 0 true] s
      [.start 0 100, .expired, .fired 100000 1, .ended 130000 true, .again 100000 130000 100, .expired, .fired 230000 2, .ended 480000 true, .again 230000 480000 100]) ∧
    (∃ s, Tt.Run 1000 true true (Tt.init 0 0) [.set 100, .tick 100000, .expire, .run 0, .tick 30000, .finish 0 true, .tick 70000, .expire, .run 0, .tick 250000, .finish 0 true] s
      [.start 0 100, .expired, .fired 100000 1, .ended 130000 true, .again 100000 130000 70, .expired, .fired 200000 2, .ended 450000 true, .again 200000 450000 50]) := by
  constructor
  · exact ⟨_, Tt.exec_run rfl⟩
  · exact ⟨_, Tt.exec_run rfl⟩

/-- ... in which the hypotheses of the theorems above hold. -/
example : Separate [.start 0 100, .expired, .fired 100000 1, .ended 130000 true, .again 100000 130000 100, .expired, .fired 230000 2, .ended 480000 true, .again 230000 480000 100] := by
  intro pre t ms post e
  rcases pre with _ | ⟨a, _ | ⟨b, _ | ⟨c, _ | ⟨d, _ | ⟨f, _ | ⟨g, _ | ⟨h, _ | ⟨i, _ | ⟨j, pre⟩⟩⟩⟩⟩⟩⟩⟩⟩ <;> simp at e
  decide

end StAsio
