import Verif.Lemmas.SyncTime

/-!
# C113: synchronous reception returns in time
-/

set_option autoImplicit false

namespace StAsio

/-- C113, all at once: someone with a stop watch accepts whatever they see of synchronous reception. -/
theorem C113_watch (as : List SwAct) (s : Sw) (es : List SwEv) (h : Sw.Run Sw.init as s es) : ((SwWatch.mk none false).seeAll es).isSome = true := by
  rw [(Sw.run_inv h).watch]; rfl

private theorem see_waiting (es : List SwEv) : ∀ (w w' : SwWatch) (k d : Nat), w.wait = some (k, d) → (∀ e ∈ es, SwEv.returns e = false) → w.seeAll es = some w' →
    w'.wait = some (k + swTime es, d) ∧ (d ≠ 0 → k ≤ d → k + swTime es ≤ d) ∧ (w.answered = true → swTime es = 0 ∧ w'.answered = true) ∧ (SwEv.ev .offered ∈ es → w'.answered = true) := by
  induction es with
  | nil =>
    intro w w' k d hw _ h
    simp only [SwWatch.seeAll, Option.some.injEq] at h
    subst h
    exact ⟨by simpa [swTime] using hw, fun _ hk => by simpa [swTime] using hk, fun ha => ⟨rfl, ha⟩, fun hm => by simp at hm⟩
  | cons e es ih =>
    intro w w' k d hw hr h
    simp only [SwWatch.seeAll] at h
    cases h1 : w.see e with
    | none => rw [h1] at h; cases h
    | some w1 =>
      rw [h1] at h
      have hr1 := hr e (List.mem_cons_self ..)
      have ih := fun k' hw' => ih w1 w' k' d hw' (fun e he => hr e (List.mem_cons_of_mem _ he)) h
      cases e with
      | tick =>
        simp only [SwWatch.see, hw] at h1
        split at h1
        · cases h1
        · rename_i hn
          cases h1
          obtain ⟨i1, i2, i3, i4⟩ := ih (k + 1) rfl
          have e : swTime (.tick :: es) = swTime es + 1 := by simp [swTime]
          rw [e]
          refine ⟨by rw [i1]; congr 2; omega, fun hd hk => ?_, fun ha => absurd (Or.inl ha) hn, fun hm => i4 (by simpa using hm)⟩
          have : ¬ d ≤ k := fun hx => hn (Or.inr ⟨hd, hx⟩)
          have := i2 hd (by omega)
          omega
      | called d' => simp [SwWatch.see, hw] at h1
      | ev f =>
        have e : swTime (.ev f :: es) = swTime es := by simp [swTime]
        rw [e]
        cases f with
        | success ms => simp [SwEv.returns] at hr1
        | timeout => simp [SwEv.returns] at hr1
        | notApplicable => simp [SwEv.returns] at hr1
        | called => simp [SwWatch.see] at h1
        | offered =>
          simp only [SwWatch.see] at h1
          split at h1
          · cases h1
          · rename_i hn
            cases h1
            obtain ⟨i1, i2, i3, i4⟩ := ih k hw
            exact ⟨i1, i2, fun ha => absurd (Or.inr ha) hn, fun _ => (i3 rfl).2⟩
        | duplicate =>
          simp only [SwWatch.see] at h1
          split at h1
          · cases h1
            obtain ⟨i1, i2, i3, i4⟩ := ih k hw
            exact ⟨i1, i2, i3, fun hm => i4 (by simpa using hm)⟩
          · cases h1
        | received ms =>
          simp only [SwWatch.see, Option.some.injEq] at h1; subst h1
          obtain ⟨i1, i2, i3, i4⟩ := ih k hw
          exact ⟨i1, i2, i3, fun hm => i4 (by simpa using hm)⟩
        | async ms =>
          simp only [SwWatch.see, Option.some.injEq] at h1; subst h1
          obtain ⟨i1, i2, i3, i4⟩ := ih k hw
          exact ⟨i1, i2, i3, fun hm => i4 (by simpa using hm)⟩
        | recvError =>
          simp only [SwWatch.see, Option.some.injEq] at h1; subst h1
          obtain ⟨i1, i2, i3, i4⟩ := ih k hw
          exact ⟨i1, i2, i3, fun hm => i4 (by simpa using hm)⟩

private theorem see_called {es1 es2 : List SwEv} {d : Nat} {w' : SwWatch} (h : (SwWatch.mk none false).seeAll (es1 ++ .called d :: es2) = some w') : (SwWatch.mk (some (0, d)) false).seeAll es2 = some w' := by
  rw [SwWatch.seeAll_append] at h
  cases h1 : (SwWatch.mk none false).seeAll es1 with
  | none => rw [h1] at h; cases h
  | some w =>
    rw [h1] at h
    simp only [Option.bind_some, SwWatch.seeAll, SwWatch.see] at h
    split at h
    · simpa using h
    · cases h

/-- C113: a call with a duration that is admitted returns within it: at no time has it been waiting longer, whatever happens to the link and whatever other threads do (together with C113_time_goes_on). -/
theorem C113_in_time (as : List SwAct) (s : Sw) (es1 es2 : List SwEv) (d : Nat) (hd : d ≠ 0) (h : Sw.Run Sw.init as s (es1 ++ .called d :: es2))
    (hr : ∀ e ∈ es2, SwEv.returns e = false) : swTime es2 ≤ d := by
  have hw := see_called (Sw.run_inv h).watch
  have := (see_waiting es2 _ _ 0 d rfl hr hw).2.1 hd (by omega)
  omega

/-- C113: TIMEOUT is returned only to a caller that gave a duration, exactly at the end of it, and only if no messages have been offered to it. -/
theorem C113_timeout (as : List SwAct) (s : Sw) (es1 es2 es3 : List SwEv) (d : Nat) (h : Sw.Run Sw.init as s (es1 ++ .called d :: (es2 ++ .ev .timeout :: es3)))
    (hr : ∀ e ∈ es2, SwEv.returns e = false) : d ≠ 0 ∧ swTime es2 = d ∧ SwEv.ev .offered ∉ es2 := by
  have hw := see_called (Sw.run_inv h).watch
  rw [SwWatch.seeAll_append] at hw
  cases h1 : (SwWatch.mk (some (0, d)) false).seeAll es2 with
  | none => rw [h1] at hw; cases hw
  | some w =>
    rw [h1] at hw
    obtain ⟨i1, i2, i3, i4⟩ := see_waiting es2 _ _ 0 d rfl hr h1
    simp only [Option.bind_some, SwWatch.seeAll, SwWatch.see, i1] at hw
    split at hw
    · rename_i hc
      refine ⟨hc.1, by omega, fun hm => ?_⟩
      rw [i4 hm] at hc; cases hc.2.2
    · cases hw

/-- C113: messages that have been offered to a caller are returned to it at once, with or without a duration: no time passes before. -/
theorem C113_prompt (as : List SwAct) (s : Sw) (es1 es2 es3 : List SwEv) (d : Nat) (h : Sw.Run Sw.init as s (es1 ++ .called d :: (es2 ++ .ev .offered :: es3)))
    (hr2 : ∀ e ∈ es2, SwEv.returns e = false) (hr3 : ∀ e ∈ es3, SwEv.returns e = false) : swTime es3 = 0 := by
  have hw := see_called (Sw.run_inv h).watch
  rw [SwWatch.seeAll_append] at hw
  cases h1 : (SwWatch.mk (some (0, d)) false).seeAll es2 with
  | none => rw [h1] at hw; cases hw
  | some w =>
    rw [h1] at hw
    obtain ⟨i1, _, _, _⟩ := see_waiting es2 _ _ 0 d rfl hr2 h1
    simp only [Option.bind_some, SwWatch.seeAll] at hw
    cases h2 : w.see (.ev .offered) with
    | none => rw [h2] at hw; cases hw
    | some w1 =>
      rw [h2] at hw
      simp only [SwWatch.see] at h2
      split at h2
      · cases h2
      · cases h2
        exact ((see_waiting es3 ⟨w.wait, true⟩ _ _ d i1 hr3 (by simpa using hw)).2.2.1 rfl).1

private theorem finish_idle (s : Sr) (h : s.strand = .idle) : s.finish.1.closing = s.closing ∧ s.finish.1.strand = .idle := by
  simp only [Sr.finish]; split <;> simp [Sr.notifyStrand, h]

private theorem internal_clocked {a : SAct} (ha : a.Internal) : a.clocked = false := by
  cases a <;> simp_all [SAct.Internal, SAct.clocked]

/-- Steps of the library itself: no new call, no read, no close. -/
def SwAct.own : SwAct → Prop
  | .act a => a.Internal
  | .timeout => True
  | _ => False

private theorem Sw.to_rest (n : Nat) : ∀ (s : Sw), s.sr.Inv → s.sr.work ≤ n →
    ∃ as s' es, Sw.Run s as s' es ∧ (∀ a ∈ as, SwAct.own a) ∧ s'.sr.Inv ∧ s'.sr.Quiet ∧ s'.now = s.now ∧ s'.since = s.since ∧ s'.dur = s.dur ∧ (s'.sr.caller ≠ .none → s.sr.caller ≠ .none ∧ s'.sr.timed = s.sr.timed) := by
  induction n with
  | zero =>
    intro s hi hn
    rcases Classical.em s.sr.Quiet with hq | hq
    · exact ⟨[], s, [], .nil _, by simp, hi, hq, rfl, rfl, rfl, fun hc => ⟨hc, rfl⟩⟩
    · obtain ⟨a, r, es, ha, hs⟩ := Sr.progress hi hq
      have := Sr.step_work hi ha hs
      omega
  | succ n ih =>
    intro s hi hn
    rcases Classical.em s.sr.Quiet with hq | hq
    · exact ⟨[], s, [], .nil _, by simp, hi, hq, rfl, rfl, rfl, fun hc => ⟨hc, rfl⟩⟩
    · obtain ⟨a, r, es, ha, hs⟩ := Sr.progress hi hq
      have hw := Sr.step_work hi ha hs
      have hstep : s.step (.act a) = some ({ s with sr := r }, es.map .ev) := by
        simp [Sw.step, internal_clocked ha, hs]
      obtain ⟨as, s', fs, hr, ho, hi', hq', e1, e2, e3, e4⟩ := ih { s with sr := r } (Sr.step_inv hi hs).1 (by simp only []; omega)
      have h1 : Sw.Run s ([] ++ [.act a]) { s with sr := r } ([] ++ es.map .ev) := .snoc _ _ _ _ _ _ _ (.nil _) hstep
      refine ⟨_, s', _, Sw.run_trans h1 hr, ?_, hi', hq', e1, e2, e3, ?_⟩
      · intro x hx
        simp only [List.nil_append, List.cons_append, List.mem_cons] at hx
        rcases hx with rfl | hx
        · exact ha
        · exact ho x hx
      · intro hc
        obtain ⟨c1, c2⟩ := e4 hc
        obtain ⟨c3, c4⟩ := Sr.keeps (by intro x y hx; subst hx; exact ha) hs c1
        exact ⟨c3, by rw [c2]; exact c4⟩

/-- C113: time goes on. In every state the library has a finite number of steps of its own after which time can pass; so the bound of C113_in_time is not met by standing still. -/
theorem C113_time_goes_on (as : List SwAct) (s : Sw) (es : List SwEv) (h : Sw.Run Sw.init as s es) :
    ∃ as' s' es' s'', Sw.Run s as' s' es' ∧ (∀ a ∈ as', SwAct.own a) ∧ s'.step .tick = some (s'', [.tick]) := by
  have hi := Sw.run_inv h
  obtain ⟨bs, s1, fs, hr, ho, hi1, hq1, e1, e2, e3, e4⟩ := Sw.to_rest _ s hi.base (Nat.le_refl _)
  have hqq := Sr.quiet hi1 hq1
  have hrest : s1.sr.resting = true := by
    obtain ⟨q1, q2, _⟩ := hq1
    rcases q2 with q2 | q2 <;> simp [Sr.resting, q1, q2, hqq.1]
  by_cases hd : s1.due = true
  · simp only [Sw.due, Bool.and_eq_true, bne_iff_ne, ne_eq, decide_eq_true_eq] at hd
    obtain ⟨⟨d1, d2⟩, d3⟩ := hd
    have hb : s1.sr.caller = .blocked := by rcases hq1.2.1 with q | q; exact absurd q d1; exact q
    have ht : s1.sr.timed = true := by
      rw [(e4 d1).2, hi.timed (e4 d1).1]; simpa [e3] using d2
    have hl : s1.sr.locked = false := by simp [Sr.locked, hb, hqq.1]
    obtain ⟨r, gs, hs, hr1, hr2, hr3⟩ : ∃ r gs, s1.sr.step .timeout = some (r, gs) ∧ r.caller = .none ∧ r.closing = false ∧ r.strand = .idle := by
      simp only [Sr.step, ht, hb, hl]
      rw [if_neg (by simp)]
      split
      · have hf := finish_idle s1.sr hqq.1
        exact ⟨s1.sr.finish.1, s1.sr.finish.2, rfl, Sr.finish_caller _, by rw [hf.1]; exact hq1.1, hf.2⟩
      · exact ⟨_, _, rfl, by simp [Sr.notifyStrand, hqq.1], by simp [Sr.notifyStrand, hqq.1, hq1.1], by simp [Sr.notifyStrand, hqq.1]⟩
    have hstep : s1.step .timeout = some ({ s1 with sr := r }, gs.map .ev) := by
      simp [Sw.step, Sw.due, d1, d2, d3, hs]
    refine ⟨bs ++ [.timeout], { s1 with sr := r }, _, { s1 with sr := r, now := s1.now + 1 }, .snoc _ _ _ _ _ _ _ hr hstep, ?_, ?_⟩
    · intro x hx
      simp only [List.mem_append, List.mem_singleton] at hx
      rcases hx with hx | rfl
      · exact ho x hx
      · trivial
    · simp only [Sw.step, Sr.resting, Sw.due, hr1, hr2, hr3]; rfl
  · have hd : s1.due = false := by simpa using hd
    exact ⟨bs, s1, fs, { s1 with now := s1.now + 1 }, hr, ho, by simp only [Sw.step, hrest, hd]; rfl⟩

private def foreverStart : List SwAct := [.act .start, .act (.read [[1]] false), .act (.handle true), .act (.moveAsync true), .call 0 false, .act .closeSet, .act .closeNotify, .act .park]

private def foreverSt (n : Nat) : Sw := ⟨{ sr := .requested, started := false, closing := false, temp := [], caller := .blocked, timed := false, strand := .idle, rd := .off, late := true, race := false, overlap := false }, n, 0, 0⟩

/-- Without a duration there is no bound, not even when the link is closed: if close() falls between the test of a caller and its blocking, while reception is suspended, the caller waits for ever (see C28_fails_close). -/
theorem C113_fails_forever (n : Nat) : ∃ as s es, Sw.Run Sw.init as s es ∧ s.sr.started = false ∧ s.sr.caller = .blocked ∧ s.now = n ∧ s.since = 0 ∧ (∀ e ∈ es, SwEv.returns e = false) := by
  have h0 : ∃ es, Sw.Run Sw.init foreverStart (foreverSt 0) es ∧ ∀ e ∈ es, SwEv.returns e = false := by
    refine ⟨_, Sw.exec_run rfl, by decide +kernel⟩
  suffices ∀ n, ∃ as es, Sw.Run Sw.init as (foreverSt n) es ∧ ∀ e ∈ es, SwEv.returns e = false by
    obtain ⟨as, es, h1, h2⟩ := this n
    exact ⟨as, _, es, h1, rfl, rfl, rfl, rfl, h2⟩
  intro n
  induction n with
  | zero => obtain ⟨es, h⟩ := h0; exact ⟨_, es, h⟩
  | succ n ih =>
    obtain ⟨as, es, h1, h2⟩ := ih
    refine ⟨as ++ [.tick], es ++ [.tick], .snoc _ _ _ _ _ _ _ h1 rfl, ?_⟩
    intro e he
    simp only [List.mem_append, List.mem_singleton] at he
    rcases he with he | rfl
    · exact h2 e he
    · rfl

/-- Non-vacuity: a caller gets messages after one unit of time, the next one TIMEOUT after two. -/
theorem C113_demo : ∃ s es, Sw.Run Sw.init [.act .start, .call 3 false, .act .park, .tick, .act (.read [[7]] false), .act (.handle false), .act .strandPark, .act .callerRun, .act (.strandRun false),
      .call 2 false, .act .park, .tick, .tick, .timeout] s es ∧
    es = [.called 3, .tick, .ev (.received [[7]]), .ev .offered, .ev (.success [[7]]), .called 2, .tick, .tick, .ev .timeout] := by
  obtain ⟨s, es, h1, h2⟩ := Sw.run_of [.act .start, .call 3 false, .act .park, .tick, .act (.read [[7]] false), .act (.handle false), .act .strandPark, .act .callerRun, .act (.strandRun false),
      .call 2 false, .act .park, .tick, .tick, .timeout] (fun _ es => decide (es = [.called 3, .tick, .ev (.received [[7]]), .ev .offered, .ev (.success [[7]]), .called 2, .tick, .tick, .ev .timeout])) (by decide +kernel)
  exact ⟨s, es, h1, of_decide_eq_true h2⟩

/-- In the situation of C113_fails_forever a caller with a duration is released at the end of it. -/
theorem C113_rescue_demo : ∃ s es, Sw.Run Sw.init [.act .start, .act (.read [[1]] false), .act (.handle true), .act (.moveAsync true), .call 2 false, .act .closeSet, .act .closeNotify, .act .park, .tick, .tick, .timeout] s es ∧
    es = [.ev (.received [[1]]), .ev (.async [[1]]), .called 2, .tick, .tick, .ev .notApplicable] := by
  obtain ⟨s, es, h1, h2⟩ := Sw.run_of [.act .start, .act (.read [[1]] false), .act (.handle true), .act (.moveAsync true), .call 2 false, .act .closeSet, .act .closeNotify, .act .park, .tick, .tick, .timeout] (fun _ es => decide (es = [.ev (.received [[1]]), .ev (.async [[1]]), .called 2, .tick, .tick, .ev .notApplicable])) (by decide +kernel)
  exact ⟨s, es, h1, of_decide_eq_true h2⟩

end StAsio
