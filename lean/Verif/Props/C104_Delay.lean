import Verif.Model.Delay
/-!
# C104: the durations in the statistics are the times that messages wait, writes take and handlers run
-/
set_option autoImplicit false
namespace StAsio

theorem stepsExec_run {S A E : Type} {step : S → A → Option (S × List E)} {as : List A} : ∀ {s s2 : S} {es : List E} {s0 : S} {as0 : List A} {es0 : List E},
    Steps step s0 as0 s es0 → stepsExec step s as = some (s2, es) → Steps step s0 (as0 ++ as) s2 (es0 ++ es) := by
  induction as with
  | nil => intro s s2 es s0 as0 es0 h0 h; simp only [stepsExec, Option.some.injEq, Prod.mk.injEq] at h; obtain ⟨rfl, rfl⟩ := h; simpa using h0
  | cons a as ih =>
    intro s s2 es s0 as0 es0 h0 h
    simp only [stepsExec, Option.bind_eq_some_iff, Option.map_eq_some_iff] at h
    obtain ⟨⟨s1, fs⟩, h1, ⟨s3, gs⟩, h2, h3⟩ := h
    simp only [Prod.mk.injEq] at h3
    obtain ⟨rfl, rfl⟩ := h3
    have := ih (Steps.snoc _ _ _ _ _ _ _ h0 h1) h2
    simpa using this

private theorem dur_of_append (xs ys : List Int) : Dur.of (xs ++ ys) = ys.foldl Dur.add (Dur.of xs) := by
  simp only [Dur.of, List.foldl_append]

private theorem foldl_map_add (g : Stamped → Int) (ms : List Stamped) (d : Dur) : ms.foldl (fun d m => d.add (g m)) d = (ms.map g).foldl Dur.add d := by
  rw [List.foldl_map]

private theorem watch_snoc (es fs : List DlEv) : watch (es ++ fs) = fs.foldl Watch.ev (watch es) := by
  simp only [watch, List.foldl_append]

private theorem mem_stampNew {next k : Nat} {now : Int} {m : Stamped} (h : m ∈ stampNew next k now) : m.1 ∈ List.range' next k ∧ m.2 = now := by
  simp only [stampNew, List.mem_map] at h
  obtain ⟨i, hi, rfl⟩ := h
  exact ⟨hi, rfl⟩

/-! ## The way out -/

private def TInv (udp : Bool) (s : DTx) (es : List DlEv) : Prop :=
  (∀ m, m ∈ s.buf ∨ m ∈ s.held.flatten → m.1 < s.next ∧ (watch es).t m.1 = s.now - m.2) ∧
  (∀ e, s.pc = .look e → (watch es).gap = s.now - e) ∧
  (s.pc = .taken → s.sending ≠ []) ∧
  (s.pc = .writing → ∃ m ms, s.sending = m :: ms ∧ (watch es).wt = s.now - m.2) ∧
  s.delay = Dur.of (if udp then waited es else waitedLook es) ∧ s.time = Dur.of (writeTimes es)

private theorem tinv {udp : Bool} {t0 : Int} {as : List DTxAct} {s : DTx} {es : List DlEv} (h : Steps (DTx.step udp) (DTx.init t0) as s es) : TInv udp s es := by
  induction h with
  | nil =>
    refine ⟨by simp [DTx.init], by simp [DTx.init], by simp [DTx.init], by simp [DTx.init], ?_, ?_⟩
    · cases udp <;> rfl
    · rfl
  | snoc s1 s2 as a es fs h hs ih =>
    obtain ⟨i1, i2, i3, i4, i5, i6⟩ := ih
    obtain ⟨now, next, held, buf, sending, pc, delay, time⟩ := s1
    simp only at i1 i2 i3 i4 i5 i6
    have hw : ∀ fs, watch (es ++ fs) = fs.foldl Watch.ev (watch es) := watch_snoc es
    cases a with
    | tick d =>
      simp only [DTx.step, Option.some.injEq, Prod.mk.injEq] at hs
      obtain ⟨rfl, rfl⟩ := hs
      refine ⟨?_, ?_, i3, ?_, ?_, ?_⟩
      · intro m hm
        simp only [hw, List.foldl, Watch.ev]
        exact ⟨(i1 m hm).1, by have := (i1 m hm).2; omega⟩
      · intro e he
        simp only [hw, List.foldl, Watch.ev]
        have := i2 e he; omega
      · intro hp
        obtain ⟨m, ms, e1, e2⟩ := i4 hp
        refine ⟨m, ms, e1, ?_⟩
        simp only [hw, List.foldl, Watch.ev]
        omega
      · simp only [waited, waitedLook, hw, List.foldl, Watch.ev] at i5 ⊢; exact i5
      · simp only [writeTimes, hw, List.foldl, Watch.ev] at i6 ⊢; exact i6
    | make k =>
      simp only [DTx.step, Option.some.injEq, Prod.mk.injEq] at hs
      obtain ⟨rfl, rfl⟩ := hs
      refine ⟨?_, ?_, i3, ?_, ?_, ?_⟩
      · intro m hm
        simp only [hw, List.foldl, Watch.ev]
        simp only [List.flatten_append, List.mem_append, List.flatten_cons, List.flatten_nil, List.append_nil] at hm
        by_cases hn : m ∈ stampNew next k now
        · obtain ⟨h1, h2⟩ := mem_stampNew hn
          rw [if_pos h1, h2]
          rw [List.mem_range'_1] at h1
          exact ⟨by omega, by omega⟩
        · have := i1 m (by rcases hm with h | h | h
                           · exact Or.inl h
                           · exact Or.inr h
                           · exact absurd h hn)
          rw [if_neg (by rw [List.mem_range'_1]; omega)]
          exact ⟨by omega, this.2⟩
      · intro e he; simp only [hw, List.foldl, Watch.ev]; exact i2 e he
      · intro hp; simp only [hw, List.foldl, Watch.ev]; exact i4 hp
      · simp only [waited, waitedLook, hw, List.foldl, Watch.ev] at i5 ⊢; exact i5
      · simp only [writeTimes, hw, List.foldl, Watch.ev] at i6 ⊢; exact i6
    | insert i front =>
      simp only [DTx.step] at hs
      split at hs
      · cases hs
      · next b hb =>
        simp only [Option.some.injEq, Prod.mk.injEq] at hs
        obtain ⟨rfl, rfl⟩ := hs
        rw [List.append_nil]
        refine ⟨?_, i2, i3, i4, i5, i6⟩
        intro m hm
        apply i1
        have hb' : b ∈ held := List.mem_of_getElem? hb
        rcases hm with hm | hm
        · have : m ∈ b ∨ m ∈ buf := by
            cases front <;> simp at hm
            · exact hm.symm
            · exact hm
          rcases this with h | h
          · exact Or.inr (List.mem_flatten.mpr ⟨b, hb', h⟩)
          · exact Or.inl h
        · right
          obtain ⟨l, hl, hml⟩ := List.mem_flatten.mp hm
          exact List.mem_flatten.mpr ⟨l, List.mem_of_mem_eraseIdx hl, hml⟩
    | look =>
      simp only [DTx.step] at hs
      split at hs
      · simp only [Option.some.injEq, Prod.mk.injEq] at hs
        obtain ⟨rfl, rfl⟩ := hs
        refine ⟨?_, ?_, (by intro hp; cases hp), (by intro hp; cases hp), ?_, ?_⟩
        · intro m hm; simp only [hw, List.foldl, Watch.ev]; exact i1 m hm
        · intro e he; cases he; simp only [hw, List.foldl, Watch.ev]; omega
        · simp only [waited, waitedLook, hw, List.foldl, Watch.ev] at i5 ⊢; exact i5
        · simp only [writeTimes, hw, List.foldl, Watch.ev] at i6 ⊢; exact i6
      · cases hs
    | take k =>
      cases pc with
      | look e =>
        simp only [DTx.step] at hs
        split at hs
        · split at hs
          · simp only [Option.some.injEq, Prod.mk.injEq] at hs
            obtain ⟨rfl, rfl⟩ := hs
            rw [List.append_nil]
            exact ⟨i1, (by intro e he; cases he), (by intro hp; cases hp), (by intro hp; cases hp), i5, i6⟩
          · cases hs
        · next hk =>
          split at hs
          · next hl =>
            simp only [Option.some.injEq, Prod.mk.injEq] at hs
            obtain ⟨rfl, rfl⟩ := hs
            refine ⟨?_, (by intro e he; cases he), ?_, (by intro hp; cases hp), ?_, ?_⟩
            · intro m hm
              simp only [hw, List.foldl, Watch.ev]
              apply i1
              rcases hm with hm | hm
              · exact Or.inl (List.mem_of_mem_drop hm)
              · exact Or.inr hm
            · intro _ he
              have : (buf.take k).length = 0 := by simp only at he; rw [he]; rfl
              rw [List.length_take] at this
              omega
            · have hg := i2 e rfl
              simp only [foldl_map_add, i5]
              cases udp
              · simp only [Bool.false_eq_true, if_false, waitedLook, hw, List.foldl, Watch.ev, List.map_append, dur_of_append, List.map_map]
                congr 1
                apply List.map_congr_left
                intro m hm
                have := (i1 m (Or.inl (List.mem_of_mem_take hm))).2
                simp only [Function.comp_apply]
                omega
              · simp only [if_true, waited, hw, List.foldl, Watch.ev, List.map_append, dur_of_append, List.map_map]
                congr 1
                apply List.map_congr_left
                intro m hm
                have := (i1 m (Or.inl (List.mem_of_mem_take hm))).2
                simp only [Function.comp_apply]
                omega
            · simp only [writeTimes, hw, List.foldl, Watch.ev] at i6 ⊢; exact i6
          · cases hs
      | _ => simp [DTx.step] at hs
    | write =>
      simp only [DTx.step] at hs
      split at hs
      · next hp =>
        simp only [Option.some.injEq, Prod.mk.injEq] at hs
        obtain ⟨rfl, rfl⟩ := hs
        refine ⟨?_, (by intro e he; cases he), (by intro hp; cases hp), ?_, ?_, ?_⟩
        · intro m hm; simp only [hw, List.foldl, Watch.ev]; exact i1 m hm
        · intro _
          cases sending with
          | nil => exact absurd rfl (i3 hp)
          | cons m ms => exact ⟨_, _, rfl, by simp only [hw, List.foldl, Watch.ev]; omega⟩
        · simp only [waited, waitedLook, hw, List.foldl, Watch.ev] at i5 ⊢; exact i5
        · simp only [writeTimes, hw, List.foldl, Watch.ev] at i6 ⊢; exact i6
      · cases hs
    | done ok =>
      simp only [DTx.step] at hs
      split at hs
      · next hp =>
        obtain ⟨m, ms, e1, e2⟩ := i4 hp
        subst e1
        cases ok
        · simp only [Bool.false_eq_true, if_false, Option.some.injEq, Prod.mk.injEq] at hs
          obtain ⟨rfl, rfl⟩ := hs
          refine ⟨?_, (by intro e he; cases he), (by intro hp; cases hp), (by intro hp; cases hp), ?_, ?_⟩
          · intro m hm; simp only [hw, List.foldl, Watch.ev]; exact i1 m hm
          · simp only [waited, waitedLook, hw, List.foldl, Watch.ev] at i5 ⊢; exact i5
          · simp only [writeTimes, hw, List.foldl, Watch.ev] at i6 ⊢; exact i6
        · simp only [if_true, Option.some.injEq, Prod.mk.injEq] at hs
          obtain ⟨rfl, rfl⟩ := hs
          refine ⟨?_, (by intro e he; cases he), (by intro hp; cases hp), (by intro hp; cases hp), ?_, ?_⟩
          · intro m hm; simp only [hw, List.foldl, Watch.ev]; exact i1 m hm
          · simp only [waited, waitedLook, hw, List.foldl, Watch.ev] at i5 ⊢; exact i5
          · simp only [writeTimes, hw, List.foldl, Watch.ev, dur_of_append] at i6 ⊢
            rw [i6, e2]
      · cases hs
    | drop k =>
      simp only [DTx.step, Option.some.injEq, Prod.mk.injEq] at hs
      obtain ⟨rfl, rfl⟩ := hs
      rw [List.append_nil]
      refine ⟨?_, i2, i3, i4, i5, i6⟩
      intro m hm
      apply i1
      rcases hm with hm | hm
      · exact Or.inl (List.mem_of_mem_drop hm)
      · exact Or.inr hm

/-- **C104** (UDP): whatever was done, the send delay in the statistics has been accumulated from the times that the messages waited until they were taken from the buffer, one for each message taken and in
that order; the send time from the times that the successful writes took. Sum, number, minimum and maximum are those of these times (C48). -/
theorem C104_udp {t0 : Int} {as : List DTxAct} {s : DTx} {es : List DlEv} (h : Steps (DTx.step true) (DTx.init t0) as s es) :
    s.delay = Dur.of (waited es) ∧ s.time = Dur.of (writeTimes es) := by
  obtain ⟨_, _, _, _, h5, h6⟩ := tinv h
  exact ⟨h5, h6⟩

/-- **C104** (TCP): the same, but the waiting is measured up to the moment the sender turned to the buffer, which is before it takes the messages. -/
theorem C104_tcp {t0 : Int} {as : List DTxAct} {s : DTx} {es : List DlEv} (h : Steps (DTx.step false) (DTx.init t0) as s es) :
    s.delay = Dur.of (waitedLook es) ∧ s.time = Dur.of (writeTimes es) := by
  obtain ⟨_, _, _, _, h5, h6⟩ := tinv h
  exact ⟨h5, h6⟩

/-- How many messages were taken. -/
theorem C104_counts {udp : Bool} {t0 : Int} {as : List DTxAct} {s : DTx} {es : List DlEv} (h : Steps (DTx.step udp) (DTx.init t0) as s es) :
    s.delay.num = (waited es).length ∧ s.time.num = (writeTimes es).length := by
  have hn : ∀ (xs : List Int) (d : Dur), (xs.foldl Dur.add d).num = d.num + xs.length := by
    intro xs
    induction xs with
    | nil => intro d; simp
    | cons x xs ih => intro d; rw [List.foldl_cons, ih]; simp only [Dur.add, List.length_cons]; omega
  have hz : ∀ xs : List Int, (Dur.of xs).num = xs.length := by intro xs; rw [Dur.of, hn]; simp [Dur.zero]
  obtain ⟨_, _, _, _, h5, h6⟩ := tinv h
  rw [h5, h6, hz, hz]
  cases udp <;> simp [waited, waitedLook]

private theorem dur_sum (xs : List Int) : (Dur.of xs).sum = xs.sum := by
  have : ∀ (xs : List Int) (d : Dur), (xs.foldl Dur.add d).sum = d.sum + xs.sum := by
    intro xs
    induction xs with
    | nil => intro d; simp
    | cons x xs ih => intro d; rw [List.foldl_cons, ih]; simp only [Dur.add, List.sum_cons]; omega
  rw [Dur.of, this]; simp [Dur.zero]

/-- A clock that is never set back. -/
def Forward : List DlEv → Prop := fun es => ∀ d, DlEv.tick d ∈ es → 0 ≤ d

private theorem gap_nonneg {es : List DlEv} (hf : Forward es) : ∀ w : Watch, 0 ≤ w.gap → (∀ p ∈ w.outs, 0 ≤ p.2) →
    0 ≤ (es.foldl Watch.ev w).gap ∧ ∀ p ∈ (es.foldl Watch.ev w).outs, 0 ≤ p.2 := by
  induction es with
  | nil => intro w h1 h2; exact ⟨h1, h2⟩
  | cons e es ih =>
    intro w h1 h2
    rw [List.foldl_cons]
    have hf' : Forward es := fun d hd => hf d (List.mem_cons_of_mem _ hd)
    apply ih hf'
    · cases e <;> simp only [Watch.ev] <;> first | exact h1 | skip
      · next d => have := hf d List.mem_cons_self; omega
      · omega
    · cases e <;> simp only [Watch.ev] <;> first | exact h2 | skip
      next ids =>
      intro p hp
      rw [List.mem_append, List.mem_map] at hp
      rcases hp with hp | ⟨i, _, rfl⟩
      · exact h2 p hp
      · exact h1

/-- **C104** (TCP): with a clock that is not set back, the send delay is never more than what the messages really waited; the difference is what passed between turning to the buffer and taking the
messages, so there is none if that took no time. -/
theorem C104_tcp_at_most {t0 : Int} {as : List DTxAct} {s : DTx} {es : List DlEv} (h : Steps (DTx.step false) (DTx.init t0) as s es) (hf : Forward es) :
    s.delay.sum ≤ (waited es).sum ∧ ((∀ p ∈ (watch es).outs, p.2 = 0) → s.delay = Dur.of (waited es)) := by
  rw [(C104_tcp h).1]
  have hg := (gap_nonneg hf Watch.init (by simp [Watch.init]) (by simp [Watch.init])).2
  constructor
  · rw [dur_sum]
    simp only [waited, waitedLook]
    change ∀ p ∈ (watch es).outs, 0 ≤ p.2 at hg
    generalize (watch es).outs = l at hg
    induction l with
    | nil => simp
    | cons p l ih =>
      simp only [List.map_cons, List.sum_cons]
      have := hg p List.mem_cons_self
      have := ih (fun q hq => hg q (List.mem_cons_of_mem _ hq))
      omega
  · intro h0
    congr 1
    simp only [waited, waitedLook]
    apply List.map_congr_left
    intro p hp
    rw [h0 p hp]; omega

/-- A message that another thread puts into the buffer after the sender has read the clock and before it takes the messages counts with a negative delay: two messages, of which one waited 8 and the other 0,
make 5 - 3 in the statistics, and the minimum is negative although the clock was never set back. -/
theorem C104_fails_negative : ∃ as s es, Steps (DTx.step false) (DTx.init 0) as s es ∧ Forward es ∧ waited es = [8, 0] ∧ waitedLook es = [5, -3] ∧ s.delay.min = -3 ∧ s.delay.sum = 2 := by
  have e : stepsExec (DTx.step false) (DTx.init 0) [.make 1, .insert 0 false, .tick 5, .look, .tick 3, .make 1, .insert 0 false, .take 2] =
      some (⟨8, 2, [], [], [(0, 0), (1, 8)], .taken, ⟨2, -3, 5, 2⟩, Dur.zero⟩, [.made [0], .tick 5, .look, .tick 3, .made [1], .out [0, 1]]) := by decide +kernel
  refine ⟨_, _, _, stepsExec_run (Steps.nil _) e, ?_, by decide +kernel, by decide +kernel, rfl, rfl⟩
  intro d hd
  simp at hd
  omega

/-- Not vacuous: two messages and one put in front of them; the write takes 7, a failed one is not counted. -/
theorem C104_demo_tcp : ∃ as s es, Steps (DTx.step false) (DTx.init 100) as s es ∧ waited es = [2, 5, 12] ∧ (∀ p ∈ (watch es).outs, p.2 = 0) ∧ writeTimes es = [7] ∧
    s.delay = ⟨19, 2, 12, 3⟩ ∧ s.time = ⟨7, 7, 7, 1⟩ := by
  have e : (stepsExec (DTx.step false) (DTx.init 100)
      [.make 2, .insert 0 false, .tick 3, .make 1, .insert 0 true, .tick 2, .look, .take 2, .write, .tick 7, .done true, .look, .take 1, .write, .tick 4, .done false]).map (fun r => (r.2, r.1.delay, r.1.time)) =
      some ([.made [0, 1], .tick 3, .made [2], .tick 2, .look, .out [2, 0], .write, .tick 7, .sent, .look, .out [1], .write, .tick 4, .failed], ⟨19, 2, 12, 3⟩, ⟨7, 7, 7, 1⟩) := by decide +kernel
  rw [Option.map_eq_some_iff] at e
  obtain ⟨⟨s, es⟩, e1, e2⟩ := e
  simp only [Prod.mk.injEq] at e2
  obtain ⟨rfl, e3, e4⟩ := e2
  exact ⟨_, s, _, stepsExec_run (Steps.nil _) e1, by decide +kernel, by decide +kernel, by decide +kernel, e3, e4⟩

/-- Not vacuous: with UDP the time between turning to the buffer and taking the message is counted. -/
theorem C104_demo_udp : ∃ as s es, Steps (DTx.step true) (DTx.init 100) as s es ∧ waited es = [5] ∧ writeTimes es = [7] ∧ s.delay = ⟨5, 5, 5, 1⟩ ∧ s.time = ⟨7, 7, 7, 1⟩ := by
  have e : (stepsExec (DTx.step true) (DTx.init 100) [.make 1, .insert 0 false, .tick 3, .look, .tick 2, .take 1, .write, .tick 7, .done true]).map (fun r => (r.2, r.1.delay, r.1.time)) =
      some ([.made [0], .tick 3, .look, .tick 2, .out [0], .write, .tick 7, .sent], ⟨5, 5, 5, 1⟩, ⟨7, 7, 7, 1⟩) := by decide +kernel
  rw [Option.map_eq_some_iff] at e
  obtain ⟨⟨s, es⟩, e1, e2⟩ := e
  simp only [Prod.mk.injEq] at e2
  obtain ⟨rfl, e3, e4⟩ := e2
  exact ⟨_, s, _, stepsExec_run (Steps.nil _) e1, by decide +kernel, by decide +kernel, e3, e4⟩

/-! ## The way in -/

private theorem pwatch_snoc (es fs : List PlEv) : pwatch (es ++ fs) = fs.foldl PWatch.ev (pwatch es) := by
  simp only [pwatch, List.foldl_append]

private theorem stampNew_ids (next k : Nat) (now : Int) : (stampNew next k now).map (·.1) = List.range' next k := by
  simp only [stampNew, List.map_map]
  exact List.map_id'' (fun _ => rfl) _

/-- Messages that have not been handed over, the next one first. -/
private def DRx.alive (s : DRx) : List Stamped := s.msg.toList ++ s.buf ++ s.held

private def PInv (s : DRx) (es : List PlEv) : Prop :=
  (s.alive.map (·.1)).Pairwise (· < ·) ∧
  (∀ m ∈ s.alive, m.1 < s.next ∧ (s.call = none ∨ some m ≠ s.msg → (pwatch es).t m.1 = s.now - m.2)) ∧
  (∀ b, s.call = some b → (pwatch es).h = s.now - b ∧ s.msg ≠ none) ∧
  s.delay = Dur.of (offered es) ∧ s.handle = Dur.of (handleTimes es)

private theorem pinv {t0 : Int} {as : List DRxAct} {s : DRx} {es : List PlEv} (h : Steps DRx.step (DRx.init t0) as s es) : PInv s es := by
  induction h with
  | nil => refine ⟨by simp [DRx.init, DRx.alive], by simp [DRx.init, DRx.alive], by simp [DRx.init], rfl, rfl⟩
  | snoc s1 s2 as a es fs h hs ih =>
    obtain ⟨i1, i2, i3, i4, i5⟩ := ih
    obtain ⟨now, next, held, buf, msg, call, delay, handle⟩ := s1
    simp only [DRx.alive] at i1 i2 i3 i4 i5
    have hw : ∀ fs, pwatch (es ++ fs) = fs.foldl PWatch.ev (pwatch es) := pwatch_snoc es
    cases a with
    | tick d =>
      simp only [DRx.step, Option.some.injEq, Prod.mk.injEq] at hs
      obtain ⟨rfl, rfl⟩ := hs
      refine ⟨i1, ?_, ?_, ?_, ?_⟩
      · intro m hm
        refine ⟨(i2 m hm).1, fun hc => ?_⟩
        have := (i2 m hm).2 hc
        simp only [hw, List.foldl, PWatch.ev]; omega
      · intro b hb
        have := i3 b hb
        simp only [hw, List.foldl, PWatch.ev]; exact ⟨by omega, this.2⟩
      · simp only [offered, hw, List.foldl, PWatch.ev] at i4 ⊢; exact i4
      · simp only [handleTimes, hw, List.foldl, PWatch.ev] at i5 ⊢; exact i5
    | parse k =>
      simp only [DRx.step] at hs
      split at hs
      · next hh =>
        simp only [Option.some.injEq, Prod.mk.injEq] at hs
        obtain ⟨rfl, rfl⟩ := hs
        subst hh
        rw [List.append_nil] at i1 i2
        refine ⟨?_, ?_, ?_, ?_, ?_⟩
        · simp only [DRx.alive]
          rw [List.map_append, stampNew_ids, List.pairwise_append]
          refine ⟨i1, List.pairwise_lt_range', ?_⟩
          intro x hx y hy
          rw [List.mem_map] at hx
          obtain ⟨m, hm, rfl⟩ := hx
          rw [List.mem_range'_1] at hy
          have := (i2 m hm).1
          omega
        · intro m hm
          simp only [DRx.alive, List.mem_append] at hm
          by_cases hn : m ∈ stampNew next k now
          · obtain ⟨h1, h2⟩ := mem_stampNew hn
            refine ⟨by rw [List.mem_range'_1] at h1; exact h1.2, fun _ => ?_⟩
            simp only [hw, List.foldl, PWatch.ev]
            rw [if_pos h1, h2]; omega
          · have hm' : m ∈ msg.toList ++ buf := by
              rw [List.mem_append]
              rcases hm with hm | hm
              · exact hm
              · exact absurd hm hn
            have := i2 m hm'
            refine ⟨by simp only; omega, fun hc => ?_⟩
            simp only [hw, List.foldl, PWatch.ev]
            rw [if_neg (by rw [List.mem_range'_1]; omega)]
            exact this.2 hc
        · intro b hb; simp only [hw, List.foldl, PWatch.ev]; exact i3 b hb
        · simp only [offered, hw, List.foldl, PWatch.ev] at i4 ⊢; exact i4
        · simp only [handleTimes, hw, List.foldl, PWatch.ev] at i5 ⊢; exact i5
      · cases hs
    | insert =>
      simp only [DRx.step, Option.some.injEq, Prod.mk.injEq] at hs
      obtain ⟨rfl, rfl⟩ := hs
      rw [List.append_nil]
      refine ⟨?_, ?_, i3, i4, i5⟩
      · simp only [DRx.alive, List.append_nil]; rw [← List.append_assoc]; exact i1
      · intro m hm
        simp only [DRx.alive, List.append_nil] at hm
        rw [← List.append_assoc] at hm
        exact i2 m hm
    | found =>
      simp only [DRx.step] at hs
      split at hs
      · cases hs
      · next m =>
        simp only [Option.some.injEq, Prod.mk.injEq] at hs
        obtain ⟨rfl, rfl⟩ := hs
        refine ⟨i1, ?_, ?_, ?_, ?_⟩
        · intro x hx
          refine ⟨(i2 x hx).1, fun hc => ?_⟩
          simp only [hw, List.foldl, PWatch.ev]
          exact (i2 x hx).2 (Or.inl rfl)
        · intro b hb
          cases hb
          simp only [hw, List.foldl, PWatch.ev]
          exact ⟨by omega, by simp⟩
        · have := (i2 m (by simp)).2 (Or.inl rfl)
          simp only [offered, hw, List.foldl, PWatch.ev, List.map_append, dur_of_append, List.map_cons, List.map_nil] at i4 ⊢
          rw [i4, this]
        · simp only [handleTimes, hw, List.foldl, PWatch.ev] at i5 ⊢; exact i5
      · next m ms =>
        simp only [Option.some.injEq, Prod.mk.injEq] at hs
        obtain ⟨rfl, rfl⟩ := hs
        refine ⟨i1, ?_, ?_, ?_, ?_⟩
        · intro x hx
          refine ⟨(i2 x hx).1, fun hc => ?_⟩
          simp only [hw, List.foldl, PWatch.ev]
          exact (i2 x hx).2 (Or.inl rfl)
        · intro b hb
          cases hb
          simp only [hw, List.foldl, PWatch.ev]
          exact ⟨by omega, by simp⟩
        · have := (i2 m (by simp)).2 (Or.inl rfl)
          simp only [offered, hw, List.foldl, PWatch.ev, List.map_append, dur_of_append, List.map_cons, List.map_nil] at i4 ⊢
          rw [i4, this]
        · simp only [handleTimes, hw, List.foldl, PWatch.ev] at i5 ⊢; exact i5
      · cases hs
    | count => simp [DRx.step] at hs
    | ret took ok =>
      simp only [DRx.step] at hs
      split at hs
      · next b m =>
        obtain ⟨hh, _⟩ := i3 b rfl
        simp only [Option.toList_some, List.cons_append, List.nil_append, List.map_cons, List.pairwise_cons, List.mem_cons, List.mem_map] at i1 i2
        have hne : ∀ x, x ∈ buf ++ held → x ≠ m := by
          intro x hx hxm
          have := i1.1 x.1 ⟨x, hx, rfl⟩
          rw [hxm] at this
          omega
        cases ok
        · simp only [Bool.false_eq_true, if_false, Option.some.injEq, Prod.mk.injEq] at hs
          obtain ⟨rfl, rfl⟩ := hs
          refine ⟨?_, ?_, (by intro b hb; cases hb), ?_, ?_⟩
          · simp only [DRx.alive, Option.toList_some, List.cons_append, List.nil_append, List.map_cons, List.pairwise_cons, List.mem_map]; exact i1
          · intro x hx
            simp only [DRx.alive, Option.toList_some, List.cons_append, List.nil_append, List.mem_cons] at hx
            rcases hx with rfl | hx
            · refine ⟨(i2 m (Or.inl rfl)).1, fun _ => ?_⟩
              simp only [hw, List.foldl, PWatch.ev, List.mem_singleton, if_true]; omega
            · have h1 := i2 x (Or.inr hx)
              refine ⟨h1.1, fun _ => ?_⟩
              simp only [hw, List.foldl, PWatch.ev, List.mem_singleton]
              rw [if_neg (by have := i1.1 x.1 ⟨x, hx, rfl⟩; omega)]
              exact h1.2 (Or.inr (fun he => hne x hx (Option.some.inj he)))
          · simp only [offered, hw, List.foldl, PWatch.ev] at i4 ⊢; exact i4
          · simp only [handleTimes, hw, List.foldl, PWatch.ev, dur_of_append] at i5 ⊢
            rw [i5, hh]
        · simp only [if_true, Option.some.injEq, Prod.mk.injEq] at hs
          obtain ⟨rfl, rfl⟩ := hs
          refine ⟨?_, ?_, (by intro b hb; cases hb), ?_, ?_⟩
          · simp only [DRx.alive, Option.toList_none, List.nil_append]; exact i1.2
          · intro x hx
            simp only [DRx.alive, Option.toList_none, List.nil_append] at hx
            have h1 := i2 x (Or.inr hx)
            refine ⟨h1.1, fun _ => ?_⟩
            simp only [hw, List.foldl, PWatch.ev]
            exact h1.2 (Or.inr (fun he => hne x hx (Option.some.inj he)))
          · simp only [offered, hw, List.foldl, PWatch.ev] at i4 ⊢; exact i4
          · simp only [handleTimes, hw, List.foldl, PWatch.ev, dur_of_append] at i5 ⊢
            rw [i5, hh]
      · cases hs

/-- **C104** (one message at a time): the dispatch delay in the statistics has been accumulated from the times that the messages waited, since they were parsed or since the handler refused them, when they
were offered to the handler; the handle time from the times that the calls took. -/
theorem C104_dispatch {t0 : Int} {as : List DRxAct} {s : DRx} {es : List PlEv} (h : Steps DRx.step (DRx.init t0) as s es) :
    s.delay = Dur.of (offered es) ∧ s.handle = Dur.of (handleTimes es) := by
  obtain ⟨_, _, _, h4, h5⟩ := pinv h
  exact ⟨h4, h5⟩

/-- Not vacuous: the second message waits for the first, which is refused once. -/
theorem C104_demo_dispatch : ∃ as s es, Steps DRx.step (DRx.init 0) as s es ∧ offered es = [1, 10, 16] ∧ handleTimes es = [2, 3, 4] ∧ s.delay = ⟨27, 1, 16, 3⟩ ∧ s.handle = ⟨9, 2, 4, 3⟩ := by
  have e : (stepsExec DRx.step (DRx.init 0)
      [.parse 2, .insert, .tick 1, .found, .tick 2, .ret 0 false, .tick 10, .found, .tick 3, .ret 0 true, .found, .tick 4, .ret 0 true]).map (fun r => (r.2, r.1.delay, r.1.handle)) =
      some ([.made [0, 1], .tick 1, .enter, .call [0], .tick 2, .ret, .back [0], .tick 10, .enter, .call [0], .tick 3, .ret, .enter, .call [1], .tick 4, .ret], ⟨27, 1, 16, 3⟩, ⟨9, 2, 4, 3⟩) := by decide +kernel
  rw [Option.map_eq_some_iff] at e
  obtain ⟨⟨s, es⟩, e1, e2⟩ := e
  simp only [Prod.mk.injEq] at e2
  obtain ⟨rfl, e3, e4⟩ := e2
  exact ⟨_, s, _, stepsExec_run (Steps.nil _) e1, by decide +kernel, by decide +kernel, e3, e4⟩


/-! ## Batches -/

private def BInv (s : DBx) (es : List PlEv) : Prop :=
  ((s.buf ++ s.held).map (·.1)).Pairwise (· < ·) ∧
  (∀ m ∈ s.buf ++ s.held, m.1 < s.next ∧ (pwatch es).t m.1 = s.now - m.2) ∧
  (∀ b, s.call = some b → (pwatch es).h = s.now - b) ∧
  s.delay = Dur.of (offeredFound es)

private theorem binv {t0 : Int} {as : List DRxAct} {s : DBx} {es : List PlEv} (h : Steps DBx.calmStep (DBx.init t0) as s es) : BInv s es := by
  induction h with
  | nil => refine ⟨by simp [DBx.init], by simp [DBx.init], by simp [DBx.init], rfl⟩
  | snoc s1 s2 as a es fs h hs ih =>
    obtain ⟨i1, i2, i3, i4⟩ := ih
    obtain ⟨now, next, held, buf, call, counted, delay, handle⟩ := s1
    simp only at i1 i2 i3 i4
    have hw : ∀ fs, pwatch (es ++ fs) = fs.foldl PWatch.ev (pwatch es) := pwatch_snoc es
    simp only [DBx.calmStep] at hs
    split at hs
    case isFalse => cases hs
    case isTrue hc =>
    cases a with
    | tick d =>
      simp only [DBx.step, Option.some.injEq, Prod.mk.injEq] at hs
      obtain ⟨rfl, rfl⟩ := hs
      refine ⟨i1, ?_, ?_, ?_⟩
      · intro m hm
        have := i2 m hm
        refine ⟨this.1, ?_⟩
        simp only [hw, List.foldl, PWatch.ev]; omega
      · intro b hb
        have := i3 b hb
        simp only [hw, List.foldl, PWatch.ev]; omega
      · simp only [offeredFound, hw, List.foldl, PWatch.ev] at i4 ⊢; exact i4
    | parse k =>
      simp only [DBx.step] at hs
      split at hs
      · next hh =>
        simp only [Option.some.injEq, Prod.mk.injEq] at hs
        obtain ⟨rfl, rfl⟩ := hs
        subst hh
        rw [List.append_nil] at i1 i2
        refine ⟨?_, ?_, ?_, ?_⟩
        · simp only
          rw [List.map_append, stampNew_ids, List.pairwise_append]
          refine ⟨i1, List.pairwise_lt_range', ?_⟩
          intro x hx y hy
          rw [List.mem_map] at hx
          obtain ⟨m, hm, rfl⟩ := hx
          rw [List.mem_range'_1] at hy
          have := (i2 m hm).1
          omega
        · intro m hm
          simp only [List.mem_append] at hm
          by_cases hn : m ∈ stampNew next k now
          · obtain ⟨h1, h2⟩ := mem_stampNew hn
            refine ⟨by rw [List.mem_range'_1] at h1; exact h1.2, ?_⟩
            simp only [hw, List.foldl, PWatch.ev]
            rw [if_pos h1, h2]; omega
          · have := i2 m (by rcases hm with hm | hm
                             · exact hm
                             · exact absurd hm hn)
            refine ⟨by simp only; omega, ?_⟩
            simp only [hw, List.foldl, PWatch.ev]
            rw [if_neg (by rw [List.mem_range'_1]; omega)]
            exact this.2
        · intro b hb; simp only [hw, List.foldl, PWatch.ev]; exact i3 b hb
        · simp only [offeredFound, hw, List.foldl, PWatch.ev] at i4 ⊢; exact i4
      · cases hs
    | insert =>
      simp only [DBx.step, Option.some.injEq, Prod.mk.injEq] at hs
      obtain ⟨rfl, rfl⟩ := hs
      rw [List.append_nil]
      refine ⟨?_, ?_, i3, i4⟩
      · simp only [List.append_nil]; exact i1
      · simp only [List.append_nil]; exact i2
    | found =>
      simp only [DBx.step] at hs
      split at hs
      · simp only [Option.some.injEq, Prod.mk.injEq] at hs
        obtain ⟨rfl, rfl⟩ := hs
        refine ⟨i1, ?_, ?_, ?_⟩
        · intro m hm; simp only [hw, List.foldl, PWatch.ev]; exact i2 m hm
        · intro b hb; cases hb; simp only [hw, List.foldl, PWatch.ev]; omega
        · simp only [offeredFound, hw, List.foldl, PWatch.ev] at i4 ⊢; exact i4
      · cases hs
    | count =>
      cases call with
      | none => simp [DBx.step] at hs
      | some b =>
        simp only [DBx.step] at hs
        split at hs
        · cases hs
        · simp only [Option.some.injEq, Prod.mk.injEq] at hs
          obtain ⟨rfl, rfl⟩ := hs
          refine ⟨i1, ?_, ?_, ?_⟩
          · intro m hm; simp only [hw, List.foldl, PWatch.ev]; exact i2 m hm
          · intro b hb; simp only [hw, List.foldl, PWatch.ev]; exact i3 b hb
          · have hb := i3 b rfl
            simp only [foldl_map_add, i4]
            simp only [offeredFound, hw, List.foldl, PWatch.ev, List.map_append, dur_of_append, List.map_map]
            congr 1
            apply List.map_congr_left
            intro m hm
            have := (i2 m (List.mem_append_left _ hm)).2
            simp only [Function.comp_apply]
            omega
    | ret took ok =>
      cases call with
      | none => simp [DBx.step] at hs
      | some b =>
        simp only [DBx.step] at hs
        split at hs
        · simp only [Option.some.injEq, Prod.mk.injEq] at hs
          obtain ⟨rfl, rfl⟩ := hs
          have hsub : (buf.drop took ++ held).Sublist (buf ++ held) := List.Sublist.append (List.drop_sublist _ _) (List.Sublist.refl _)
          have hp : ((buf.drop took ++ held).map (·.1)).Pairwise (· < ·) := i1.sublist (hsub.map _)
          refine ⟨?_, ?_, (by intro b hb; cases hb), ?_⟩
          · cases ok
            · simp only [Bool.false_eq_true, if_false, List.map_append, List.map_map] at hp ⊢; exact hp
            · simp only [if_true]; exact hp
          · intro x hx
            simp only [hw, List.foldl, PWatch.ev]
            cases ok
            · simp only [Bool.false_eq_true, if_false, List.mem_append, List.mem_map] at hx
              rcases hx with ⟨m, hm, rfl⟩ | hx
              · refine ⟨(i2 m (List.mem_append_left _ (List.mem_of_mem_drop hm))).1, ?_⟩
                rw [if_pos (List.mem_map.mpr ⟨m, hm, rfl⟩)]; simp only; omega
              · have h1 := i2 x (List.mem_append_right _ hx)
                refine ⟨h1.1, ?_⟩
                rw [if_neg]
                · exact h1.2
                · intro hin
                  rw [List.map_append, List.pairwise_append] at hp
                  have := hp.2.2 x.1 hin x.1 (List.mem_map.mpr ⟨x, hx, rfl⟩)
                  omega
            · simp only [DBx.calm, Bool.not_true, Bool.false_or, decide_eq_true_eq] at hc
              simp only [if_true, List.drop_eq_nil_of_le hc, List.nil_append] at hx
              have h1 := i2 x (List.mem_append_right _ hx)
              refine ⟨h1.1, ?_⟩
              simp only [List.drop_eq_nil_of_le hc, List.map_nil, List.not_mem_nil, if_false]
              exact h1.2
          · simp only [offeredFound, hw, List.foldl, PWatch.ev] at i4 ⊢; exact i4
        · cases hs

/-- **C104** (batches): if a handler that takes something takes everything, the dispatch delay has been accumulated from the times that the messages offered to it had waited,
since they were parsed or since the handler took none of them, when the dispatcher found them. A message that arrives while the handler runs is not among those offered (C104_fails_arrival). -/
theorem C104_batch_partial {t0 : Int} {as : List DRxAct} {s : DBx} {es : List PlEv} (h : Steps DBx.calmStep (DBx.init t0) as s es) : s.delay = Dur.of (offeredFound es) :=
  (binv h).2.2.2

/-- **C104** (batches): whatever happens, the handle time has been accumulated from the times that the calls took. -/
theorem C104_batch_handle {t0 : Int} {as : List DRxAct} {s : DBx} {es : List PlEv} (h : Steps DBx.step (DBx.init t0) as s es) : s.handle = Dur.of (handleTimes es) := by
  have : (∀ b, s.call = some b → (pwatch es).h = s.now - b) ∧ s.handle = Dur.of (handleTimes es) := by
    induction h with
    | nil => exact ⟨by simp [DBx.init], rfl⟩
    | snoc s1 s2 as a es fs h hs ih =>
      obtain ⟨i3, i5⟩ := ih
      obtain ⟨now, next, held, buf, call, counted, delay, handle⟩ := s1
      simp only at i3 i5
      have hw : ∀ fs, pwatch (es ++ fs) = fs.foldl PWatch.ev (pwatch es) := pwatch_snoc es
      cases a <;> simp only [DBx.step] at hs <;> (repeat' split at hs) <;> cases hs
      · refine ⟨fun b hb => ?_, ?_⟩
        · have := i3 b hb
          simp only [hw, List.foldl, PWatch.ev]; omega
        · simp only [handleTimes, hw, List.foldl, PWatch.ev] at i5 ⊢; exact i5
      · refine ⟨fun b hb => ?_, ?_⟩
        · simp only [hw, List.foldl, PWatch.ev]; exact i3 b hb
        · simp only [handleTimes, hw, List.foldl, PWatch.ev] at i5 ⊢; exact i5
      · rw [List.append_nil]; exact ⟨i3, i5⟩
      · refine ⟨fun b hb => ?_, ?_⟩
        · cases hb; simp only [hw, List.foldl, PWatch.ev]; omega
        · simp only [handleTimes, hw, List.foldl, PWatch.ev] at i5 ⊢; exact i5
      · refine ⟨fun b hb => ?_, ?_⟩
        · simp only [hw, List.foldl, PWatch.ev]; exact i3 b hb
        · simp only [handleTimes, hw, List.foldl, PWatch.ev] at i5 ⊢; exact i5
      all_goals
        refine ⟨fun b hb => (by cases hb), ?_⟩
        simp only [handleTimes, hw, List.foldl, PWatch.ev, dur_of_append] at i5 ⊢
        rw [i5, i3 _ rfl]
  exact this.2

/-- **C104** (batches): the times are well defined, no call of the handler begins while another one is running. -/
theorem C104_batch_turns {t0 : Int} {as : List DRxAct} {s : DBx} {es : List PlEv} (h : Steps DBx.step (DBx.init t0) as s es) : callsInTurn es = (true, s.call.isSome) := by
  induction h with
  | nil => rfl
  | snoc s1 s2 as a es fs h hs ih =>
    obtain ⟨now, next, held, buf, call, counted, delay, handle⟩ := s1
    have e : callsInTurn (es ++ fs) = fs.foldl callTurn (callsInTurn es) := by simp only [callsInTurn, List.foldl_append]
    rw [e, ih]
    cases a <;> simp only [DBx.step] at hs <;> (repeat' split at hs) <;> cases hs <;> simp_all [callTurn]

/-- **C104** (one message at a time): the same. -/
theorem C104_turns {t0 : Int} {as : List DRxAct} {s : DRx} {es : List PlEv} (h : Steps DRx.step (DRx.init t0) as s es) : callsInTurn es = (true, s.call.isSome) := by
  induction h with
  | nil => rfl
  | snoc s1 s2 as a es fs h hs ih =>
    obtain ⟨now, next, held, buf, msg, call, delay, handle⟩ := s1
    have e : callsInTurn (es ++ fs) = fs.foldl callTurn (callsInTurn es) := by simp only [callsInTurn, List.foldl_append]
    rw [e, ih]
    cases a <;> simp only [DRx.step] at hs <;> (repeat' split at hs) <;> cases hs <;> simp_all [callTurn]

/-- A handler that leaves messages over (it takes ten at a time, say): what they had waited before is counted again. Two messages wait 5, one of them is left and waits 1 more; the statistics say
5 + 5 + 6. -/
theorem C104_fails_leftover : ∃ as s es, Steps DBx.step (DBx.init 0) as s es ∧ offeredFound es = [5, 5, 1] ∧ s.buf = [] ∧ s.delay = ⟨16, 5, 6, 3⟩ := by
  have e : stepsExec DBx.step (DBx.init 0) [.parse 2, .insert, .tick 5, .found, .count, .ret 1 true, .tick 1, .found, .count, .ret 1 true] =
      some (⟨6, 2, [], [], none, false, ⟨16, 5, 6, 3⟩, ⟨0, 0, 0, 2⟩⟩,
        [.made [0, 1], .tick 5, .enter, .call [0, 1], .ret, .back [1], .tick 1, .enter, .call [1], .ret, .back []]) := by decide +kernel
  exact ⟨_, _, _, stepsExec_run (Steps.nil _) e, by decide +kernel, rfl, rfl⟩

/-- A message that arrives while the handler runs and is taken by it is not counted at all. -/
theorem C104_fails_arrival : ∃ as s es, Steps DBx.step (DBx.init 0) as s es ∧ PlEv.made [1] ∈ es ∧ s.buf = [] ∧ s.held = [] ∧ s.delay = ⟨5, 5, 5, 1⟩ := by
  have e : stepsExec DBx.step (DBx.init 0) [.parse 1, .insert, .tick 5, .found, .count, .parse 1, .insert, .tick 3, .ret 2 true] =
      some (⟨8, 2, [], [], none, false, ⟨5, 5, 5, 1⟩, ⟨3, 3, 3, 1⟩⟩,
        [.made [0], .tick 5, .enter, .call [0], .made [1], .tick 3, .ret, .back []]) := by decide +kernel
  exact ⟨_, _, _, stepsExec_run (Steps.nil _) e, by decide +kernel, rfl, rfl, rfl⟩

/-- Not vacuous: two messages, refused once and then taken together. -/
theorem C104_demo_batch : ∃ as s es, Steps DBx.calmStep (DBx.init 0) as s es ∧ offeredFound es = [5, 5, 4, 4] ∧ s.delay = ⟨18, 4, 5, 4⟩ ∧ s.handle = ⟨3, 1, 2, 2⟩ := by
  have e : stepsExec DBx.calmStep (DBx.init 0) [.parse 2, .insert, .tick 5, .found, .count, .tick 2, .ret 0 false, .tick 4, .found, .count, .tick 1, .ret 2 true] =
      some (⟨12, 2, [], [], none, false, ⟨18, 4, 5, 4⟩, ⟨3, 1, 2, 2⟩⟩,
        [.made [0, 1], .tick 5, .enter, .call [0, 1], .tick 2, .ret, .back [0, 1], .tick 4, .enter, .call [0, 1], .tick 1, .ret, .back []]) := by decide +kernel
  exact ⟨_, _, _, stepsExec_run (Steps.nil _) e, by decide +kernel, rfl, rfl⟩

/-! ## Halts of receiving -/

private theorem iinv {t0 : Int} {as : List DIxAct} {s : DIx} {es : List IlEv} (h : Steps DIx.step (DIx.init t0) as s es) (hn : IlEv.close ∉ es) :
    (iwatch es).run = (if s.began then some (s.now - s.beginTime) else none) ∧ s.idle = Dur.of (iwatch es).idles := by
  induction h with
  | nil => exact ⟨rfl, rfl⟩
  | snoc s1 s2 as a es fs h hs ih =>
    rw [List.mem_append] at hn
    obtain ⟨i1, i2⟩ := ih (fun hc => hn (Or.inl hc))
    obtain ⟨now, began, beginTime, up, idle⟩ := s1
    simp only at i1 i2
    have hw : ∀ fs, iwatch (es ++ fs) = fs.foldl IWatch.ev (iwatch es) := by intro fs; simp only [iwatch, List.foldl_append]
    cases a with
    | tick d =>
      simp only [DIx.step, Option.some.injEq, Prod.mk.injEq] at hs
      obtain ⟨rfl, rfl⟩ := hs
      simp only [hw, List.foldl, IWatch.ev, i1]
      refine ⟨?_, i2⟩
      cases began
      · rfl
      · simp only [if_true, Option.map_some]; congr 1; omega
    | check b =>
      cases b <;> simp only [DIx.step] at hs <;> (repeat' split at hs) <;> cases hs
      · rw [List.append_nil]; exact ⟨i1, i2⟩
      · simp only [hw, List.foldl, IWatch.ev]; exact ⟨by simp only [if_true]; congr 1; omega, i2⟩
      · next hb =>
        rw [hb] at i1
        simp only [if_true] at i1
        simp only [hw, List.foldl, IWatch.ev, i1, dur_of_append]
        exact ⟨rfl, by rw [i2]⟩
      · next hb =>
        rw [Bool.not_eq_true] at hb
        rw [hb] at i1
        simp only [hw, List.foldl, IWatch.ev, i1, hb, Bool.false_eq_true, if_false]
        exact ⟨trivial, i2⟩
    | close =>
      simp only [DIx.step] at hs
      split at hs <;> cases hs
      exact absurd (Or.inr (List.mem_singleton.mpr rfl)) hn
    | start =>
      simp only [DIx.step] at hs
      split at hs <;> cases hs
      simp only [hw, List.foldl, IWatch.ev]
      exact ⟨i1, i2⟩

/-- **C104** (receiving): as long as the link does not break, the receive idle time has been accumulated from the halts of receiving, each from the moment receiving stopped to its resumption. -/
theorem C104_idle_partial {t0 : Int} {as : List DIxAct} {s : DIx} {es : List IlEv} (h : Steps DIx.step (DIx.init t0) as s es) (hn : IlEv.close ∉ es) : s.idle = Dur.of (iwatch es).idles :=
  (iinv h hn).2

/-- A link that breaks while receiving is halted: the time without a link, and the time until something is received on the next one, are counted as if receiving had been halted. Receiving was halted for 1;
the statistics say 101. -/
theorem C104_fails_idle : ∃ as s es, Steps DIx.step (DIx.init 0) as s es ∧ (iwatch es).idles = [] ∧ s.idle = ⟨101, 101, 101, 1⟩ := by
  have e : stepsExec DIx.step (DIx.init 0) [.check false, .tick 1, .close, .tick 60, .start, .tick 40, .check true] =
      some (⟨101, false, 0, true, ⟨101, 101, 101, 1⟩⟩, [.halt, .tick 1, .close, .tick 60, .up, .tick 40, .go]) := by decide +kernel
  exact ⟨_, _, _, stepsExec_run (Steps.nil _) e, rfl, rfl⟩

/-- Not vacuous: two halts. -/
theorem C104_demo_idle : ∃ as s es, Steps DIx.step (DIx.init 0) as s es ∧ IlEv.close ∉ es ∧ (iwatch es).idles = [3, 4] ∧ s.idle = ⟨7, 3, 4, 2⟩ := by
  have e : stepsExec DIx.step (DIx.init 0) [.check false, .tick 1, .check false, .tick 2, .check true, .tick 9, .check true, .check false, .tick 4, .check true] =
      some (⟨16, false, 12, true, ⟨7, 3, 4, 2⟩⟩, [.halt, .tick 1, .tick 2, .go, .tick 9, .go, .halt, .tick 4, .go]) := by decide +kernel
  exact ⟨_, _, _, stepsExec_run (Steps.nil _) e, by decide, rfl, rfl⟩

end StAsio
