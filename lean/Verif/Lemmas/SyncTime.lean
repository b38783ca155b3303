import Verif.Model.SyncTime
import Verif.Lemmas.SyncRecv

/-!
# Lemmas about the time synchronous calls take
-/

set_option autoImplicit false

namespace StAsio

/-! ## The stop watch -/

theorem SwWatch.seeAll_append (es fs : List SwEv) : ∀ w : SwWatch, w.seeAll (es ++ fs) = (w.seeAll es).bind (fun w1 => w1.seeAll fs) := by
  induction es with
  | nil => intro w; rfl
  | cons e es ih =>
    intro w
    simp only [List.cons_append, SwWatch.seeAll]
    cases w.see e with
    | none => rfl
    | some w1 => exact ih w1

/-- The stop watch that goes with the ideal hand-off. -/
def watchOf (t : IdealSr) (k d : Nat) : SwWatch := ⟨if t.waiting then some (k, d) else none, t.answered⟩

theorem watch_of_ideal (k d : Nat) (es : List SEv) : ∀ t t' : IdealSr, (SEv.timeout ∈ es → d ≠ 0 ∧ k = d) → SEv.called ∉ es → t.monitor es = some t' →
    (watchOf t k d).seeAll (es.map .ev) = some (watchOf t' k d) := by
  induction es with
  | nil => intro t t' _ _ h; simp only [IdealSr.monitor, Option.some.injEq] at h; subst h; rfl
  | cons e es ih =>
    intro t t' ht hc h
    simp only [IdealSr.monitor] at h
    cases h1 : t.event e with
    | none => rw [h1] at h; cases h
    | some t1 =>
      rw [h1] at h
      have h2 := ih t1 t' (fun hm => ht (List.mem_cons_of_mem _ hm)) (fun hm => hc (List.mem_cons_of_mem _ hm)) h
      simp only [List.map_cons, SwWatch.seeAll]
      have h3 : (watchOf t k d).see (.ev e) = some (watchOf t1 k d) := by
        obtain ⟨p, wt, an⟩ := t
        cases e with
        | called => exact absurd (List.mem_cons_self ..) hc
        | timeout =>
          have := ht (List.mem_cons_self ..)
          simp only [IdealSr.event] at h1
          split at h1
          · rename_i hw; cases h1; obtain ⟨hw1, hw2⟩ := hw
            subst hw1; subst hw2
            simp [watchOf, SwWatch.see, this]
          · cases h1
        | received ms => simp only [IdealSr.event, Option.some.injEq] at h1; subst h1; rfl
        | recvError => simp only [IdealSr.event, Option.some.injEq] at h1; subst h1; rfl
        | async ms =>
          simp only [IdealSr.event] at h1
          split at h1
          · cases h1; rfl
          · cases h1
        | offered =>
          simp only [IdealSr.event] at h1
          split at h1
          · rename_i hw; cases h1; obtain ⟨hw1, hw2⟩ := hw
            subst hw1; subst hw2; rfl
          · cases h1
        | duplicate =>
          simp only [IdealSr.event] at h1
          split at h1
          · rename_i hw; cases h1; subst hw; simp [watchOf, SwWatch.see]
          · cases h1
        | success ms =>
          simp only [IdealSr.event] at h1
          split at h1
          · rename_i hw; cases h1; obtain ⟨hw1, hw2, _⟩ := hw
            subst hw1; subst hw2; simp [watchOf, SwWatch.see]
          · cases h1
        | notApplicable =>
          simp only [IdealSr.event] at h1
          split at h1
          · rename_i hw; cases h1; obtain ⟨hw1, hw2⟩ := hw
            subst hw1; subst hw2; simp [watchOf, SwWatch.see]
          · cases h1
      rw [h3]; exact h2

/-! ## The machine -/

theorem Sr.finish_events (s : Sr) : SEv.called ∉ s.finish.2 ∧ SEv.timeout ∉ s.finish.2 := by
  simp only [Sr.finish]; split <;> simp

theorem Sr.callerCheck_events (s : Sr) : SEv.called ∉ s.callerCheck.2 ∧ SEv.timeout ∉ s.callerCheck.2 := by
  simp only [Sr.callerCheck]; split
  · exact s.finish_events
  · simp

theorem Sr.errCheck_events (s : Sr) : SEv.called ∉ s.errCheck.2 ∧ SEv.timeout ∉ s.errCheck.2 := by
  simp only [Sr.errCheck]; split <;> simp

/-- Steps of the kind `act` are neither admissions nor ends of durations. -/
theorem Sr.act_events {s s' : Sr} {a : SAct} {es : List SEv} (ha : a.clocked = false) (hs : s.step a = some (s', es)) : SEv.called ∉ es ∧ SEv.timeout ∉ es := by
  have h1 := s.callerCheck_events
  have h2 := Sr.errCheck_events
  cases a <;> simp only [SAct.clocked, Bool.true_eq_false] at ha <;> simp only [Sr.step] at hs <;> (repeat' split at hs) <;> simp only [Option.some.injEq, reduceCtorEq] at hs <;>
    have e := congrArg Prod.snd hs <;> simp only at e <;> rw [← e] <;> grind

theorem Sr.timeout_events {s s' : Sr} {es : List SEv} (hs : s.step .timeout = some (s', es)) : SEv.called ∉ es := by
  have h1 := s.finish_events
  simp only [Sr.step] at hs
  split at hs
  · cases hs
  · split at hs <;> simp only [Option.some.injEq] at hs <;> have e := congrArg Prod.snd hs <;> simp only at e <;> rw [← e]
    · exact h1.1
    · simp

theorem Sr.notifyStrand_caller (s : Sr) : s.notifyStrand.caller = s.caller ∧ s.notifyStrand.timed = s.timed := by
  simp only [Sr.notifyStrand]; split <;> exact ⟨rfl, rfl⟩

theorem Sr.finish_caller (s : Sr) : s.finish.1.caller = .none := by
  simp only [Sr.finish]; split <;> exact (Sr.notifyStrand_caller _).1

theorem Sr.strandCheck_caller (s : Sr) (full ec : Bool) : (s.strandCheck full ec).caller = s.caller ∧ (s.strandCheck full ec).timed = s.timed := by
  simp only [Sr.strandCheck, Sr.leave]; (repeat' split) <;> exact ⟨rfl, rfl⟩

theorem Sr.errCheck_caller (s : Sr) : s.errCheck.1.caller = s.caller ∧ s.errCheck.1.timed = s.timed := by
  simp only [Sr.errCheck]; split <;> exact ⟨rfl, rfl⟩

theorem Sr.notifyCaller_caller (s : Sr) : (s.notifyCaller.caller = .none ↔ s.caller = .none) ∧ s.notifyCaller.timed = s.timed := by
  simp only [Sr.notifyCaller]; split
  · rename_i h; simp [h]
  · simp

/-- Only a call makes a caller. -/
theorem Sr.keeps {s s' : Sr} {a : SAct} {es : List SEv} (ha : ∀ x y, a ≠ .call x y) (hs : s.step a = some (s', es)) (hc : s'.caller ≠ .none) : s.caller ≠ .none ∧ s'.timed = s.timed := by
  have k1 := Sr.notifyStrand_caller
  have k2 := s.finish_caller
  have k3 := Sr.strandCheck_caller
  have k4 := Sr.errCheck_caller
  have k5 := Sr.notifyCaller_caller
  cases a with
  | call x y => exact absurd rfl (ha x y)
  | timeout =>
    simp only [Sr.step] at hs
    (repeat' split at hs) <;> simp only [Option.some.injEq, reduceCtorEq] at hs
    · have e : s' = s.finish.1 := by rw [hs]
      rw [e, k2] at hc; exact absurd rfl hc
    · simp only [Prod.mk.injEq] at hs
      obtain ⟨rfl, _⟩ := hs
      rw [(k1 _).1] at hc; exact absurd rfl hc
  | callerRun =>
    simp only [Sr.step, Sr.callerCheck] at hs
    (repeat' split at hs) <;> simp only [Option.some.injEq, reduceCtorEq] at hs
    · have e : s' = s.finish.1 := by rw [hs]
      rw [e, k2] at hc; exact absurd rfl hc
    · rename_i h1 _; cases hs; exact ⟨by grind, rfl⟩
  | handle full =>
    cases hst : s.strand <;> simp only [Sr.step, hst] at hs <;> (repeat' split at hs) <;> simp only [Option.some.injEq, reduceCtorEq] at hs
    · cases hs
      rw [(k3 _ _ _).1] at hc
      exact ⟨fun h => hc ((k5 _).1.mpr h), by rw [(k3 _ _ _).2]; exact (k5 _).2⟩
    · cases hs; exact ⟨hc, rfl⟩
    · have e := (congrArg Prod.fst hs).symm
      simp only at e
      rw [e, (k4 _).1] at hc
      exact ⟨fun h => hc ((k5 _).1.mpr h), by rw [e, (k4 _).2]; exact (k5 _).2⟩
    · cases hs; exact ⟨hc, rfl⟩
  | strandRun full =>
    cases hst : s.strand <;> simp only [Sr.step, hst] at hs <;> (repeat' split at hs) <;> simp only [Option.some.injEq, reduceCtorEq] at hs
    · cases hs; rw [(k3 _ _ _).1] at hc; exact ⟨hc, (k3 _ _ _).2⟩
    · have e : s' = s.errCheck.1 := by rw [hs]
      rw [e, (k4 _).1] at hc; exact ⟨hc, by rw [e]; exact (k4 _).2⟩
  | moveAsync full =>
    simp only [Sr.step, Sr.leave] at hs
    (repeat' split at hs) <;> cases hs <;> exact ⟨hc, rfl⟩
  | _ => simp only [Sr.step] at hs; (repeat' split at hs) <;> simp only [Option.some.injEq, Prod.mk.injEq, reduceCtorEq] at hs <;> obtain ⟨rfl, _⟩ := hs <;> grind

/-- An admission, or not. -/
theorem Sr.call_cases {s s' : Sr} {x : Bool} {es : List SEv} {y : Bool} (hs : s.step (.call x y) = some (s', es)) :
    (∃ fs, es = .called :: fs ∧ SEv.called ∉ fs ∧ SEv.timeout ∉ fs ∧ (s'.caller ≠ .none → s'.timed = x)) ∨ (s' = s ∧ SEv.called ∉ es ∧ SEv.timeout ∉ es) := by
  simp only [Sr.step] at hs
  split at hs
  · cases hs; exact Or.inr ⟨rfl, by simp, by simp⟩
  · split at hs
    · cases hs
    · split at hs
      · cases hs; exact Or.inr ⟨rfl, by simp, by simp⟩
      · simp only [Option.some.injEq, Prod.mk.injEq] at hs
        obtain ⟨rfl, rfl⟩ := hs
        refine Or.inl ⟨_, rfl, (Sr.callerCheck_events _).1, (Sr.callerCheck_events _).2, ?_⟩
        intro hc
        simp only [Sr.callerCheck] at hc ⊢
        split at hc
        · rw [Sr.finish_caller] at hc; exact absurd rfl hc
        · rename_i h; rw [if_neg h]

structure Sw.Inv (s : Sw) (es : List SwEv) : Prop where
  base : s.sr.Inv
  watch : (SwWatch.mk none false).seeAll es = some (watchOf s.sr.ideal (s.now - s.since) s.dur)
  since : s.since ≤ s.now
  timed : s.sr.caller ≠ .none → s.sr.timed = (s.dur != 0)
  early : s.sr.caller ≠ .none → s.dur ≠ 0 → s.now ≤ s.since + s.dur

theorem Sw.init_inv : Sw.init.Inv [] := ⟨Sr.init_inv, rfl, Nat.le_refl _, fun h => absurd rfl h, fun h => absurd rfl h⟩

theorem Sw.step_inv {s s' : Sw} {a : SwAct} {es fs : List SwEv} (h : s.Inv es) (hs : s.step a = some (s', fs)) : s'.Inv (es ++ fs) := by
  have hw : ∀ gs, (SwWatch.mk none false).seeAll (es ++ gs) = (watchOf s.sr.ideal (s.now - s.since) s.dur).seeAll gs := by
    intro gs; rw [SwWatch.seeAll_append, h.watch]; rfl
  cases a with
  | call d stopped =>
    simp only [Sw.step] at hs
    split at hs
    · rename_i r gs hr
      cases hs
      obtain ⟨hi, hm⟩ := Sr.step_inv h.base hr
      rcases Sr.call_cases hr with ⟨ks, hk, hk1, hk2, hk3⟩ | ⟨_, hk, _⟩
      · simp only [List.cons.injEq, true_and] at hk
        subst hk
        refine ⟨hi, ?_, Nat.le_refl _, hk3, fun _ _ => by simp⟩
        rw [hw]
        simp only [IdealSr.monitor] at hm
        cases h1 : s.sr.ideal.event .called with
        | none => rw [h1] at hm; cases hm
        | some t1 =>
          rw [h1] at hm
          simp only [IdealSr.event] at h1
          split at h1
          · cases h1
          · rename_i hwt
            cases h1
            have := watch_of_ideal 0 d gs _ _ (fun hx => absurd hx hk2) hk1 hm
            simp only [SwWatch.seeAll, Nat.sub_self]
            have e : (watchOf s.sr.ideal (s.now - s.since) s.dur).see (.called d) = some ⟨some (0, d), false⟩ := by
              simp [watchOf, SwWatch.see, hwt]
            rw [e]
            simpa [watchOf] using this
      · simp at hk
    · rename_i r gs hn hr
      cases hs
      obtain ⟨hi, hm⟩ := Sr.step_inv h.base hr
      rcases Sr.call_cases hr with ⟨ks, hk, _⟩ | ⟨hk0, hk1, hk2⟩
      · exact absurd hk (hn ks)
      · subst hk0
        refine ⟨hi, ?_, h.since, h.timed, h.early⟩
        rw [hw]
        exact watch_of_ideal _ _ gs _ _ (fun hx => absurd hx hk2) hk1 hm
    · cases hs
  | timeout =>
    simp only [Sw.step] at hs
    split at hs
    · rename_i hdue
      split at hs
      · rename_i r gs hr
        cases hs
        obtain ⟨hi, hm⟩ := Sr.step_inv h.base hr
        have hk := Sr.keeps (by intro x y hx; cases hx) hr
        simp only [Sw.due, Bool.and_eq_true, bne_iff_ne, ne_eq, decide_eq_true_eq] at hdue
        obtain ⟨⟨d1, d2⟩, d3⟩ := hdue
        have d4 := h.early d1 d2
        refine ⟨hi, ?_, h.since, fun hc => by rw [(hk hc).2]; exact h.timed (hk hc).1, fun hc => h.early (hk hc).1⟩
        rw [hw]
        exact watch_of_ideal _ _ gs _ _ (fun _ => ⟨d2, by omega⟩) (Sr.timeout_events hr) hm
      · cases hs
    · cases hs
  | act a =>
    simp only [Sw.step] at hs
    split at hs
    · cases hs
    · rename_i ha
      have ha : a.clocked = false := by simpa using ha
      split at hs
      · rename_i r gs hr
        cases hs
        obtain ⟨hi, hm⟩ := Sr.step_inv h.base hr
        have hk := Sr.keeps (by intro x y hx; subst hx; simp [SAct.clocked] at ha) hr
        obtain ⟨e1, e2⟩ := Sr.act_events ha hr
        refine ⟨hi, ?_, h.since, fun hc => by rw [(hk hc).2]; exact h.timed (hk hc).1, fun hc => h.early (hk hc).1⟩
        rw [hw]
        exact watch_of_ideal _ _ gs _ _ (fun hx => absurd hx e2) e1 hm
      · cases hs
  | tick =>
    simp only [Sw.step] at hs
    split at hs
    · rename_i hq
      cases hs
      simp only [Bool.and_eq_true, Bool.not_eq_true', Sr.resting, Bool.or_eq_true, beq_iff_eq] at hq
      obtain ⟨⟨⟨_, hcal⟩, _⟩, hnd⟩ := hq
      have hsince := h.since
      have hna : (s.sr.sr == SrSt.responded) = false := by
        cases hsr : s.sr.sr <;> try rfl
        have := h.base.resp (Or.inl hsr)
        rw [this] at hcal; simp at hcal
      have hlim : s.sr.caller ≠ .none → s.dur ≠ 0 → s.now + 1 ≤ s.since + s.dur := by
        intro hc hd
        have hnd' : ¬ (s.since + s.dur ≤ s.now) := by
          intro hx; simp [Sw.due, hc, hd, hx] at hnd
        omega
      refine ⟨h.base, ?_, by simp only []; omega, h.timed, hlim⟩
      rw [hw]
      simp only [SwWatch.seeAll, watchOf, Sr.ideal, hna]
      by_cases hc : s.sr.caller = .none
      · simp [hc, SwWatch.see]
      · have hlim := hlim hc
        have e : (s.sr.caller != CPc.none) = true := by simpa using hc
        simp only [e, if_true, SwWatch.see]
        rw [if_neg (by simp; omega)]
        have e2 : s.now - s.since + 1 = s.now + 1 - s.since := by omega
        simp [e2]
    · cases hs

theorem Sw.run_inv {as : List SwAct} {s : Sw} {es : List SwEv} (h : Sw.Run Sw.init as s es) : s.Inv es := by
  generalize h0 : Sw.init = s0 at h
  induction h with
  | nil => subst h0; exact Sw.init_inv
  | snoc s1 s2 as a es es' _ hs ih => exact Sw.step_inv ih hs

theorem Sw.run_trans {s s1 s2 : Sw} {as bs : List SwAct} {es fs : List SwEv} (h1 : Sw.Run s as s1 es) (h2 : Sw.Run s1 bs s2 fs) : Sw.Run s (as ++ bs) s2 (es ++ fs) := by
  induction h2 with
  | nil => simpa using h1
  | snoc _ _ _ _ _ _ _ hs ih => rw [← List.append_assoc, ← List.append_assoc]; exact .snoc _ _ _ _ _ _ _ ih hs

theorem Sw.exec_run {as : List SwAct} : ∀ {s s' : Sw} {es : List SwEv}, Sw.exec s as = some (s', es) → Sw.Run s as s' es := by
  induction as with
  | nil => intro s s' es h; simp only [Sw.exec, Option.some.injEq, Prod.mk.injEq] at h; obtain ⟨rfl, rfl⟩ := h; exact .nil _
  | cons a as ih =>
    intro s s' es h
    simp only [Sw.exec] at h
    cases hs : s.step a with
    | none => rw [hs] at h; cases h
    | some r =>
      obtain ⟨s1, es1⟩ := r
      rw [hs] at h
      simp only at h
      cases he : Sw.exec s1 as with
      | none => rw [he] at h; cases h
      | some q =>
        obtain ⟨s2, es2⟩ := q
        rw [he] at h
        simp only [Option.some.injEq, Prod.mk.injEq] at h
        obtain ⟨rfl, rfl⟩ := h
        have h1 : Sw.Run s ([] ++ [a]) s1 ([] ++ es1) := .snoc _ _ _ _ _ _ _ (.nil _) hs
        simpa using Sw.run_trans h1 (ih he)

/-- A demonstration run. -/
theorem Sw.run_of (as : List SwAct) (p : Sw → List SwEv → Bool) (h : (match Sw.exec Sw.init as with | some (s, es) => p s es | none => false) = true) : ∃ s es, Sw.Run Sw.init as s es ∧ p s es = true := by
  cases he : Sw.exec Sw.init as with
  | none => rw [he] at h; cases h
  | some q => obtain ⟨s, es⟩ := q; rw [he] at h; exact ⟨s, es, Sw.exec_run he, h⟩

end StAsio
