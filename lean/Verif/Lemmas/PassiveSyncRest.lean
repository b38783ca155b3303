import Verif.Lemmas.PassiveSync
/-!
C110: patient callers, coming to rest, and the caller that asked too early.
-/
set_option autoImplicit false
namespace StAsio

theorem Sp.pat_run {as : List SpAct} {s : Sp} {es : List SpEv} (hr : Sp.Run Sp.patient Sp.init as s es) : s.Pat ∧ (∀ ms, SpEv.sr (.async ms) ∉ es) ∧ SpEv.nothing ∉ es := by
  generalize he : Sp.init = s0 at hr
  induction hr with
  | nil =>
    subst he
    refine ⟨?_, by simp, by simp⟩
    constructor <;> simp [Sp.init, Sr.init, SPc.waiting]
  | snoc hr hp hs ih =>
    subst he
    have := Sp.pat_step (Sp.good_run hr) (Sp.calm_run hr) ih.1 hp hs
    refine ⟨this.1, ?_, ?_⟩
    · intro ms hm
      rcases List.mem_append.mp hm with hm | hm
      · exact ih.2.1 ms hm
      · exact this.2.1 ms hm
    · intro hm
      rcases List.mem_append.mp hm with hm | hm
      · exact ih.2.2 hm
      · exact this.2.2 hm

theorem sHandedOut_returned (es : List SEv) (h : ∀ ms, SEv.async ms ∉ es) : sHandedOut es = spReturned es := by
  induction es with
  | nil => rfl
  | cons e es ih =>
    have ih := ih fun ms hm => h ms (List.mem_cons_of_mem _ hm)
    cases e with
    | async ms => exact absurd (List.mem_cons_self ..) (h ms)
    | _ => simp_all [sHandedOut, spReturned]

/-- What the library and the waiting caller do by themselves. -/
def SpAct.Internal : SpAct → Prop
  | .sr a => a.Internal
  | .ask => True
  | _ => False

def Sp.work (s : Sp) : Nat := s.sr.work + s.posted

/-- Nothing can go on by itself. -/
def Sp.AtRest (s : Sp) : Prop := s.sr.Quiet ∧ s.posted = 0

theorem Sr.work_off (s : Sr) (b : Bool) : (if b then { s with rd := .off } else s).work = s.work := by cases b <;> rfl

theorem Sp.step_work {s s' : Sp} {a : SpAct} {es fs : List SpEv} (hg : s.Good es) (ha : a.Internal) (hs : s.step a = some (s', fs)) : s'.work < s.work := by
  cases a with
  | sr a =>
    simp only [Sp.step] at hs
    split at hs
    · cases hr : s.sr.step a with
      | none => simp [hr] at hs
      | some r =>
        simp only [hr, Option.map_some, Option.some.injEq, Prod.mk.injEq] at hs
        obtain ⟨rfl, rfl⟩ := hs
        have h1 := Sr.step_work hg.inv ha hr
        have h2 : s.asks a = 0 := by cases a <;> simp [SpAct.Internal, SAct.Internal] at ha <;> rfl
        simp only [Sp.work, Sr.work_off, h2]
        omega
    · cases hs
  | ask =>
    simp only [Sp.step] at hs
    split at hs
    · rename_i hc
      split at hs <;> cases hs
      · show s.sr.work + (s.posted - 1) < s.sr.work + s.posted
        omega
      · show s.sr.work + (s.posted - 1) < s.sr.work + s.posted
        omega
    · cases hs
  | connect => exact absurd ha id
  | down => exact absurd ha id

theorem Sp.progress {s : Sp} {es : List SpEv} (hg : s.Good es) (hn : ¬ s.AtRest) : ∃ a s' fs, SpAct.Internal a ∧ s.step a = some (s', fs) := by
  by_cases hq : s.sr.Quiet
  · have hp : 0 < s.posted := by
      rcases Nat.eq_zero_or_pos s.posted with h | h
      · exact absurd ⟨hq, h⟩ hn
      · exact h
    have hi := (Sr.quiet hg.inv hq).1
    by_cases hu : s.link = .up ∧ s.sr.rd = .off
    · exact ⟨.ask, { s with posted := s.posted - 1, sr := { s.sr with rd := .reading } }, [.read], trivial, by simp [Sp.step, hp, hi, hu]⟩
    · exact ⟨.ask, { s with posted := s.posted - 1 }, [], trivial, by simp only [Sp.step]; rw [if_pos ⟨hp, hi⟩, if_neg hu]⟩
  · obtain ⟨a, s', fs, ha, hs⟩ := Sr.progress hg.inv hq
    have hm : s.may a = true := by cases a <;> simp [SAct.Internal] at ha <;> rfl
    exact ⟨.sr a, _, _, ha, by simp only [Sp.step, hm, hs, Option.map_some]; rfl⟩

/-- A caller that asked too early. -/
structure Sp.Stuck (s : Sp) : Prop where
  req : s.sr.sr = .requested
  caller : s.sr.caller ≠ .none
  posted : s.posted = 0
  rd : s.sr.rd = .off
  strand : s.sr.strand = .idle
  started : s.sr.started = true
  timed : s.sr.timed = false
  closing : s.sr.closing = false

theorem Sp.stuck_step {s s' : Sp} {a : SpAct} {fs : List SpEv} (h : s.Stuck) (ha : a ≠ .sr .closeSet) (hs : s.step a = some (s', fs)) : s'.Stuck ∧ (∀ e ∈ fs, e = .sr .duplicate) := by
  obtain ⟨h1, h2, h3, h4, h5, h6, h7, h8⟩ := h
  cases a with
  | sr a =>
    simp only [Sp.step] at hs
    split at hs
    · rename_i hm
      cases hr : s.sr.step a with
      | none => simp [hr] at hs
      | some r =>
        simp only [hr, Option.map_some, Option.some.injEq, Prod.mk.injEq] at hs
        obtain ⟨rfl, rfl⟩ := hs
        cases a <;> simp [Sr.step, h1, h4, h5, h6, h7, h8, Sr.callerCheck] at hr ha
        case call timed stopped =>
          cases stopped
          · by_cases hl : s.sr.locked = true
            · simp [hl] at hr
            · simp [hl] at hr
              subst hr
              exact ⟨⟨h1, h2, by simp [Sp.asks, h1, h3], h4, h5, h6, h7, h8⟩, by simp [Sp.idle]⟩
          · simp at hr
            subst hr
            exact ⟨⟨h1, h2, by simp [Sp.asks, h3], h4, h5, h6, h7, h8⟩, by simp [Sp.idle]⟩
        case park =>
          obtain ⟨_, rfl⟩ := hr
          refine ⟨?_, by simp [Sp.idle]⟩
          constructor <;> simp [SAct.noRead, Sp.asks, h3]
        case callerRun =>
          obtain ⟨_, rfl⟩ := hr
          refine ⟨?_, by simp [Sp.idle]⟩
          constructor <;> simp [SAct.noRead, Sp.asks, h3]
        case spuriousCaller =>
          obtain ⟨_, rfl⟩ := hr
          refine ⟨?_, by simp [Sp.idle]⟩
          constructor <;> simp [SAct.noRead, Sp.asks, h3]
    · cases hs
  | ask => simp [Sp.step, h3] at hs
  | connect =>
    simp only [Sp.step] at hs
    split at hs <;> cases hs
    exact ⟨⟨h1, h2, h3, h4, h5, h6, h7, h8⟩, by simp⟩
  | down =>
    simp only [Sp.step] at hs
    split at hs <;> cases hs
    exact ⟨⟨h1, h2, h3, h4, h5, h6, h7, h8⟩, by simp⟩

end StAsio
