import Verif.Model.PassiveSync
import Verif.Lemmas.SyncRecv
set_option autoImplicit false
namespace StAsio

theorem spSync_append (es fs : List SpEv) : spSync (es ++ fs) = spSync es ++ spSync fs := by simp [spSync]

theorem spSync_map (es : List SEv) : spSync (es.map .sr) = es := by
  induction es with
  | nil => rfl
  | cons e es ih => simpa [spSync] using ih

theorem Sp.sync_idle (s : Sp) (a : SAct) : spSync (s.idle a) = [] := by
  cases a <;> simp only [Sp.idle] <;> (try split) <;> rfl

theorem Sr.inv_off {s : Sr} (h : s.Inv) : Sr.Inv { s with rd := .off } := by
  obtain ⟨i1, i2, i3, i4, i5, i6, i7, i8, i9⟩ := h
  refine ⟨i1, i2, i3, i4, i5, i6, ?_, i8, i9⟩
  intro ho hr
  rcases i7 ho hr with h | h
  · exact .inl h
  · exact .inr ⟨rfl, h.2⟩

theorem sCalled_append (es fs : List SEv) : sCalled (es ++ fs) = sCalled es + sCalled fs := by
  induction es with
  | nil => simp [sCalled]
  | cons e es ih => cases e <;> simp [sCalled, ih] <;> omega

theorem Sp.asks_called {s : Sp} {a : SAct} {r : Sr × List SEv} (h : s.sr.step a = some r) : s.asks a ≤ sCalled r.2 := by
  cases a <;> simp only [Sp.asks] <;> (try exact Nat.zero_le _)
  rename_i timed stopped
  split
  · rename_i hc
    simp only [Sr.step, hc.1] at h
    by_cases hl : s.sr.locked = true
    · simp [hl] at h
    · simp only [hl, hc.2.1] at h
      simp at h
      subst h
      simp [sCalled]
  · exact Nat.zero_le _

theorem Sp.reads_lib (s : Sp) (a : SAct) (es : List SEv) : spReads (es.map .sr ++ s.idle a) = 0 := by
  have h1 : SpEv.read ∉ es.map SpEv.sr := by simp
  have h2 : SpEv.read ∉ s.idle a := by cases a <;> simp only [Sp.idle] <;> (try split) <;> simp
  simp [spReads, List.count_eq_zero.mpr h1, List.count_eq_zero.mpr h2]

/-- A caller that was answered and has not taken its messages is waited for, unless the socket was closed. -/
def Sr.Waited (s : Sr) : Prop := s.overlap = false → s.sr = .responded → s.strand.waiting = true ∨ s.started = false

theorem Sr.waited_step {s s' : Sr} {a : SAct} {es : List SEv} (h : s.Inv) (hw : s.Waited) (hs : s.step a = some (s', es)) : s'.Waited := by
  obtain ⟨i1, i2, i3, i4, i5, i6, i7, i8, i9⟩ := h
  simp only [Sr.Waited] at hw ⊢
  cases a
  case handle full =>
    cases hst : s.strand <;> simp only [Sr.step, hst] at hs
    case parsed ec =>
      by_cases hl : s.locked = true
      · simp [hl] at hs
      · by_cases hr : s.sr = .requested
        · rw [if_neg hl, if_pos hr] at hs
          simp only [Sr.notifyCaller] at hs
          by_cases hb : s.caller = .blocked
          · rw [if_pos hb] at hs
            cases hst' : s.started <;> simp only [Sr.strandCheck, Sr.leave, hst'] at hs <;> cases hs <;> grind [SPc.waiting]
          · rw [if_neg hb] at hs
            cases hst' : s.started <;> simp only [Sr.strandCheck, Sr.leave, hst'] at hs <;> cases hs <;> grind [SPc.waiting]
        · rw [if_neg hl, if_neg hr] at hs
          cases hs
          grind [SPc.waiting]
    case erring =>
      by_cases hl : s.locked = true
      · simp [hl] at hs
      · by_cases hr : s.sr = .requested
        · rw [if_neg hl, if_pos hr] at hs
          simp only [Sr.notifyCaller] at hs
          by_cases hb : s.caller = .blocked
          · rw [if_pos hb] at hs
            cases hst' : s.started <;> simp only [Sr.errCheck, hst'] at hs <;> cases hs <;> grind [SPc.waiting]
          · rw [if_neg hb] at hs
            cases hst' : s.started <;> simp only [Sr.errCheck, hst'] at hs <;> cases hs <;> grind [SPc.waiting]
        · rw [if_neg hl, if_neg hr] at hs
          cases hs
          grind [SPc.waiting]
    all_goals cases hs
  all_goals
    simp only [Sr.step, Sr.callerCheck, Sr.finish, Sr.notifyStrand, Sr.strandCheck, Sr.errCheck, Sr.leave] at hs
    grind [Sr.locked, SPc.waiting]

/-- Only close() ends a socket, only start() starts it. -/
theorem Sr.started_step {s s' : Sr} {a : SAct} {es : List SEv} (hs : s.step a = some (s', es)) : s'.started = (match a with | .start => true | .closeSet => false | _ => s.started) := by
  cases a
  case handle full =>
    cases hst : s.strand <;> simp only [Sr.step, hst] at hs
    case parsed ec =>
      by_cases hl : s.locked = true
      · simp [hl] at hs
      · by_cases hr : s.sr = .requested
        · rw [if_neg hl, if_pos hr] at hs
          simp only [Sr.notifyCaller] at hs
          by_cases hb : s.caller = .blocked
          · rw [if_pos hb] at hs
            cases hst' : s.started <;> simp only [Sr.strandCheck, Sr.leave, hst'] at hs <;> cases hs <;> grind
          · rw [if_neg hb] at hs
            cases hst' : s.started <;> simp only [Sr.strandCheck, Sr.leave, hst'] at hs <;> cases hs <;> grind
        · rw [if_neg hl, if_neg hr] at hs
          cases hs
          grind
    case erring =>
      by_cases hl : s.locked = true
      · simp [hl] at hs
      · by_cases hr : s.sr = .requested
        · rw [if_neg hl, if_pos hr] at hs
          simp only [Sr.notifyCaller] at hs
          by_cases hb : s.caller = .blocked
          · rw [if_pos hb] at hs
            cases hst' : s.started <;> simp only [Sr.errCheck, hst'] at hs <;> cases hs <;> grind
          · rw [if_neg hb] at hs
            cases hst' : s.started <;> simp only [Sr.errCheck, hst'] at hs <;> cases hs <;> grind
        · rw [if_neg hl, if_neg hr] at hs
          cases hs
          grind
    all_goals cases hs
  all_goals
    simp only [Sr.step, Sr.callerCheck, Sr.finish, Sr.notifyStrand, Sr.strandCheck, Sr.errCheck, Sr.leave] at hs
    grind

/-- The hand-off is as without ST_ASIO_PASSIVE_RECV, and reads are asked for. -/
structure Sp.Good (s : Sp) (es : List SpEv) : Prop where
  inv : s.sr.Inv
  mon : (IdealSr.mk [] false false).monitor (spSync es) = some s.sr.ideal
  asked : spReads es + s.posted ≤ sCalled (spSync es)
  waited : s.sr.Waited
  on : s.link ≠ .none → s.sr.started = true

theorem Sp.good_init : Sp.Good Sp.init [] := ⟨Sr.init_inv, rfl, by simp [Sp.init, spReads, spSync, sCalled], by simp [Sp.init, Sr.init, Sr.Waited], by simp [Sp.init]⟩

theorem Sp.good_step {s s' : Sp} {a : SpAct} {es fs : List SpEv} (h : s.Good es) (hs : s.step a = some (s', fs)) : s'.Good (es ++ fs) := by
  cases a with
  | sr a =>
    simp only [Sp.step] at hs
    split at hs
    · cases hr : s.sr.step a with
      | none => simp [hr] at hs
      | some r =>
        simp only [hr, Option.map_some, Option.some.injEq, Prod.mk.injEq] at hs
        obtain ⟨rfl, rfl⟩ := hs
        have hi := Sr.step_inv h.inv hr
        have ha := Sp.asks_called hr
        have hw := Sr.waited_step h.inv h.waited hr
        have hst := Sr.started_step hr
        refine ⟨?_, ?_, ?_, ?_, ?_⟩
        · show Sr.Inv (if a.noRead then { r.1 with rd := .off } else r.1)
          split
          · exact Sr.inv_off hi.1
          · exact hi.1
        · rw [spSync_append, spSync_append, spSync_map, Sp.sync_idle, List.append_nil, sMonitor_append, h.mon]
          show s.sr.ideal.monitor r.2 = _
          rw [hi.2]
          show some r.1.ideal = some (Sr.ideal (if a.noRead then { r.1 with rd := .off } else r.1))
          split <;> rfl
        · rw [spSync_append, spSync_append, spSync_map, Sp.sync_idle, List.append_nil, sCalled_append]
          have h1 := Sp.reads_lib s a r.2
          have h2 := h.asked
          show spReads (es ++ (r.2.map .sr ++ s.idle a)) + (s.posted + s.asks a) ≤ _
          simp only [spReads, List.count_append] at h1 h2 ⊢
          omega
        · show Sr.Waited (if a.noRead then { r.1 with rd := .off } else r.1)
          split
          · exact hw
          · exact hw
        · show s.linkAfter a ≠ .none → (if a.noRead then { r.1 with rd := .off } else r.1).started = true
          have he : (if a.noRead then { r.1 with rd := .off } else r.1).started = r.1.started := by split <;> rfl
          rw [he, hst]
          have := h.on
          cases a <;> simp_all [Sp.linkAfter]
    · cases hs
  | ask =>
    simp only [Sp.step] at hs
    have h2 := h.asked
    split at hs
    · rename_i hc
      split at hs <;> cases hs
      · rename_i hl
        refine ⟨?_, ?_, ?_, h.waited, h.on⟩
        · obtain ⟨i1, i2, i3, i4, i5, i6, i7, i8, i9⟩ := h.inv
          refine ⟨i1, i2, i3, i4, i5, i6, ?_, i8, i9⟩
          intro ho hr
          rcases h.waited ho hr with hw | hw
          · exact .inl hw
          · have := h.on (by simp [hl.1])
            rw [hw] at this
            cases this
        · simpa [spSync_append, spSync, Sr.ideal] using h.mon
        · show spReads (es ++ [.read]) + (s.posted - 1) ≤ sCalled (spSync (es ++ [.read]))
          rw [spSync_append]
          simp only [spReads, List.count_append] at h2 ⊢
          have : spSync [SpEv.read] = [] := rfl
          rw [this, List.append_nil]
          simp
          omega
      · refine ⟨h.inv, by simpa using h.mon, ?_, h.waited, h.on⟩
        rw [List.append_nil]
        show spReads es + (s.posted - 1) ≤ _
        omega
    · cases hs
  | connect =>
    simp only [Sp.step] at hs
    split at hs <;> cases hs
    rename_i hl
    rw [List.append_nil]
    exact ⟨h.inv, h.mon, h.asked, h.waited, fun _ => h.on (by simp [hl])⟩
  | down =>
    simp only [Sp.step] at hs
    split at hs <;> cases hs
    rw [List.append_nil]
    exact ⟨h.inv, h.mon, h.asked, h.waited, by simp⟩

theorem Sp.good_run {p : Sp → SpAct → Bool} {as : List SpAct} {s : Sp} {es : List SpEv} (hr : Sp.Run p Sp.init as s es) : s.Good es := by
  generalize he : Sp.init = s0 at hr
  induction hr with
  | nil => subst he; exact Sp.good_init
  | snoc _ _ hs ih => exact Sp.good_step ih hs

theorem Sp.exec_run {p : Sp → SpAct → Bool} : ∀ (bs : List SpAct) {s0 s : Sp} {as : List SpAct} {es : List SpEv} {q : Sp × List SpEv}, Sp.Run p s0 as s es → Sp.exec p s bs = some q → Sp.Run p s0 (as ++ bs) q.1 (es ++ q.2) := by
  intro bs
  induction bs with
  | nil => intro s0 s as es q hr h; simp only [Sp.exec, Option.some.injEq] at h; subst h; simpa using hr
  | cons b bs ih =>
    intro s0 s as es q hr h
    simp only [Sp.exec] at h
    split at h
    · rename_i hb
      cases hs : s.step b with
      | none => simp [hs] at h
      | some r =>
        cases hx : Sp.exec p r.1 bs with
        | none => simp [hs, hx] at h
        | some v =>
          simp [hs, hx] at h
          subst h
          have := ih (Sp.Run.snoc hr hb (s2 := r.1) (fs := r.2) hs) hx
          simpa using this
    · cases h

theorem Sp.run_of {p : Sp → SpAct → Bool} (bs : List SpAct) (P : Sp → List SpEv → Bool) (h : ((Sp.exec p Sp.init bs).any fun q => P q.1 q.2) = true) : ∃ s es, Sp.Run p Sp.init bs s es ∧ P s es = true := by
  cases hq : Sp.exec p Sp.init bs with
  | none => simp [hq] at h
  | some q => exact ⟨q.1, q.2, by simpa using Sp.exec_run bs (Sp.Run.nil _) hq, by simpa [hq] using h⟩

theorem Sr.idle_step {s s' : Sr} {a : SAct} {es : List SEv} (hi : s.strand = .idle) (hr : s.rd ≠ .suspended) (hn : a.noRead = false) (hs : s.step a = some (s', es)) : s'.strand = .idle ∧ s'.rd = s.rd := by
  cases a <;> simp only [SAct.noRead] at hn <;> first | (cases hn; done) | skip
  all_goals
    simp only [Sr.step, Sr.callerCheck, Sr.finish, Sr.notifyStrand] at hs
    grind [Sr.locked]

/-- Who is waiting for messages after a step? -/
theorem Sr.req_step {s s' : Sr} {a : SAct} {es : List SEv} (hs : s.step a = some (s', es)) (h' : s'.sr = .requested) :
    (∃ timed, a = .call timed false ∧ s.sr = .notRequested ∧ s.started = true) ∨
    (s.sr = .requested ∧ ((s.strand = .erring ∨ ∃ ec, s.strand = .parsed ec) → s'.strand = s.strand)) := by
  cases a
  case call timed stopped =>
    cases stopped
    · by_cases hl : s.locked = true
      · simp [Sr.step, hl] at hs
      · by_cases hr : s.sr = .notRequested
        · cases hst : s.started
          · exfalso
            simp [Sr.step, hl, hr, Sr.callerCheck, Sr.finish, hst] at hs
            rw [← hs.1] at h'
            simp only [Sr.notifyStrand] at h'
            split at h' <;> cases h'
          · exact .inl ⟨timed, rfl, hr, rfl⟩
        · simp [Sr.step, hl, hr] at hs
          right
          rw [← hs.1] at h' ⊢
          exact ⟨h', fun _ => rfl⟩
    · simp [Sr.step] at hs
      right
      rw [← hs.1] at h' ⊢
      exact ⟨h', fun _ => rfl⟩
  case handle full =>
    cases hst : s.strand <;> simp only [Sr.step, hst] at hs
    case parsed ec =>
      by_cases hl : s.locked = true
      · simp [hl] at hs
      · by_cases hr : s.sr = .requested
        · rw [if_neg hl, if_pos hr] at hs
          simp only [Sr.notifyCaller] at hs
          by_cases hb : s.caller = .blocked
          · rw [if_pos hb] at hs
            cases hst' : s.started <;> simp only [Sr.strandCheck, Sr.leave, hst'] at hs <;> cases hs <;> grind
          · rw [if_neg hb] at hs
            cases hst' : s.started <;> simp only [Sr.strandCheck, Sr.leave, hst'] at hs <;> cases hs <;> grind
        · rw [if_neg hl, if_neg hr] at hs
          cases hs
          grind
    case erring =>
      by_cases hl : s.locked = true
      · simp [hl] at hs
      · by_cases hr : s.sr = .requested
        · rw [if_neg hl, if_pos hr] at hs
          simp only [Sr.notifyCaller] at hs
          by_cases hb : s.caller = .blocked
          · rw [if_pos hb] at hs
            cases hst' : s.started <;> simp only [Sr.errCheck, hst'] at hs <;> cases hs <;> grind
          · rw [if_neg hb] at hs
            cases hst' : s.started <;> simp only [Sr.errCheck, hst'] at hs <;> cases hs <;> grind
        · rw [if_neg hl, if_neg hr] at hs
          cases hs
          grind
    all_goals cases hs
  all_goals
    simp only [Sr.step, Sr.callerCheck, Sr.finish, Sr.notifyStrand, Sr.strandCheck, Sr.errCheck, Sr.leave] at hs
    grind [Sr.locked]

/-- While a read is outstanding, the strand is idle. -/
def Sp.Calm (s : Sp) : Prop := s.sr.rd ≠ .suspended ∧ (s.sr.rd = .reading → s.sr.strand = .idle)

theorem Sr.rd_step {s s' : Sr} {a : SAct} {es : List SEv} (hr : s.rd ≠ .suspended) (hn : a.noRead = false) (hm : a ≠ .resumeRead) (hs : s.step a = some (s', es)) : s'.rd = s.rd := by
  cases a <;> simp only [SAct.noRead] at hn <;> first | (cases hn; done) | skip
  all_goals
    simp only [Sr.step, Sr.callerCheck, Sr.finish, Sr.notifyStrand] at hs
    grind [Sr.locked]

theorem Sp.calm_step {s s' : Sp} {a : SpAct} {fs : List SpEv} (h : s.Calm) (hs : s.step a = some (s', fs)) : s'.Calm := by
  cases a with
  | sr a =>
    simp only [Sp.step] at hs
    split at hs
    · rename_i hm
      cases hr : s.sr.step a with
      | none => simp [hr] at hs
      | some r =>
        simp only [hr, Option.map_some, Option.some.injEq, Prod.mk.injEq] at hs
        obtain ⟨rfl, rfl⟩ := hs
        cases hn : a.noRead
        · have h1 := Sr.rd_step h.1 hn (by rintro rfl; simp [Sp.may] at hm) hr
          refine ⟨by simpa [h1] using h.1, ?_⟩
          intro h2
          simp [h1] at h2
          simpa using (Sr.idle_step (h.2 h2) h.1 hn hr).1
        · exact ⟨by simp, by simp⟩
    · cases hs
  | ask =>
    simp only [Sp.step] at hs
    split at hs
    · rename_i hc
      split at hs <;> cases hs
      · exact ⟨by simp, fun _ => hc.2⟩
      · exact h
    · cases hs
  | connect => simp only [Sp.step] at hs; split at hs <;> cases hs; exact h
  | down => simp only [Sp.step] at hs; split at hs <;> cases hs; exact h

/-- A caller that waits on a link that is up waits for a read, or somebody is about to start one, or a read has just ended. -/
def Sp.Awake (s : Sp) : Prop := s.sr.sr = .requested → s.link = .up → 0 < s.posted ∨ s.sr.rd = .reading ∨ s.sr.strand = .erring ∨ ∃ ec, s.sr.strand = .parsed ec

/-- No caller is waiting while the link is being established. -/
def Sp.Early (s : Sp) : Prop := s.link = .coming → s.sr.sr ≠ .requested

theorem Sr.start_sr {s s' : Sr} {es : List SEv} (hs : s.step .start = some (s', es)) : s'.sr = s.sr := by
  simp only [Sr.step] at hs
  split at hs <;> cases hs
  rfl

theorem Sp.awake_step {s s' : Sp} {a : SpAct} {fs : List SpEv} (hc : s.Calm) (hw : s.Awake) (he : s.Early) (hp : s.ready a = true) (hs : s.step a = some (s', fs)) : s'.Awake ∧ s'.Early := by
  cases a with
  | sr a =>
    simp only [Sp.step] at hs
    split at hs
    · rename_i hm
      cases hr : s.sr.step a with
      | none => simp [hr] at hs
      | some r =>
        simp only [hr, Option.map_some, Option.some.injEq, Prod.mk.injEq] at hs
        obtain ⟨rfl, rfl⟩ := hs
        have e1 : (if a.noRead then { r.1 with rd := .off } else r.1).sr = r.1.sr := by split <;> rfl
        have e2 : (if a.noRead then { r.1 with rd := .off } else r.1).strand = r.1.strand := by split <;> rfl
        constructor
        · intro hq hl
          simp only [e1, e2] at hq hl ⊢
          rcases Sr.req_step hr hq with ⟨timed, rfl, h1, h2⟩ | ⟨h1, h2⟩
          · have h3 : s.link = .up := by simpa [Sp.linkAfter] using hl
            cases hrd : s.sr.rd with
            | off => left; simp [Sp.asks, h1, h3, hrd]
            | reading =>
              right; left
              have := Sr.rd_step hc.1 (a := .call timed false) rfl (by simp) hr
              simp [SAct.noRead, this, hrd]
            | suspended => exact absurd hrd hc.1
          · have h3 : s.link = .up := by
              cases a <;> simp [Sp.linkAfter] at hl <;> exact hl
            rcases hw h1 h3 with h4 | h4 | h4 | h4
            · left; omega
            · cases hn : a.noRead
              · right; left
                have := Sr.rd_step hc.1 hn (by rintro rfl; simp [Sp.may] at hm) hr
                simp [this, h4]
              · right; right
                have hid := hc.2 h4
                cases a <;> simp [SAct.noRead] at hn <;> simp [Sr.step, hid, h4] at hr <;> (try subst hr) <;> simp
            · right; right; left; rw [h2 (.inl h4)]; exact h4
            · right; right; right; rw [h2 (.inr h4)]; exact h4
        · intro hl hq
          simp only [e1] at hq hl
          rcases Sr.req_step hr hq with ⟨timed, rfl, h1, h2⟩ | ⟨h1, h2⟩
          · simp [Sp.linkAfter] at hl
            simp [Sp.ready, hl, h2] at hp
          · cases a <;> simp [Sp.linkAfter] at hl <;> first | exact he hl h1 | skip
            simp [Sp.ready, h1] at hp
    · cases hs
  | ask =>
    simp only [Sp.step] at hs
    split at hs
    · rename_i hcc
      split at hs <;> cases hs
      · exact ⟨fun _ _ => .inr (.inl rfl), he⟩
      · rename_i hn
        refine ⟨fun hq hl => ?_, he⟩
        right; left
        cases hrd : s.sr.rd with
        | off => exact absurd ⟨hl, hrd⟩ hn
        | reading => rfl
        | suspended => exact absurd hrd hc.1
    · cases hs
  | connect =>
    simp only [Sp.step] at hs
    split at hs <;> cases hs
    rename_i hl
    exact ⟨fun hq _ => absurd hq (he hl), fun h => by cases h⟩
  | down =>
    simp only [Sp.step] at hs
    split at hs <;> cases hs
    refine ⟨?_, ?_⟩
    · intro _ h; cases h
    · intro h; cases h

theorem Sp.calm_run {p : Sp → SpAct → Bool} {as : List SpAct} {s : Sp} {es : List SpEv} (hr : Sp.Run p Sp.init as s es) : s.Calm := by
  generalize he : Sp.init = s0 at hr
  induction hr with
  | nil => subst he; exact ⟨by simp [Sp.init, Sr.init], by simp [Sp.init, Sr.init]⟩
  | snoc _ _ hs ih => exact Sp.calm_step ih hs

theorem Sp.awake_run {as : List SpAct} {s : Sp} {es : List SpEv} (hr : Sp.Run Sp.ready Sp.init as s es) : s.Awake ∧ s.Early := by
  generalize he : Sp.init = s0 at hr
  induction hr with
  | nil => subst he; exact ⟨by simp [Sp.Awake, Sp.init, Sr.init], by simp [Sp.Early, Sp.init]⟩
  | snoc hr hp hs ih => subst he; exact Sp.awake_step (Sp.calm_run hr) ih.1 ih.2 hp hs

/-- Callers that wait as long as it takes, on a link that works: whoever reads, reads for a caller that is waiting. -/
structure Sp.Pat (s : Sp) : Prop where
  posted : 0 < s.posted → s.sr.sr = .requested ∧ s.sr.rd = .off ∧ (∀ ec, s.sr.strand ≠ .parsed ec) ∧ s.posted = 1
  reading : s.sr.rd = .reading → s.sr.sr = .requested
  parsed : ∀ ec, s.sr.strand = .parsed ec → s.sr.sr = .requested ∧ ec = false
  strand : s.sr.strand = .idle ∨ s.sr.strand = .parsed false ∨ s.sr.strand = .parking false ∨ s.sr.strand = .blocked false ∨ s.sr.strand = .woken false
  taken : s.sr.strand.waiting = true → s.sr.sr = .responded ∨ s.sr.temp = []
  begun : s.sr.started = false → s.sr.strand = .idle ∧ s.sr.sr = .notRequested ∧ s.sr.rd = .off
  answered : s.sr.sr = .responded → s.sr.strand.waiting = true
  fine : s.sr.sr ≠ .respondedFailure
  open_ : s.sr.closing = false
  untimed : s.sr.caller ≠ .none → s.sr.timed = false

theorem Sr.asking_step {s s' : Sr} {timed : Bool} {es : List SEv} (hs : s.step (.call timed false) = some (s', es)) (hr : s.sr = .notRequested) (hst : s.started = true) :
    s' = { s with sr := .requested, timed := timed, caller := .parking } ∧ es = [.called] := by
  by_cases hl : s.locked = true
  · simp [Sr.step, hl] at hs
  · simp [Sr.step, hl, hr, Sr.callerCheck, hst] at hs
    rw [← hst] at hs
    exact ⟨hs.1.symm, hs.2.symm⟩

set_option maxHeartbeats 4000000 in
set_option linter.unusedSimpArgs false in
theorem Sp.pat_step {s s' : Sp} {a : SpAct} {es fs : List SpEv} (hg : s.Good es) (hc : s.Calm) (h : s.Pat) (hp : s.patient a = true) (hs : s.step a = some (s', fs)) :
    s'.Pat ∧ (∀ ms, SpEv.sr (.async ms) ∉ fs) ∧ SpEv.nothing ∉ fs := by
  obtain ⟨i1, i2, i3, i4, i5, i6, i7, i8, i9⟩ := hg.inv
  obtain ⟨p1, p2, p3, p4, p5, p6, p7, p8, p9, p10⟩ := h
  obtain ⟨c1, c2⟩ := hc
  have ho := hg.on
  cases a with
  | sr a =>
    simp only [Sp.step] at hs
    split at hs
    · rename_i hm
      cases hr : s.sr.step a with
      | none => simp [hr] at hs
      | some r =>
        simp only [hr, Option.map_some, Option.some.injEq, Prod.mk.injEq] at hs
        obtain ⟨rfl, rfl⟩ := hs
        cases a with
        | resumeRead => simp [Sp.may] at hm
        | call timed stopped =>
          have ht : timed = false := by simpa [Sp.patient] using hp
          subst ht
          cases stopped
          · by_cases hq : s.sr.sr = .notRequested
            · cases hst : s.sr.started
              · have hlk : s.link = .none := by
                  cases hlk : s.link <;> first | rfl | (have := ho (by simp [hlk]); rw [hst] at this; cases this)
                by_cases hl : s.sr.locked = true
                · simp [Sr.step, hl] at hr
                · have hid := (p6 hst).1
                  have hrd := (p6 hst).2.2
                  simp [Sr.step, hl, hq, Sr.callerCheck, Sr.finish, hst, Sr.notifyStrand, hid] at hr
                  subst hr
                  have hpo : s.posted = 0 := by
                    rcases Nat.eq_zero_or_pos s.posted with h0 | h0
                    · exact h0
                    · have := (p1 h0).1; rw [hq] at this; cases this
                  refine ⟨?_, by simp [Sp.idle], by simp [Sp.idle]⟩
                  constructor <;> simp [SAct.noRead, Sp.asks, hlk, hpo, SPc.waiting, p9, hid, hrd]
              · obtain ⟨h1, h2⟩ := Sr.asking_step (s' := r.1) (es := r.2) hr hq hst
                have hpo : s.posted = 0 := by
                  rcases Nat.eq_zero_or_pos s.posted with h0 | h0
                  · exact h0
                  · have := (p1 h0).1; rw [hq] at this; cases this
                have hnp : ∀ ec, s.sr.strand ≠ .parsed ec := fun ec hx => by have := (p3 ec hx).1; rw [hq] at this; cases this
                refine ⟨?_, by simp [Sp.idle, h2], by simp [Sp.idle]⟩
                simp only [h1]
                constructor <;> grind [SPc.waiting, Sp.asks, SAct.noRead, Sp.linkAfter]
            · by_cases hl : s.sr.locked = true
              · simp [Sr.step, hl] at hr
              · simp [Sr.step, hl, hq] at hr
                subst hr
                refine ⟨?_, by simp [Sp.idle], by simp [Sp.idle]⟩
                simp only [Sp.asks, hq, SAct.noRead]
                constructor <;> simp_all
          · simp [Sr.step] at hr
            subst hr
            refine ⟨?_, by simp [Sp.idle], by simp [Sp.idle]⟩
            simp only [Sp.asks, SAct.noRead]
            constructor <;> simp_all
        | park =>
          simp only [Sr.step, Sr.callerCheck, Sr.finish, Sr.notifyStrand, Sr.strandCheck, Sr.leave] at hr
          simp only [SAct.noRead, Sp.asks, Sp.linkAfter, Sp.idle]
          refine ⟨?_, ?_, ?_⟩
          · constructor <;> grind [SPc.waiting, Sr.locked]
          · grind
          · grind
        | callerRun =>
          simp only [Sr.step, Sr.callerCheck, Sr.finish, Sr.notifyStrand, Sr.strandCheck, Sr.leave] at hr
          simp only [SAct.noRead, Sp.asks, Sp.linkAfter, Sp.idle]
          refine ⟨?_, ?_, ?_⟩
          · constructor <;> grind [SPc.waiting, Sr.locked]
          · grind
          · grind
        | timeout =>
          simp only [Sr.step, Sr.callerCheck, Sr.finish, Sr.notifyStrand, Sr.strandCheck, Sr.leave] at hr
          simp only [SAct.noRead, Sp.asks, Sp.linkAfter, Sp.idle]
          refine ⟨?_, ?_, ?_⟩
          · constructor <;> grind [SPc.waiting, Sr.locked]
          · grind
          · grind
        | spuriousCaller =>
          simp only [Sr.step, Sr.callerCheck, Sr.finish, Sr.notifyStrand, Sr.strandCheck, Sr.leave] at hr
          simp only [SAct.noRead, Sp.asks, Sp.linkAfter, Sp.idle]
          refine ⟨?_, ?_, ?_⟩
          · constructor <;> grind [SPc.waiting, Sr.locked]
          · grind
          · grind
        | read ms ec =>
          have hec : ec = false := by simpa [Sp.patient] using hp
          subst hec
          simp only [Sr.step, Sr.callerCheck, Sr.finish, Sr.notifyStrand, Sr.strandCheck, Sr.leave] at hr
          simp only [SAct.noRead, Sp.asks, Sp.linkAfter, Sp.idle]
          refine ⟨?_, ?_, ?_⟩
          · constructor <;> grind [SPc.waiting, Sr.locked]
          · grind
          · grind
        | readFail => simp [Sp.patient] at hp
        | handle full =>
          rcases p4 with p4 | p4 | p4 | p4 | p4 <;> simp only [Sr.step, p4] at hr <;> first | (cases hr; done) | skip
          have hq := (p3 false p4).1
          have hst : s.sr.started = true := by
            cases hst : s.sr.started
            · have := (p6 hst).2.1; rw [hq] at this; cases this
            · rfl
          by_cases hl : s.sr.locked = true
          · simp [hl] at hr
          · rw [if_neg hl, if_pos hq] at hr
            simp only [Sr.notifyCaller] at hr
            have h0 : s.posted = 0 := by
              rcases Nat.eq_zero_or_pos s.posted with h0 | h0
              · exact h0
              · exact absurd p4 ((p1 h0).2.2.1 false)
            have h2 : s.sr.caller ≠ .none := fun hx => by have := i1.mp hx; rw [hq] at this; cases this
            have h3 := p10 h2
            by_cases hb : s.sr.caller = .blocked
            · rw [if_pos hb] at hr
              simp [Sr.strandCheck, hst] at hr
              subst hr
              refine ⟨?_, by simp [Sp.idle], by simp [Sp.idle]⟩
              constructor <;> simp [SAct.noRead, Sp.asks, h0, SPc.waiting, p9, hst, h3]
            · rw [if_neg hb] at hr
              simp [Sr.strandCheck, hst] at hr
              subst hr
              refine ⟨?_, by simp [Sp.idle], by simp [Sp.idle]⟩
              constructor <;> simp [SAct.noRead, Sp.asks, h0, SPc.waiting, p9, hst, h3]
        | strandPark =>
          simp only [Sr.step, Sr.callerCheck, Sr.finish, Sr.notifyStrand, Sr.strandCheck, Sr.leave] at hr
          simp only [SAct.noRead, Sp.asks, Sp.linkAfter, Sp.idle]
          refine ⟨?_, ?_, ?_⟩
          · constructor <;> grind [SPc.waiting, Sr.locked]
          · grind
          · grind
        | strandRun full =>
          simp only [Sr.step, Sr.callerCheck, Sr.finish, Sr.notifyStrand, Sr.strandCheck, Sr.leave] at hr
          simp only [SAct.noRead, Sp.asks, Sp.linkAfter, Sp.idle]
          refine ⟨?_, ?_, ?_⟩
          · constructor <;> grind [SPc.waiting, Sr.locked]
          · grind
          · grind
        | spuriousStrand =>
          simp only [Sr.step, Sr.callerCheck, Sr.finish, Sr.notifyStrand, Sr.strandCheck, Sr.leave] at hr
          simp only [SAct.noRead, Sp.asks, Sp.linkAfter, Sp.idle]
          refine ⟨?_, ?_, ?_⟩
          · constructor <;> grind [SPc.waiting, Sr.locked]
          · grind
          · grind
        | moveAsync full =>
          exfalso
          rcases p4 with p4 | p4 | p4 | p4 | p4 <;> simp [Sr.step, p4] at hr
        | closeSet => simp [Sp.patient] at hp
        | closeNotify => simp [Sr.step, p9] at hr
        | start =>
          simp only [Sr.step, Sr.callerCheck, Sr.finish, Sr.notifyStrand, Sr.strandCheck, Sr.leave] at hr
          simp only [SAct.noRead, Sp.asks, Sp.linkAfter, Sp.idle]
          refine ⟨?_, ?_, ?_⟩
          · constructor <;> grind [SPc.waiting, Sr.locked]
          · grind
          · grind
    · cases hs
  | ask =>
    simp only [Sp.step] at hs
    split at hs
    · rename_i hcc
      have hpo := p1 hcc.1
      split at hs <;> cases hs
      · refine ⟨⟨?_, ?_, p3, p4, p5, ?_, p7, p8, p9, p10⟩, by simp, by simp⟩
        · intro h; simp [hpo.2.2.2] at h
        · intro _; exact hpo.1
        · intro hx; have := p6 hx; rw [hpo.1] at this; simp at this
      · refine ⟨⟨?_, p2, p3, p4, p5, p6, p7, p8, p9, p10⟩, by simp, by simp⟩
        intro h; simp [hpo.2.2.2] at h
    · cases hs
  | connect =>
    simp only [Sp.step] at hs
    split at hs <;> cases hs
    exact ⟨⟨p1, p2, p3, p4, p5, p6, p7, p8, p9, p10⟩, by simp, by simp⟩
  | down => simp [Sp.patient] at hp

end StAsio
