import Verif.Spec.SyncRecv
set_option autoImplicit false
namespace StAsio

def SPc.waiting : SPc → Bool
  | .parking _ => true
  | .blocked _ => true
  | .woken _ => true
  | _ => false

def SPc.onTemp : SPc → Bool
  | .parsed _ => true
  | .async _ => true
  | _ => false

structure Sr.Inv (s : Sr) : Prop where
  active : s.caller = .none ↔ s.sr = .notRequested
  resp : s.sr = .responded ∨ s.sr = .respondedFailure → s.caller = .woken
  sresp : ∀ ec, s.strand = .parking ec ∨ s.strand = .blocked ec → s.sr = .responded
  eresp : s.strand = .eparking ∨ s.strand = .eblocked → s.sr = .respondedFailure
  late : s.started = false → s.closing = false → s.caller = .blocked ∨ s.caller = .parking → s.late = true
  closing : s.closing = true → s.started = false
  calm : s.overlap = false → s.sr = .responded → s.strand.waiting = true ∨ (s.rd = .off ∧ s.strand.onTemp = false)
  race : s.overlap = false → s.race = false
  left : s.temp ≠ [] → s.strand.onTemp = true ∨ s.sr = .responded

def Sr.ideal (s : Sr) : IdealSr := { pending := s.temp, waiting := s.caller != .none, answered := s.sr == .responded }

theorem Sr.init_inv : Sr.init.Inv := by
  constructor <;> simp [Sr.init]

theorem Sr.step_inv {s s' : Sr} {a : SAct} {es : List SEv} (h : s.Inv) (hs : s.step a = some (s', es)) :
    s'.Inv ∧ s.ideal.monitor es = some s'.ideal := by
  obtain ⟨i1, i2, i3, i4, i5, i6, i7, i8, i9⟩ := h
  cases a
  case handle full =>
    cases hst : s.strand <;> simp only [Sr.step, hst] at hs
    case parsed ec =>
      by_cases hl : s.locked = true
      · simp [hl] at hs
      · have hcp : s.caller ≠ .parking := by intro hc; simp [Sr.locked, hc] at hl
        by_cases hr : s.sr = .requested
        · rw [if_neg hl, if_pos hr] at hs
          simp only [Sr.notifyCaller] at hs
          by_cases hb : s.caller = .blocked
          · rw [if_pos hb] at hs
            cases hst' : s.started <;> simp only [Sr.strandCheck, Sr.leave, hst'] at hs <;> cases hs <;>
            (constructor
             · constructor <;> grind [SPc.waiting, SPc.onTemp]
             · grind [IdealSr.monitor, IdealSr.event, Sr.ideal])
          · rw [if_neg hb] at hs
            have hw : s.caller = .woken := by cases hc : s.caller <;> simp_all
            cases hst' : s.started <;> simp only [Sr.strandCheck, Sr.leave, hst'] at hs <;> cases hs <;>
            (constructor
             · constructor <;> grind [SPc.waiting, SPc.onTemp]
             · grind [IdealSr.monitor, IdealSr.event, Sr.ideal])
        · rw [if_neg hl, if_neg hr] at hs
          cases hs
          constructor
          · constructor <;> grind [SPc.waiting, SPc.onTemp]
          · grind [IdealSr.monitor, IdealSr.event, Sr.ideal]
    case erring =>
      by_cases hl : s.locked = true
      · simp [hl] at hs
      · have hcp : s.caller ≠ .parking := by intro hc; simp [Sr.locked, hc] at hl
        by_cases hr : s.sr = .requested
        · rw [if_neg hl, if_pos hr] at hs
          simp only [Sr.notifyCaller] at hs
          by_cases hb : s.caller = .blocked
          · rw [if_pos hb] at hs
            cases hst' : s.started <;> simp only [Sr.errCheck, hst'] at hs <;> cases hs <;>
            (constructor
             · constructor <;> grind [SPc.waiting, SPc.onTemp]
             · grind [IdealSr.monitor, IdealSr.event, Sr.ideal])
          · rw [if_neg hb] at hs
            have hw : s.caller = .woken := by cases hc : s.caller <;> simp_all
            cases hst' : s.started <;> simp only [Sr.errCheck, hst'] at hs <;> cases hs <;>
            (constructor
             · constructor <;> grind [SPc.waiting, SPc.onTemp]
             · grind [IdealSr.monitor, IdealSr.event, Sr.ideal])
        · rw [if_neg hl, if_neg hr] at hs
          cases hs
          constructor
          · constructor <;> grind [SPc.waiting, SPc.onTemp]
          · grind [IdealSr.monitor, IdealSr.event, Sr.ideal]
    all_goals cases hs
  all_goals
    simp only [Sr.step, Sr.callerCheck, Sr.finish, Sr.notifyStrand, Sr.strandCheck, Sr.errCheck, Sr.leave] at hs
    (constructor
     · constructor <;> grind [Sr.locked, SPc.waiting, SPc.onTemp]
     · grind [Sr.locked, IdealSr.monitor, IdealSr.event, Sr.ideal])

theorem sMonitor_append (t : IdealSr) (es es' : List SEv) :
    t.monitor (es ++ es') = (t.monitor es).bind (fun t => t.monitor es') := by
  induction es generalizing t with
  | nil => rfl
  | cons e es ih =>
    simp only [List.cons_append, IdealSr.monitor]
    cases t.event e with
    | none => rfl
    | some t' => exact ih t'

theorem Sr.run_inv {s s' : Sr} {as : List SAct} {es : List SEv} (h : s.Inv) (hr : Sr.Run s as s' es) :
    s'.Inv ∧ s.ideal.monitor es = some s'.ideal := by
  induction hr with
  | nil => exact ⟨h, rfl⟩
  | snoc s1 s2 as a es es' hr hs ih =>
    have := Sr.step_inv ih.1 hs
    exact ⟨this.1, by rw [sMonitor_append, ih.2]; exact this.2⟩

theorem sMonitor_messages {t t' : IdealSr} {es : List SEv} (h : t.monitor es = some t') :
    t.pending ++ sReceived es = sHandedOut es ++ t'.pending ∧ t.waiting.toNat + sCalled es = sReturned es + t'.waiting.toNat := by
  induction es generalizing t with
  | nil => simp [IdealSr.monitor] at h; subst h; simp [sReceived, sHandedOut, sCalled, sReturned]
  | cons e es ih =>
    simp only [IdealSr.monitor] at h
    cases he : t.event e with
    | none => rw [he] at h; cases h
    | some t1 =>
      rw [he] at h
      have ih := ih h
      cases e <;> simp only [IdealSr.event] at he <;> (try split at he) <;> (try cases he) <;> simp_all [sReceived, sHandedOut, sCalled, sReturned] <;> omega

theorem Sr.run_trans {s s1 s2 : Sr} {as bs : List SAct} {es fs : List SEv} (h1 : Sr.Run s as s1 es) (h2 : Sr.Run s1 bs s2 fs) :
    Sr.Run s (as ++ bs) s2 (es ++ fs) := by
  induction h2 with
  | nil => simpa using h1
  | snoc s2 s3 bs a fs fs' _ hs ih =>
    rw [← List.append_assoc, ← List.append_assoc]
    exact Sr.Run.snoc _ _ _ _ _ _ _ ih hs

theorem Sr.run_one {s s1 : Sr} {a : SAct} {es : List SEv} (h : s.step a = some (s1, es)) : Sr.Run s [a] s1 es := by
  have := Sr.Run.snoc _ _ _ _ _ _ _ (Sr.Run.nil s) h
  simpa using this

theorem Sr.exec_run {s s' : Sr} {as : List SAct} {es : List SEv} (h : Sr.exec s as = some (s', es)) : Sr.Run s as s' es := by
  induction as generalizing s es with
  | nil => simp [Sr.exec] at h; obtain ⟨rfl, rfl⟩ := h; exact Sr.Run.nil _
  | cons a as ih =>
    simp only [Sr.exec, Option.bind_eq_bind] at h
    rw [Option.bind_eq_some_iff] at h
    obtain ⟨⟨s1, e1⟩, h1, h2⟩ := h
    rw [Option.bind_eq_some_iff] at h2
    obtain ⟨⟨s2, e2⟩, h2, h3⟩ := h2
    simp at h3
    obtain ⟨rfl, rfl⟩ := h3
    exact Sr.run_trans (Sr.run_one h1) (ih h2)

/-! ### progress -/

/-- What the library and the already waiting caller do by themselves, without time-outs. -/
def SAct.Internal : SAct → Prop
  | .park | .callerRun | .handle _ | .strandPark | .strandRun _ | .moveAsync _ | .closeNotify => True
  | _ => False

def CPc.work : CPc → Nat
  | .none => 0
  | .blocked => 1
  | .parking => 2
  | .woken => 3

def SPc.work : SPc → Nat
  | .idle => 0
  | .parsed _ => 16
  | .parking _ => 11
  | .blocked _ => 10
  | .woken _ => 12
  | .async _ => 9
  | .erring => 7
  | .eparking => 2
  | .eblocked => 1
  | .ewoken => 3

def Sr.work (s : Sr) : Nat := s.caller.work + s.strand.work + 10 * s.closing.toNat

/-- Nothing can go on by itself. -/
def Sr.Quiet (s : Sr) : Prop :=
  s.closing = false ∧ (s.caller = .none ∨ s.caller = .blocked) ∧ (s.strand = .idle ∨ s.strand = .eblocked ∨ ∃ ec, s.strand = .blocked ec)

theorem Sr.step_work {s s' : Sr} {a : SAct} {es : List SEv} (h : s.Inv) (ha : a.Internal) (hs : s.step a = some (s', es)) : s'.work < s.work := by
  obtain ⟨i1, i2, i3, i4, i5, i6, i7, i8, i9⟩ := h
  cases a <;> simp only [SAct.Internal] at ha
  case handle full =>
    cases hst : s.strand <;> simp only [Sr.step, hst] at hs
    case parsed ec =>
      by_cases hl : s.locked = true
      · simp [hl] at hs
      · by_cases hr : s.sr = .requested
        · rw [if_neg hl, if_pos hr] at hs
          simp only [Sr.notifyCaller] at hs
          by_cases hb : s.caller = .blocked
          · rw [if_pos hb] at hs
            cases hst' : s.started <;> simp only [Sr.strandCheck, Sr.leave, hst'] at hs <;> cases hs <;>
              cases ec <;> simp [Sr.work, hst, hb, CPc.work, SPc.work]
          · rw [if_neg hb] at hs
            cases hst' : s.started <;> simp only [Sr.strandCheck, Sr.leave, hst'] at hs <;> cases hs <;>
              cases ec <;> simp [Sr.work, hst, SPc.work]
        · rw [if_neg hl, if_neg hr] at hs
          cases hs
          simp [Sr.work, hst, SPc.work]
    case erring =>
      by_cases hl : s.locked = true
      · simp [hl] at hs
      · by_cases hr : s.sr = .requested
        · rw [if_neg hl, if_pos hr] at hs
          simp only [Sr.notifyCaller] at hs
          by_cases hb : s.caller = .blocked
          · rw [if_pos hb] at hs
            cases hst' : s.started <;> simp only [Sr.errCheck, hst'] at hs <;> cases hs <;>
              simp [Sr.work, hst, hb, CPc.work, SPc.work]
          · rw [if_neg hb] at hs
            cases hst' : s.started <;> simp only [Sr.errCheck, hst'] at hs <;> cases hs <;>
              simp [Sr.work, hst, SPc.work]
        · rw [if_neg hl, if_neg hr] at hs
          cases hs
          simp [Sr.work, hst, SPc.work]
    all_goals cases hs
  all_goals
    simp only [Sr.step, Sr.callerCheck, Sr.finish, Sr.notifyStrand, Sr.strandCheck, Sr.errCheck, Sr.leave] at hs
    grind [Sr.locked, Sr.work, CPc.work, SPc.work]

theorem Sr.progress {s : Sr} (h : s.Inv) (hq : ¬ s.Quiet) : ∃ a s' es, SAct.Internal a ∧ s.step a = some (s', es) := by
  by_cases hcl : s.closing = true
  · exact ⟨.closeNotify, _, _, trivial, by simp only [Sr.step]; rw [if_pos hcl]⟩
  · by_cases hp : s.caller = .parking
    · exact ⟨.park, _, _, trivial, by simp only [Sr.step]; rw [if_pos hp]⟩
    · cases hst : s.strand with
      | parking ec => exact ⟨.strandPark, _, _, trivial, by simp only [Sr.step, hst]; rfl⟩
      | eparking => exact ⟨.strandPark, _, _, trivial, by simp only [Sr.step, hst]; rfl⟩
      | parsed ec =>
        refine ⟨.handle false, ?_⟩
        by_cases hr : s.sr = .requested <;> exact ⟨_, _, trivial, by simp only [Sr.step, hst, Sr.locked, hr]; simp [hp]; exact ⟨rfl, rfl⟩⟩
      | erring =>
        refine ⟨.handle false, ?_⟩
        by_cases hr : s.sr = .requested <;> exact ⟨_, _, trivial, by simp only [Sr.step, hst, Sr.locked, hr]; simp [hp]; first | exact ⟨rfl, rfl⟩ | rfl⟩
      | woken ec => exact ⟨.strandRun false, _, _, trivial, by simp only [Sr.step, hst, Sr.locked]; simp [hp]; exact ⟨rfl, rfl⟩⟩
      | ewoken => exact ⟨.strandRun false, _, _, trivial, by simp only [Sr.step, hst, Sr.locked]; simp [hp]; rfl⟩
      | async ec =>
        refine ⟨.moveAsync false, ?_⟩
        by_cases ht : s.temp = [] <;> exact ⟨_, _, trivial, by simp only [Sr.step, hst]; simp [ht]; exact ⟨rfl, rfl⟩⟩
      | idle =>
        have hw : s.caller = .woken := by
          cases hc : s.caller <;> simp_all [Sr.Quiet]
        exact ⟨.callerRun, s.callerCheck.1, s.callerCheck.2, trivial, by simp [Sr.step, Sr.locked, hst, hw]⟩
      | blocked ec =>
        have hw : s.caller = .woken := h.resp (Or.inl (h.sresp ec (Or.inr hst)))
        exact ⟨.callerRun, s.callerCheck.1, s.callerCheck.2, trivial, by simp [Sr.step, Sr.locked, hst, hw]⟩
      | eblocked =>
        have hw : s.caller = .woken := h.resp (Or.inr (h.eresp (Or.inr hst)))
        exact ⟨.callerRun, s.callerCheck.1, s.callerCheck.2, trivial, by simp [Sr.step, Sr.locked, hst, hw]⟩

theorem Sr.run_work {s s' : Sr} {as : List SAct} {es : List SEv} (h : s.Inv) (hr : Sr.Run s as s' es) (ha : ∀ a ∈ as, SAct.Internal a) :
    s'.work + as.length ≤ s.work := by
  induction hr with
  | nil => simp
  | snoc s1 s2 as a es es' hr hs ih =>
    have ih := ih (fun x hx => ha x (by simp [hx]))
    have := Sr.step_work (Sr.run_inv h hr).1 (ha a (by simp)) hs
    simp; omega

/-- In a quiet state the strand does not wait for a caller, and a waiting caller has not been answered. -/
theorem Sr.quiet {s : Sr} (h : s.Inv) (hq : s.Quiet) : s.strand = .idle ∧ (s.caller = .none ∨ s.sr = .requested) := by
  obtain ⟨q1, q2, q3⟩ := hq
  have hnw : s.caller ≠ .woken := by rcases q2 with q2 | q2 <;> simp [q2]
  constructor
  · rcases q3 with q3 | q3 | ⟨ec, q3⟩
    · exact q3
    · exact absurd (h.resp (Or.inr (h.eresp (Or.inr q3)))) hnw
    · exact absurd (h.resp (Or.inl (h.sresp ec (Or.inr q3)))) hnw
  · rcases q2 with q2 | q2
    · exact Or.inl q2
    · right
      cases hsr : s.sr with
      | requested => rfl
      | notRequested => have := h.active.2 hsr; rw [q2] at this; cases this
      | responded => exact absurd (h.resp (Or.inl hsr)) hnw
      | respondedFailure => exact absurd (h.resp (Or.inr hsr)) hnw

theorem sMonitor_answered {t : IdealSr} {es es' : List SEv} {r : SEv} (hr : r = .timeout ∨ r = .notApplicable) (hw : t.waiting = true) (ha : t.answered = true)
    (h : t.monitor (es ++ r :: es') ≠ none) : ∃ ms, SEv.success ms ∈ es := by
  induction es generalizing t with
  | nil => rcases hr with rfl | rfl <;> simp [IdealSr.monitor, IdealSr.event, ha] at h
  | cons e es ih =>
    simp only [List.cons_append, IdealSr.monitor] at h
    cases e with
    | success ms => exact ⟨ms, by simp⟩
    | received ms =>
      obtain ⟨ms, hm⟩ := ih (t := { t with pending := t.pending ++ ms }) hw ha h
      exact ⟨ms, by simp [hm]⟩
    | async ms =>
      simp only [IdealSr.event] at h
      split at h
      · exact absurd rfl h
      · rename_i t1 he
        split at he
        · cases he
          obtain ⟨ms, hm⟩ := ih (t := { t with pending := [] }) hw ha h
          exact ⟨ms, by simp [hm]⟩
        · cases he
    | recvError =>
      obtain ⟨ms, hm⟩ := ih hw ha h
      exact ⟨ms, by simp [hm]⟩
    | duplicate =>
      simp only [IdealSr.event, hw] at h
      obtain ⟨ms, hm⟩ := ih hw ha h
      exact ⟨ms, by simp [hm]⟩
    | called => simp [IdealSr.event, hw] at h
    | offered => simp [IdealSr.event, ha] at h
    | timeout => simp [IdealSr.event, ha] at h
    | notApplicable => simp [IdealSr.event, ha] at h

/-- Behind an error on the connection nobody is left waiting. -/
theorem Sr.err_step {s s' : Sr} {a : SAct} {es : List SEv} (ha : a.Internal) (hs : s.step a = some (s', es))
    (hp : s.strand = .erring ∨ s.sr ≠ .requested) : s'.strand = .erring ∨ s'.sr ≠ .requested := by
  cases a <;> simp only [SAct.Internal] at ha
  case handle full =>
    cases hst : s.strand <;> simp only [Sr.step, hst] at hs
    case parsed ec =>
      have hp : s.sr ≠ .requested := by simpa [hst] using hp
      split at hs
      · cases hs
      · (try rw [if_neg hp] at hs); cases hs; exact Or.inr hp
    case erring =>
      split at hs
      · cases hs
      · by_cases hr : s.sr = .requested
        · rw [if_pos hr] at hs
          simp only [Sr.notifyCaller] at hs
          by_cases hb : s.caller = .blocked
          · rw [if_pos hb] at hs
            cases hst' : s.started <;> simp only [Sr.errCheck, hst'] at hs <;> cases hs <;> simp
          · rw [if_neg hb] at hs
            cases hst' : s.started <;> simp only [Sr.errCheck, hst'] at hs <;> cases hs <;> simp
        · rw [if_neg hr] at hs; cases hs; exact Or.inr hr
    all_goals cases hs
  all_goals
    simp only [Sr.step, Sr.callerCheck, Sr.finish, Sr.notifyStrand, Sr.strandCheck, Sr.errCheck, Sr.leave] at hs
    grind [Sr.locked]

theorem Sr.err_run {s s' : Sr} {as : List SAct} {es : List SEv} (hr : Sr.Run s as s' es) (ha : ∀ a ∈ as, SAct.Internal a)
    (hp : s.strand = .erring ∨ s.sr ≠ .requested) : s'.strand = .erring ∨ s'.sr ≠ .requested := by
  induction hr with
  | nil => exact hp
  | snoc s1 s2 as a es es' hr hs ih => exact Sr.err_step (ha a (by simp)) hs (ih (fun x hx => ha x (by simp [hx])))

end StAsio
