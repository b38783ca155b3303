import Verif.Model.ShortClient
import Verif.Props.C40_Reconnect
import Verif.Props.C104_Delay
/-!
# C105: a short client connects once
-/
set_option autoImplicit false
namespace StAsio

theorem ShEv.clis_append (es fs : List ShEv) : ShEv.clis (es ++ fs) = ShEv.clis es ++ ShEv.clis fs := by
  induction es with
  | nil => rfl
  | cons e es ih => cases e <;> simp [ShEv.clis, ih]

theorem ShEv.clis_map (es : List CliEv) : ShEv.clis (es.map .cli) = es := by
  induction es with
  | nil => rfl
  | cons e es ih => simp [ShEv.clis, ih]

theorem connects_append (es fs : List ShEv) : connects (es ++ fs) = connects es + connects fs := by
  simp only [connects, ShEv.clis_append, List.countP_append]

theorem connects_map (es : List CliEv) : connects (es.map .cli) = es.countP (· == .connected) := by
  simp only [connects, ShEv.clis_map]

/-- Whether connections before the callback is in place: seen from the end of the history. -/
private theorem inTime_snoc (es fs : List ShEv) : inTime (es ++ fs) → (inTime es ∧ (ShEv.registered ∈ es ∨ inTime fs)) := by
  induction es with
  | nil => intro h; exact ⟨trivial, Or.inr h⟩
  | cons e es ih =>
    intro h
    match e with
    | .registered => exact ⟨trivial, Or.inl List.mem_cons_self⟩
    | .race =>
      have := ih h
      exact ⟨this.1, this.2.imp (List.mem_cons_of_mem _) id⟩
    | .cli c =>
      cases c with
      | connected => exact h.elim
      | _ =>
        have := ih h
        exact ⟨this.1, this.2.imp (List.mem_cons_of_mem _) id⟩

/-- Only connectDone connects. -/
private theorem step_connects {s s' : Cli} {a : CliAct} {fs : List CliEv} (hs : s.step a = some (s', fs)) :
    (a = .connectDone true ∧ fs = [.connected] ∧ s.op = .connecting ∧ s'.op = .link ∧ s'.need = s.need) ∨ (a ≠ .connectDone true ∧ fs.countP (· == .connected) = 0) := by
  obtain ⟨status, started, closing, need, op, force, grace, stopped⟩ := s
  cases a with
  | connectDone ok =>
    cases ok
    · right
      refine ⟨by simp, ?_⟩
      simp only [Cli.step] at hs
      (repeat' split at hs) <;> cases hs
      · contradiction
      · rfl
    · left
      simp only [Cli.step] at hs
      (repeat' split at hs) <;> cases hs
      · next h _ => exact ⟨rfl, rfl, h.1, rfl, rfl⟩
      · contradiction
  | _ =>
    right
    refine ⟨by simp, ?_⟩
    simp only [Cli.step, Cli.start, Cli.forceShutdown, Cli.gracefulShutdown, Cli.shutdown, Cli.close] at hs
    (repeat' split at hs) <;> cases hs <;> simp_all

private def CliOp.out : CliOp → Bool
  | .connecting => true
  | .tconn _ _ => true
  | .tdelay => true
  | _ => false

private theorem out_step {s s' : Cli} {a : CliAct} {fs : List CliEv} (hn : s.need = false) (ho : s.op.out = false) (ha : a.noAsk = true) (hs : s.step a = some (s', fs)) : s'.need = false ∧ s'.op.out = false ∧ attempts fs = 0 := by
  obtain ⟨status, started, closing, need, op, force, grace, stopped⟩ := s
  simp only at hn ho
  subst hn
  cases a <;> simp only [CliAct.noAsk, Bool.not_eq_true', Bool.false_eq_true] at ha <;> (try subst ha) <;>
    simp only [Cli.step, Cli.start, Cli.forceShutdown, Cli.gracefulShutdown, Cli.shutdown, Cli.close, Bool.false_eq_true, false_and, if_false] at hs <;> (repeat' split at hs) <;> cases hs <;>
    (try (simp_all [attempts, CliOp.out]; done)) <;> (cases op <;> simp_all [attempts, CliOp.out, CliOp.noTimer])

private theorem dropWhile_nil {p : CliEv → Bool} {l : List CliEv} : l.dropWhile p = [] ↔ ∀ x ∈ l, p x = true := by
  induction l with
  | nil => simp
  | cons x l ih =>
    rw [List.dropWhile_cons]
    split
    · next h => rw [ih]; simp [h]
    · next h => simp [h]

private theorem fromConnect_first {es fs : List ShEv} (h : connects es = 0) : fromConnect (es ++ fs) = fromConnect fs := by
  have hz : (ShEv.clis es).dropWhile (· != .connected) = [] := by
    rw [dropWhile_nil]
    simp only [connects, List.countP_eq_zero] at h
    intro x hx
    have := h x hx
    simpa using this
  simp only [fromConnect, ShEv.clis_append, List.dropWhile_append, hz]
  rfl

private theorem fromConnect_later {es : List ShEv} {fs : List CliEv} (h : connects es = 1) : fromConnect (es ++ fs.map .cli) = fromConnect es ++ fs := by
  have hz : (ShEv.clis es).dropWhile (· != .connected) ≠ [] := by
    intro hc
    rw [dropWhile_nil] at hc
    have : connects es = 0 := by
      simp only [connects, List.countP_eq_zero]
      intro x hx
      have := hc x hx
      simpa using this
    omega
  simp only [fromConnect, ShEv.clis_append, List.dropWhile_append, ShEv.clis_map]
  rw [if_neg (by simpa using hz)]

private def ShInv (s : Sh) (es : List ShEv) : Prop :=
  (s.pc = .registered ↔ ShEv.registered ∈ es) ∧
  (inTime es → (connects es = 0 ∨ (connects es = 1 ∧ s.pc = .registered ∧ s.cli.need = false ∧ s.cli.op.out = false ∧ attempts (fromConnect es) = 0)))

private theorem base_step {s s2 : Sh} {a : CliAct} {fs : List ShEv} (hcd : a ≠ .connectDone true) (hs : s.step (.base a) = some (s2, fs)) :
    a.noAsk = true ∧ ∃ c fs', s.cli.step a = some (c, fs') ∧ s2 = ⟨c, s.pc⟩ ∧ fs = fs'.map .cli := by
  have : s.step (.base a) = if a.noAsk = true then (s.cli.step a).map (fun r => (⟨r.1, s.pc⟩, r.2.map .cli)) else none := by
    cases a with
    | connectDone ok =>
      cases ok
      · rfl
      · exact absurd rfl hcd
    | _ => rfl
  rw [this] at hs
  split at hs
  · next hna =>
    rw [Option.map_eq_some_iff] at hs
    obtain ⟨⟨c, fs'⟩, h1, h2⟩ := hs
    cases h2
    exact ⟨hna, c, fs', h1, rfl, rfl⟩
  · cases hs

private theorem started_step {s s' : Cli} {a : CliAct} {fs : List CliEv} (hn : s.need = false) (ha : a.noAsk = true) (hs : s.step a = some (s', fs)) : CliEv.started ∉ fs := by
  obtain ⟨status, started, closing, need, op, force, grace, stopped⟩ := s
  simp only at hn
  subst hn
  cases a <;> simp only [CliAct.noAsk, Bool.not_eq_true', Bool.false_eq_true] at ha <;> (try subst ha) <;>
    simp only [Cli.step, Cli.start, Cli.forceShutdown, Cli.gracefulShutdown, Cli.shutdown, Cli.close, Bool.false_eq_true, false_and, if_false] at hs <;> (repeat' split at hs) <;> cases hs <;> simp

private theorem mem_map_registered (es : List CliEv) : ShEv.registered ∉ es.map ShEv.cli := by simp

private theorem shinv {as : List ShAct} {s : Sh} {es : List ShEv} (h : Steps Sh.step Sh.init as s es) : ShInv s es := by
  induction h with
  | nil => exact ⟨by simp [Sh.init], fun _ => Or.inl rfl⟩
  | snoc s1 s2 as a es fs h hs ih =>
    obtain ⟨i2, i3⟩ := ih
    obtain ⟨cli, pc⟩ := s1
    simp only at i2 i3
    cases a with
    | add bind =>
      simp only [Sh.step] at hs
      split at hs <;> cases hs
      next hp =>
      subst hp
      have hz : connects ((cli.start bind).2.map ShEv.cli) = 0 := by
        rw [connects_map]
        have := step_connects (s := cli) (a := .userStart bind) rfl
        rcases this with ⟨h, _⟩ | ⟨_, h⟩
        · cases h
        · exact h
      refine ⟨?_, ?_⟩
      · constructor
        · intro hc; cases hc
        · intro hm
          rw [List.mem_append] at hm
          rcases hm with hm | hm
          · exact absurd (i2.mpr hm) (by simp)
          · exact absurd hm (mem_map_registered _)
      · intro ht
        have := (inTime_snoc _ _ ht).1
        left
        rw [connects_append, hz]
        rcases i3 this with h | h
        · omega
        · exact absurd h.2.1 (by simp)
    | regBegin =>
      simp only [Sh.step] at hs
      split at hs <;> cases hs
      next hp =>
      subst hp
      rw [List.append_nil]
      refine ⟨?_, ?_⟩
      · constructor
        · intro hc; cases hc
        · intro hm; exact absurd (i2.mpr hm) (by simp)
      · intro ht
        rcases i3 ht with h | h
        · exact Or.inl h
        · exact absurd h.2.1 (by simp)
    | regEnd =>
      simp only [Sh.step] at hs
      split at hs <;> cases hs
      next hp =>
      subst hp
      refine ⟨?_, ?_⟩
      · simp
      · intro ht
        left
        rw [connects_append]
        rcases i3 (inTime_snoc _ _ ht).1 with h | h
        · rw [h]; rfl
        · exact absurd h.2.1 (by simp)
    | base a =>
      by_cases hcd : a = .connectDone true
      · subst hcd
        simp only [Sh.step] at hs
        split at hs
        · cases hs
        · next c es' hc =>
          cases hs
          rcases step_connects hc with ⟨_, he, ho, hl, hn⟩ | ⟨hne, _⟩
          case inr => exact absurd rfl hne
          subst he
          refine ⟨?_, ?_⟩
          · constructor
            · intro hp; exact List.mem_append_left _ (i2.mp hp)
            · intro hm
              rw [List.mem_append] at hm
              rcases hm with hm | hm
              · exact i2.mpr hm
              · split at hm <;> simp at hm
          · intro ht
            obtain ⟨h1, h2⟩ := inTime_snoc _ _ ht
            have hreg : pc = .registered := by
              rcases h2 with h2 | h2
              · exact i2.mpr h2
              · exfalso
                split at h2 <;> simp [inTime] at h2
            subst hreg
            right
            rcases i3 h1 with h | h
            · rw [connects_append, h]
              refine ⟨rfl, rfl, rfl, ?_, ?_⟩
              · simp only [hl, CliOp.out]
              · rw [fromConnect_first h]; rfl
            · exfalso
              simp only at h
              rw [ho] at h
              simp [CliOp.out] at h
      · obtain ⟨hna, c, fs', hc, rfl, rfl⟩ := base_step hcd hs
        have hz : connects (fs'.map ShEv.cli) = 0 := by
          rw [connects_map]
          rcases step_connects hc with ⟨h, _⟩ | ⟨_, h⟩
          · exact absurd h hcd
          · exact h
        refine ⟨?_, ?_⟩
        · rw [List.mem_append]
          constructor
          · intro hp; exact Or.inl (i2.mp hp)
          · intro hm
            rcases hm with hm | hm
            · exact i2.mpr hm
            · exact absurd hm (mem_map_registered _)
        · intro ht
          rw [connects_append, hz]
          rcases i3 (inTime_snoc _ _ ht).1 with h | h
          · left; omega
          · right
            have := out_step h.2.2.1 h.2.2.2.1 hna hc
            refine ⟨by omega, h.2.1, this.1, this.2.1, ?_⟩
            rw [fromConnect_later h.1, attempts_append, h.2.2.2.2, this.2.2]

/-- **C105**: if the callback is in place before the first connection is established, a short client connects at most once, whatever fails, is lost or shut down, and makes no attempt from then on. -/
theorem C105_once_partial {as : List ShAct} {s : Sh} {es : List ShEv} (h : Steps Sh.step Sh.init as s es) (ht : inTime es) : connects es ≤ 1 ∧ attempts (fromConnect es) = 0 := by
  rcases (shinv h).2 ht with h0 | h1
  · refine ⟨by omega, ?_⟩
    have : fromConnect es = [] := by
      simp only [fromConnect, connects] at h0 ⊢
      rw [dropWhile_nil]
      rw [List.countP_eq_zero] at h0
      intro x hx
      have := h0 x hx
      simpa using this
    rw [this]; rfl
  · exact ⟨by omega, h1.2.2.2.2⟩

/-- **C105**: once it has connected and been closed, the link stays closed. -/
theorem C105_stays_closed_partial {as : List ShAct} {s : Sh} {es : List ShEv} (h : Steps Sh.step Sh.init as s es) (ht : inTime es) (hc : connects es = 1) :
    s.cli.need = false ∧ ∀ a s' fs, s.step (.base a) = some (s', fs) → ShEv.cli .started ∉ fs := by
  have hi : s.cli.need = false ∧ s.cli.op.out = false := by
    rcases (shinv h).2 ht with h0 | h1
    · omega
    · exact ⟨h1.2.2.1, h1.2.2.2.1⟩
  refine ⟨hi.1, ?_⟩
  intro a s' fs hs hm
  by_cases hcd : a = .connectDone true
  · subst hcd
    simp only [Sh.step] at hs
    split at hs
    · cases hs
    · next c es' hc =>
      cases hs
      rcases step_connects hc with ⟨_, he, _⟩ | ⟨hne, _⟩
      case inr => exact absurd rfl hne
      subst he
      rw [List.mem_append] at hm
      rcases hm with hm | hm
      · split at hm <;> simp at hm
      · simp at hm
  · obtain ⟨hna, c, fs', hc, rfl, rfl⟩ := base_step hcd hs
    rw [List.mem_map] at hm
    obtain ⟨e, he, h2⟩ := hm
    cases h2
    exact started_step hi.1 hna hc he

/-- add_socket starts the link before the callback is registered: if it connects that early and the link is lost, it connects again. -/
theorem C105_fails_late : ∃ as s es, Steps Sh.step Sh.init as s es ∧ ¬ inTime es ∧ connects es = 2 := by
  have e : (stepsExec Sh.step Sh.init [.add true, .base (.fireConnect true), .base (.connectDone true), .regBegin, .regEnd, .base .lost, .base .runForce, .base (.onClose true), .base (.fireConnect true),
      .base (.connectDone true)]).map (·.2) = some [.cli .started, .cli (.attempt 50), .cli .connected, .registered, .cli .lost, .cli .closed, .cli .started, .cli (.attempt 50), .cli .connected] := by decide +kernel
  rw [Option.map_eq_some_iff] at e
  obtain ⟨⟨s, es⟩, e1, rfl⟩ := e
  exact ⟨_, s, _, stepsExec_run (Steps.nil _) e1, by simp [inTime], by decide⟩

/-- on_connect may be called while the callback is being registered: a data race. -/
theorem C105_fails_race : ∃ as s es, Steps Sh.step Sh.init as s es ∧ ShEv.race ∈ es := by
  have e : (stepsExec Sh.step Sh.init [.add true, .base (.fireConnect true), .regBegin, .base (.connectDone true)]).map (·.2) = some [.cli .started, .cli (.attempt 50), .race, .cli .connected] := by decide +kernel
  rw [Option.map_eq_some_iff] at e
  obtain ⟨⟨s, es⟩, e1, rfl⟩ := e
  exact ⟨_, s, _, stepsExec_run (Steps.nil _) e1, by decide⟩

/-- **C105**: there is no such race if the callback is in place in time. -/
theorem C105_no_race_partial {as : List ShAct} {s : Sh} {es : List ShEv} (h : Steps Sh.step Sh.init as s es) (ht : inTime es) : ShEv.race ∉ es := by
  induction h with
  | nil => simp
  | snoc s1 s2 as a es fs h hs ih =>
    obtain ⟨h1, h2⟩ := inTime_snoc _ _ ht
    rw [List.mem_append, not_or]
    refine ⟨ih h1, ?_⟩
    intro hm
    have i2 := (shinv h).1
    cases a with
    | base a =>
      by_cases hcd : a = .connectDone true
      · subst hcd
        simp only [Sh.step] at hs
        split at hs
        · cases hs
        · next c es' hc =>
          cases hs
          rcases step_connects hc with ⟨_, he, _⟩ | ⟨hne, _⟩
          case inr => exact absurd rfl hne
          subst he
          rcases h2 with h2 | h2
          · rw [i2.mpr h2] at hm; simp at hm
          · split at h2 <;> simp [inTime] at h2
      · obtain ⟨_, c, fs', _, rfl, rfl⟩ := base_step hcd hs
        simp at hm
    | _ =>
      simp only [Sh.step] at hs
      split at hs <;> cases hs <;> simp at hm

/-- Not vacuous: an attempt fails, the next one succeeds, the link is lost and closed, and that is the end of it. -/
theorem C105_demo : ∃ as s es, Steps Sh.step Sh.init as s es ∧ inTime es ∧ connects es = 1 ∧ CliEv.closed ∈ fromConnect es ∧ s.cli.started = false ∧ s.cli.closing = false := by
  have e : (stepsExec Sh.step Sh.init [.add true, .base (.fireConnect true), .regBegin, .regEnd, .base (.connectDone false), .base (.fireDelay 500), .base (.fireConnect true), .base (.connectDone true), .base .lost, .base .runForce,
      .base (.onClose true)]).map (fun r => (r.2, r.1.cli.started, r.1.cli.closing)) =
      some ([.cli .started, .cli (.attempt 50), .registered, .cli .failed, .cli (.asked 500), .cli (.attempt 500), .cli .connected, .cli .lost, .cli .closed], false, false) := by decide +kernel
  rw [Option.map_eq_some_iff] at e
  obtain ⟨⟨s, es⟩, e1, e2⟩ := e
  simp only [Prod.mk.injEq] at e2
  obtain ⟨rfl, e3, e4⟩ := e2
  exact ⟨_, s, _, stepsExec_run (Steps.nil _) e1, by simp [inTime], by decide, by decide, e3, e4⟩

end StAsio
