import Verif.Spec.LinkCut
import Verif.Lemmas.Cut
set_option autoImplicit false
namespace StAsio

/-! ### the receiver -/

def refStep (o : Option Bytes) : PEv → Option Bytes
  | .handled m ok => if ok then none else some m
  | _ => o

theorem lastRefused_eq (es : List PEv) : lastRefused es = es.foldl refStep none := by
  unfold lastRefused
  congr 1

theorem lastRefused_append (es fs : List PEv) : lastRefused (es ++ fs) = fs.foldl refStep (lastRefused es) := by
  rw [lastRefused_eq, lastRefused_eq, List.foldl_append]

/-- A message that waits for its next dispatch is the one that was refused last. -/
def Rx.Ref (s : Rx) (o : Option Bytes) : Prop := (s.pc = .idle ∨ s.pc = .refused → o = s.cur) ∧ (s.pc = .clearing ∨ s.pc = .posting → o = none)

theorem Rx.step_ref {limit : Nat} {s s' : Rx} {a : RAct} {es : List REv} {o : Option Bytes} (hi : s.Inv) (h : s.Ref o) (ha : a ≠ .reset) (hs : s.step limit a = some (s', es)) :
    s'.Ref ((es.filterMap rxEv).foldl refStep o) := by
  have hh := hi.handling
  have hcl := hi.clearing
  have hpo := hi.posting
  have hrf := hi.refused
  unfold Rx.Ref at *
  cases a <;> simp only [Rx.step] at hs <;> (repeat' split at hs) <;>
    first
    | (cases hs; done)
    | (simp only [Option.some.injEq, Prod.mk.injEq] at hs; obtain ⟨rfl, rfl⟩ := hs; simp_all [rxEv, refStep, List.filterMap_cons])

theorem Rx.stopTimers_run (limit : Nat) (s : Rx) : ∃ as, Rx.Run limit s as s.stopTimers [] := by
  have h1 : ∃ as, Rx.Run limit s as { s with dtimer := false, dlost := s.dlost || s.dtimer } [] := by
    cases hd : s.dtimer
    · refine ⟨[], ?_⟩
      obtain ⟨b, d, c, p, q, t, l, r, x⟩ := s
      simp only at hd
      subst hd
      rw [Bool.or_false]
      exact Rx.Run.nil _
    · refine ⟨[.loseDispatch], Rx.run_one (by simp [Rx.step, hd])⟩
  obtain ⟨as, h1⟩ := h1
  by_cases ht : s.rd = .timer
  · refine ⟨as ++ [.loseCheck], ?_⟩
    exact Rx.run_trans h1 (Rx.run_one (a := .loseCheck) (by simp [Rx.step, ht, Rx.stopTimers]))
  · refine ⟨as, ?_⟩
    have : s.stopTimers = { s with dtimer := false, dlost := s.dlost || s.dtimer } := by simp [Rx.stopTimers, ht]
    rw [this]; exact h1

theorem Rx.endRead_nil {limit : Nat} {s : Rx} (h : s.rd = .reading) :
    s.endRead limit [] = some ({ s with rd := if s.available limit then .off else .timer }, []) := by
  have ha : Rx.available limit { s with rd := RPc.check } = s.available limit := rfl
  simp only [Rx.endRead, Rx.exec, List.isEmpty_nil, if_true, List.nil_append, Rx.step, h, ne_eq, not_true_eq_false, if_false, Option.bind_eq_bind, Option.bind_some,
    Option.pure_def, List.append_nil, ha]
  cases s.available limit <;> simp

theorem Rx.endRead_run {limit : Nat} {s t : Rx} {ms : List Bytes} {es : List REv} (h : s.endRead limit ms = some (t, es)) : ∃ as, Rx.Run limit s as t es := by
  simp only [Rx.endRead, Option.bind_eq_bind] at h
  rw [Option.bind_eq_some_iff] at h
  obtain ⟨⟨s1, e1⟩, h1, h2⟩ := h
  have h1 := Rx.exec_run h1
  simp only at h2
  split at h2
  · rw [Option.bind_eq_some_iff] at h2
    obtain ⟨⟨s2, e2⟩, h2, h3⟩ := h2
    cases h3
    exact ⟨_, Rx.Run.snoc _ _ _ _ _ _ _ h1 h2⟩
  · cases h2
    exact ⟨_, h1⟩

section
variable {K : Codec} {cwf : Bool} {w : Item → Bytes} {Ok : Item → Prop} {Shown : List Item → Nat → List Bytes → Prop} {Inv : Bytes → Conn K.σ → Prop}
  {May : SendCall → Prop} {batch limit : Nat}

theorem GPipe.Core.of_rx {s : GPipe K} {es : List PEv} (h : s.Core w Ok Inv batch limit es) {t : Rx} {ras : List RAct} (hr : Rx.Run limit s.rx ras t []) :
    GPipe.Core w Ok Inv batch limit { s with rx := t } es := by
  obtain ⟨ras0, res, r1, r2, r3, r4⟩ := h.rx
  have := Rx.run_trans r1 hr
  rw [List.append_nil] at this
  exact ⟨h.tx, h.ready, h.ok, ⟨_, _, this, r2, r3, r4⟩, h.inv, h.off, h.bad⟩

theorem GPipe.Core.stop {s : GPipe K} {es : List PEv} (h : s.Core w Ok Inv batch limit es) : GPipe.Core w Ok Inv batch limit { s with rx := s.rx.stopTimers } es := by
  obtain ⟨ras, hr⟩ := Rx.stopTimers_run limit s.rx
  exact h.of_rx hr

/-- At the end of a link nothing more is handed over. -/
theorem GPipe.Core.readEnd (hC : K.Cuts Inv) {s s' : GPipe K} {es fs : List PEv} {again : Bool} (h : s.Core w Ok Inv batch limit es)
    (hs : s.readEnd limit again = some (s', fs)) :
    fs = [] ∧ s.rx.rd = .reading ∧ (∃ rd, s' = { s with rx := { s.rx with rd } } ∧ (rd = .off ∨ rd = .timer)) ∧ s'.Core w Ok Inv batch limit es := by
  simp only [GPipe.readEnd] at hs
  split at hs
  · next cap got want hrd hph =>
    split at hs
    · rw [Option.map_eq_some_iff] at hs
      obtain ⟨⟨t, tes⟩, h1, h2⟩ := hs
      cases h2
      have h1' := Rx.run_one h1
      simp only [Rx.step, hrd, true_or, if_true, Option.some.injEq, Prod.mk.injEq] at h1
      obtain ⟨rfl, rfl⟩ := h1
      exact ⟨rfl, hrd, ⟨_, rfl, Or.inl rfl⟩, h.of_rx h1'⟩
    · next hg =>
      have hg : got ≠ 0 := fun h0 => hg (Or.inl h0)
      obtain ⟨u, ok, hp⟩ := hC _ _ _ _ _ h.inv hph (by omega)
      rw [hp] at hs
      simp only at hs
      rw [Option.map_eq_some_iff] at hs
      obtain ⟨⟨t, tes⟩, h1, h2⟩ := hs
      obtain ⟨ras, hrun⟩ := Rx.endRead_run h1
      rw [Rx.endRead_nil hrd] at h1
      simp only [Option.some.injEq, Prod.mk.injEq] at h1
      obtain ⟨rfl, rfl⟩ := h1
      simp only [List.map_nil, List.append_nil, Prod.mk.injEq] at h2
      obtain ⟨rfl, rfl⟩ := h2
      refine ⟨rfl, hrd, ⟨_, rfl, ?_⟩, h.of_rx hrun⟩
      split
      · exact Or.inl rfl
      · exact Or.inr rfl
  · cases hs

theorem GPipe.step_ref {s s' : GPipe K} {a : PAct} {fs : List PEv} {o : Option Bytes} (hi : s.rx.Inv) (h : s.rx.Ref o)
    (hs : s.step cwf batch limit a = some (s', fs)) : s'.rx.Ref (fs.foldl refStep o) := by
  cases a with
  | send call fits =>
    simp only [GPipe.step] at hs
    split at hs
    · cases hs; exact h
    · cases hs; exact h
    · simp only [Option.some.injEq, Prod.mk.injEq] at hs
      obtain ⟨rfl, rfl⟩ := hs
      (repeat' split) <;> exact h
  | tx a =>
    simp only [GPipe.step] at hs
    split at hs
    · rw [Option.map_eq_some_iff] at hs
      obtain ⟨r, _, h2⟩ := hs
      cases h2; exact h
    · cases hs
  | rx a =>
    simp only [GPipe.step] at hs
    split at hs
    · next hh =>
      rw [Option.map_eq_some_iff] at hs
      obtain ⟨⟨t, tes⟩, h1, h2⟩ := hs
      cases h2
      exact Rx.step_ref hi h (by rintro rfl; simp [RAct.healthy] at hh) h1
    · cases hs
  | net k =>
    simp only [GPipe.step] at hs
    split at hs
    · split at hs
      · split at hs
        · cases hs; exact h
        · split at hs
          · rw [Option.map_eq_some_iff] at hs
            obtain ⟨⟨t, tes⟩, h1, h2⟩ := hs
            cases h2
            exact Rx.step_ref hi h (by simp) h1
          · cases hs; exact h
      · cases hs
    · cases hs

/-- When nothing of the receiving side is outstanding, nothing more happens there. -/
theorem GPipe.step_still {s s' : GPipe K} {a : PAct} {fs : List PEv} (h : s.rx.busy = false) (hs : s.step cwf batch limit a = some (s', fs)) :
    s'.rx = s.rx ∧ s'.off = s.off ∧ ∀ m ok, PEv.handled m ok ∉ fs := by
  simp only [Rx.busy, Bool.or_eq_false_iff, bne_eq_false_iff_eq] at h
  obtain ⟨⟨⟨h1, h2⟩, h3⟩, h4⟩ := h
  cases a with
  | send call fits =>
    simp only [GPipe.step] at hs
    split at hs
    · cases hs; simp
    · cases hs; simp
    · simp only [Option.some.injEq, Prod.mk.injEq] at hs
      obtain ⟨rfl, rfl⟩ := hs
      refine ⟨rfl, rfl, ?_⟩
      intro m ok
      split <;> simp
  | tx a =>
    simp only [GPipe.step] at hs
    split at hs
    · rw [Option.map_eq_some_iff] at hs
      obtain ⟨r, _, h2⟩ := hs
      cases h2; simp
    · cases hs
  | rx a =>
    simp only [GPipe.step] at hs
    split at hs
    · next hh =>
      rw [Option.map_eq_some_iff] at hs
      obtain ⟨⟨t, tes⟩, g1, g2⟩ := hs
      exfalso
      cases a <;> simp [RAct.healthy] at hh <;> simp [Rx.step, h1, h2, h3, h4] at g1
    · cases hs
  | net k =>
    simp only [GPipe.step, h4] at hs
    cases hs

/-! ### the whole -/

theorem cutSeen_append (a b : List CutEv) : cutSeen (a ++ b) = cutSeen a ++ cutSeen b := List.filterMap_append

theorem cutSeen_pipe (a : List PEv) : cutSeen (a.map .pipe) = a := by
  induction a with
  | nil => rfl
  | cons e a ih => simp only [cutSeen, List.map_cons, List.filterMap_cons] at ih ⊢; rw [ih]

theorem Rx.Ref.rd {s : Rx} {o : Option Bytes} (h : s.Ref o) (rd : RPc) : ({ s with rd } : Rx).Ref o := h

theorem Rx.Ref.stop {s : Rx} {o : Option Bytes} (h : s.Ref o) : s.stopTimers.Ref o := h

structure Cut.Good (tracked : Bool) (w : Item → Bytes) (Ok : Item → Prop) (Inv : Bytes → Conn K.σ → Prop) (batch limit : Nat) (s : Cut K) (es : List CutEv) : Prop where
  core : s.p.Core w Ok Inv batch limit (cutSeen es)
  ref : s.p.rx.Ref (lastRefused (cutSeen es))
  up : s.up = true → s.p.rx.rd ≠ .off ∧ s.p.rx.dlost = false ∧ s.dc = .no ∧ s.ended = false
  dc : s.up = false → s.dc ≠ .no
  closed : CutEv.closed ∈ es ↔ s.dc = .done
  down : CutEv.down ∈ es ↔ s.up = false
  still : tracked = true → s.dc = .done → s.p.rx.busy = false
  after : ∀ es1 es2, es = es1 ++ .closed :: es2 → .closed ∉ es2 ∧ .down ∈ es1 ∧ (tracked = true → ∀ m ok, .pipe (.handled m ok) ∉ es2)

theorem Cut.init_good (hK : K.Reads cwf w Ok Shown Inv) (tracked : Bool) (batch limit : Nat) :
    ∃ s, Cut.init K = some s ∧ Cut.Good tracked w Ok Inv batch limit s [] := by
  obtain ⟨p, h1, h2⟩ := GPipe.init_good hK batch limit
  refine ⟨_, by simp only [Cut.init, h1]; rfl, ?_⟩
  have hd : p.rx.cur = none ∧ p.rx.pc = .idle := by
    simp only [GPipe.init, Option.bind_eq_bind] at h1
    rw [Option.bind_eq_some_iff] at h1
    obtain ⟨conn, _, h1⟩ := h1
    cases h1; exact ⟨rfl, rfl⟩
  exact ⟨h2.toCore, by simp [Rx.Ref, hd, lastRefused, cutSeen], fun _ => ⟨h2.rd, h2.dlost, rfl, rfl⟩, by simp, by simp, by simp, by simp, by simp⟩

/-- An event list that grows by events among which on_close is not, while on_close was not called, or that are none of the receiver's. -/
theorem after_append {tracked : Bool} {es fs : List CutEv}
    (h : ∀ es1 es2, es = es1 ++ .closed :: es2 → .closed ∉ es2 ∧ .down ∈ es1 ∧ (tracked = true → ∀ m ok, .pipe (.handled m ok) ∉ es2))
    (hc : CutEv.closed ∉ fs) (hf : tracked = true → CutEv.closed ∈ es → ∀ m ok, .pipe (.handled m ok) ∉ fs) :
    ∀ es1 es2, es ++ fs = es1 ++ .closed :: es2 → .closed ∉ es2 ∧ .down ∈ es1 ∧ (tracked = true → ∀ m ok, .pipe (.handled m ok) ∉ es2) := by
  intro es1 es2 heq
  rw [List.append_eq_append_iff] at heq
  rcases heq with ⟨c, h1, h2⟩ | ⟨c, h1, h2⟩
  · exact absurd (show CutEv.closed ∈ fs by rw [h2]; simp) hc
  · cases c with
    | nil => exact absurd (show CutEv.closed ∈ fs by rw [List.nil_append] at h2; rw [← h2]; simp) hc
    | cons x c =>
      simp only [List.cons_append, List.cons.injEq] at h2
      obtain ⟨rfl, rfl⟩ := h2
      obtain ⟨g1, g2, g3⟩ := h _ _ h1
      have hmem : CutEv.closed ∈ es := by rw [h1]; simp
      refine ⟨by simp [g1, hc], g2, ?_⟩
      intro ht m ok
      simp [g3 ht m ok, hf ht hmem m ok]

theorem Cut.Good.close {tracked : Bool} {s : Cut K} {es : List CutEv} (hcore : s.p.Core w Ok Inv batch limit (cutSeen es))
    (href : s.p.rx.Ref (lastRefused (cutSeen es))) (hup : s.up = true → s.dc = .no)
    (hdc : s.up = false → s.dc ≠ .no) (hcl : CutEv.closed ∈ es ↔ s.dc = .done) (hdn : CutEv.down ∈ es ↔ s.up = false)
    (hst : tracked = true → s.dc = .done → s.p.rx.busy = false)
    (haf : ∀ es1 es2, es = es1 ++ .closed :: es2 → .closed ∉ es2 ∧ .down ∈ es1 ∧ (tracked = true → ∀ m ok, .pipe (.handled m ok) ∉ es2)) :
    Cut.Good tracked w Ok Inv batch limit s.close.1 (es ++ s.close.2) := by
  unfold Cut.close
  cases hu : s.up
  · simp only [Bool.false_eq_true, if_false, List.append_nil]
    exact ⟨hcore, href, by simp [hu], hdc, hcl, hdn, hst, haf⟩
  · have hno := hup hu
    simp only [if_true]
    refine ⟨?_, ?_, by simp, by simp, ?_, by simp, by simp, ?_⟩
    · rw [cutSeen_append]; simpa [cutSeen] using hcore.stop
    · rw [cutSeen_append]; simpa [cutSeen] using href.stop
    · simp [hcl, hno]
    · refine after_append haf (by simp) ?_
      simp

theorem Cut.step_good {tracked : Bool} (hK : K.Reads cwf w Ok Shown Inv) (hC : K.Cuts Inv) (hP : K.Packs w Ok May) {s s' : Cut K} {a : CutAct} {es fs : List CutEv}
    (h : s.Good tracked w Ok Inv batch limit es) (ha : ∀ call fits, a = .pipe (.send call fits) → May call) (hs : s.step tracked cwf batch limit a = some (s', fs)) :
    s'.Good tracked w Ok Inv batch limit (es ++ fs) := by
  cases a with
  | pipe a =>
    simp only [Cut.step] at hs
    split at hs
    · cases hs
    · rw [Option.map_eq_some_iff] at hs
      obtain ⟨⟨p, pes⟩, h1, h2⟩ := hs
      cases h2
      have hcore := GPipe.step_core hK hP h.core (fun call fits e => ha call fits (by rw [e])) h1
      obtain ⟨r1, r2⟩ := GPipe.step_rd h.core.rx_inv h1
      have hmem : ∀ fs : List PEv, CutEv.closed ∉ fs.map CutEv.pipe ∧ CutEv.down ∉ fs.map CutEv.pipe := by intro fs; simp
      refine ⟨?_, ?_, ?_, h.dc, ?_, ?_, ?_, ?_⟩
      · rw [cutSeen_append, cutSeen_pipe]; exact hcore
      · rw [cutSeen_append, cutSeen_pipe, lastRefused_append]
        exact GPipe.step_ref h.core.rx_inv h.ref h1
      · intro hu
        obtain ⟨u1, u2, u3⟩ := h.up hu
        exact ⟨r1 u1, r2 u2, u3⟩
      · simp [h.closed]
      · simp [h.down]
      · intro ht hd
        rw [(GPipe.step_still (h.still ht hd) h1).1]
        exact h.still ht hd
      · refine after_append h.after (hmem pes).1 ?_
        intro ht hc m ok
        have := (GPipe.step_still (h.still ht (h.closed.mp hc)) h1).2.2 m ok
        simpa using this
  | fin =>
    simp only [Cut.step] at hs
    split at hs
    · cases hs
    · cases hs; rw [List.append_nil]; exact ⟨h.core, h.ref, h.up, h.dc, h.closed, h.down, h.still, h.after⟩
  | brk =>
    simp only [Cut.step] at hs
    cases hs; rw [List.append_nil]; exact ⟨h.core, h.ref, h.up, h.dc, h.closed, h.down, h.still, h.after⟩
  | readEnd =>
    simp only [Cut.step] at hs
    split at hs
    · rw [Option.map_eq_some_iff] at hs
      obtain ⟨⟨p, pes⟩, h1, h2⟩ := hs
      cases h2
      obtain ⟨rfl, e1, ⟨rd, e2, e3⟩, e4⟩ := h.core.readEnd hC h1
      simp only [List.map_nil, List.nil_append]
      refine Cut.Good.close (s := { s with p := p, ended := true }) e4 ?_ ?_ h.dc h.closed h.down ?_ h.after
      · simp only [e2]; exact h.ref
      · intro hu; exact (h.up hu).2.2.1
      · intro ht hd
        have := h.still ht hd
        simp [Rx.busy, e1] at this
    · cases hs
  | shutdown =>
    simp only [Cut.step, Option.some.injEq] at hs
    rw [show s' = s.close.1 by rw [hs], show fs = s.close.2 by rw [hs]]
    exact Cut.Good.close h.core h.ref (fun hu => (h.up hu).2.2.1) h.dc h.closed h.down h.still h.after
  | tick other =>
    simp only [Cut.step] at hs
    split at hs
    · cases hs
    · next hd =>
      have hd : s.dc = .armed := by simpa using hd
      have hup : s.up = false := by
        cases hu : s.up
        · rfl
        · have := (h.up hu).2.2.1; rw [hd] at this; cases this
      have hnc : CutEv.closed ∉ es := by rw [h.closed, hd]; simp
      split at hs
      · cases hs
        rw [List.append_nil]
        exact ⟨h.core.stop, h.ref.stop, by simp [hup], h.dc, h.closed, h.down, by simp [hd], h.after⟩
      · next hb =>
        cases hs
        refine ⟨?_, ?_, by simp [hup], by simp, by simp, ?_, ?_, ?_⟩
        · rw [cutSeen_append]; simpa [cutSeen] using h.core
        · rw [cutSeen_append]; simpa [cutSeen] using h.ref
        · simp [h.down]
        · intro ht _
          simp only [ht, Bool.true_and, Bool.or_eq_true, not_or, Bool.not_eq_true] at hb
          exact hb.2
        · intro es1 es2 heq
          have hdn := h.down.mpr hup
          rw [List.append_eq_append_iff] at heq
          rcases heq with ⟨c, h1, h2⟩ | ⟨c, h1, h2⟩
          · cases c with
            | nil =>
              simp only [List.nil_append, List.cons.injEq, true_and] at h2
              subst h2
              rw [List.append_nil] at h1
              subst h1
              exact ⟨by simp, hdn, by simp⟩
            | cons x c => simp at h2
          · cases c with
            | nil =>
              simp only [List.nil_append, List.cons.injEq, true_and] at h2
              subst h2
              rw [List.append_nil] at h1
              subst h1
              exact ⟨by simp, hdn, by simp⟩
            | cons x c =>
              simp only [List.cons_append, List.cons.injEq] at h2
              obtain ⟨rfl, rfl⟩ := h2
              exact absurd (show CutEv.closed ∈ es by rw [h1]; simp) hnc

theorem Cut.run_good {tracked : Bool} (hK : K.Reads cwf w Ok Shown Inv) (hC : K.Cuts Inv) (hP : K.Packs w Ok May) {s s' : Cut K} {as : List CutAct} {es fs : List CutEv}
    (h : s.Good tracked w Ok Inv batch limit es) (ha : ∀ a ∈ as, ∀ call fits, a = .pipe (.send call fits) → May call) (hs : Cut.Run tracked cwf batch limit s as s' fs) :
    s'.Good tracked w Ok Inv batch limit (es ++ fs) := by
  induction hs with
  | nil => simpa using h
  | snoc s1 s2 as a es1 fs1 hr1 hs1 ih =>
    rw [← List.append_assoc]
    exact Cut.step_good hK hC hP (ih (fun x hx => ha x (by simp [hx]))) (ha a (by simp)) hs1

/-- At on_close, all that is missing is a message that was refused and those behind it. -/
theorem Cut.Good.complete {tracked : Bool} (hK : K.Reads cwf w Ok Shown Inv) {s : Cut K} {es : List CutEv} (h : s.Good tracked w Ok Inv batch limit es)
    (ht : tracked = true) (hc : CutEv.closed ∈ es) :
    match lastRefused (cutSeen es) with
    | none => Shown (sentItems (cutSeen es)) s.p.off (handledItems (cutSeen es))
    | some m => ∃ rest, Shown (sentItems (cutSeen es)) s.p.off (handledItems (cutSeen es) ++ m :: rest) := by
  have hb := h.still ht (h.closed.mp hc)
  simp only [Rx.busy, Bool.or_eq_false_iff, bne_eq_false_iff_eq] at hb
  obtain ⟨⟨⟨h1, h2⟩, h3⟩, h4⟩ := hb
  have ho := (h.core.order hK).1
  have hi := h.core.rx_inv
  have hidle := hi.idle h2
  rw [h.ref.1 (Or.inl h2)]
  cases hcu : s.p.rx.cur with
  | none =>
    rw [hcu] at hidle ho
    have hbuf : s.p.rx.buf.items = [] := by
      rcases Classical.em (s.p.rx.buf.items = []) with hh | hh
      · exact hh
      · have := hi.wakeB hh
        simp [h1, h2, h4, hidle] at this
    rw [hbuf] at ho
    simpa using ho
  | some m =>
    rw [hcu] at ho
    exact ⟨s.p.rx.buf.items, by simpa using ho⟩

end

end StAsio
