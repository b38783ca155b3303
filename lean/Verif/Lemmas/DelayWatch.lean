import Verif.Model.DelayWatch
set_option autoImplicit false
namespace StAsio

theorem dwRight_append (max : Nat) (es fs : List DwEv) : ∀ w, dwRight max w (es ++ fs) = (dwRight max w es).bind fun v => dwRight max v fs := by
  induction es with
  | nil => intro w; rfl
  | cons e es ih =>
    intro w
    simp only [List.cons_append, dwRight]
    cases dwNext max w e with
    | none => rfl
    | some v => simp [ih]

theorem dwRight_gone (max : Nat) (l : List Nat) (w : DwSt) : dwRight max w (l.map .gone) = some w := by
  induction l with
  | nil => rfl
  | cons i l ih => simpa [dwRight, dwNext] using ih

theorem dwOnWay_append (es fs : List DwEv) : dwOnWay (es ++ fs) = fs.foldl dwOut (dwOnWay es) := by simp [dwOnWay, List.foldl_append]

/-- What the ideal watcher knows is what the link knows, and time is bounded by the timer. -/
structure Dw.Good (c : DwCfg) (s : Dw) (es : List DwEv) : Prop where
  open_ : s.up = true → s.opened = true
  fresh : s.up = true → s.over = false
  past : s.last ≤ s.now
  w : ∃ w, dwRight c.max DwSt.init es = some w ∧ w.up = s.up ∧ w.over = s.over ∧ (s.up = true → w.last = s.last)
  greet : s.pc = .greet → s.due = none ∧ s.now ≤ s.last + c.late
  timed : s.up = true → s.pc ≠ .greet → ∃ d, s.due = some d
  due : ∀ d, s.due = some d → s.now ≤ d + c.late ∧ (s.up = true → d ≤ s.last + c.max + c.period + c.late)
  shut : s.opened = false → s.due = none
  busy : s.pc ≠ .idle → s.opened = true

theorem Dw.good_init (c : DwCfg) : Dw.Good c Dw.init [] := by
  constructor <;> simp [Dw.init, dwRight, DwSt.init]

theorem Dw.good_step {c : DwCfg} {s s' : Dw} {a : DwAct} {es fs : List DwEv} (h : s.Good c es) (hs : s.step c a = some (s', fs)) : s'.Good c (es ++ fs) := by
  obtain ⟨w, hw, hwu, hwo, hwl⟩ := h.w
  have h1 := h.open_; have h2 := h.fresh; have h3 := h.past; have h4 := h.greet; have h5 := h.timed; have h6 := h.due; have h7 := h.shut; have h8 := h.busy
  cases a with
  | pass n =>
    simp only [Dw.step] at hs
    split at hs <;> cases hs
    rename_i hc
    simp only [Dw.canPass, Bool.and_eq_true] at hc
    refine ⟨h1, h2, by simp; omega, by simpa using h.w, ?_, h5, ?_, h7, h8⟩
    · intro hp
      refine ⟨(h4 hp).1, ?_⟩
      have := hc.2
      simp only at hp
      simp [hp] at this
      exact this
    · intro d hd
      have := hc.1
      simp only at hd
      simp [hd] at this
      exact ⟨this, (h6 d hd).2⟩
  | connect =>
    simp only [Dw.step] at hs
    split at hs <;> cases hs
    rename_i hc
    have hu : s.up = false := by
      cases hu : s.up
      · rfl
      · exact absurd (h1 hu) (by simp [hc.1])
    refine ⟨fun _ => rfl, fun _ => hc.2.1, by simp, ⟨{ w with up := true, last := s.now }, ?_, rfl, ?_, fun _ => rfl⟩, ?_, ?_, ?_, ?_, fun _ => rfl⟩
    · rw [dwRight_append, hw]; simp [dwRight, dwNext, hwu, hu, hwo, hc.2.1]
    · simpa using hwo
    · intro _; exact ⟨h7 hc.1, by simp⟩
    · intro _ hp; exact absurd rfl hp
    · intro d hd; simp [h7 hc.1] at hd
    · intro hx; simp at hx
  | greet =>
    simp only [Dw.step, Dw.send] at hs
    split at hs <;> cases hs
    rename_i hp
    obtain ⟨hd, hl⟩ := h4 hp
    have ho := h8 (by simp [hp])
    refine ⟨h1, h2, h3, ⟨w, ?_, hwu, hwo, hwl⟩, by simp, fun _ _ => ⟨_, rfl⟩, ?_, ?_, ?_⟩
    · rw [dwRight_append, hw]; simp [dwRight, dwNext]
    · intro d hd
      simp only [Option.some.injEq] at hd
      subst hd
      exact ⟨by simp; omega, fun _ => by simp; omega⟩
    · intro hx; simp [ho] at hx
    · simp
  | write ok =>
    simp only [Dw.step] at hs
    split at hs
    · split at hs
      · cases hs
      · split at hs <;> cases hs
        · exact ⟨h1, h2, h3, by simpa using h.w, h4, h5, h6, h7, h8⟩
        · refine ⟨h1, h2, h3, ⟨w, ?_, hwu, hwo, hwl⟩, h4, h5, h6, h7, h8⟩
          rw [dwRight_append, hw]; simp [dwRight, dwNext]
    · cases hs
  | take =>
    simp only [Dw.step] at hs
    split at hs
    · rename_i hc
      split at hs
      · cases hs
      · split at hs <;> cases hs
        · rename_i hl
          simp only [Dw.tooLate, Bool.and_eq_true, decide_eq_true_eq] at hl
          refine ⟨by simp [Dw.giveUp], by simp [Dw.giveUp], h3, ⟨{ w with up := false, over := true }, ?_, rfl, rfl, by simp [Dw.giveUp]⟩, h4, by simp [Dw.giveUp], ?_, h7, h8⟩
          · rw [dwRight_append, hw]; simp [dwRight, dwNext, hwu, hl.1, hwl hl.1, hl.2]
          · intro d hd; exact ⟨(h6 d hd).1, by simp [Dw.giveUp]⟩
        · rename_i hl
          refine ⟨h1, h2, by simp, ?_, by simp, ?_, ?_, h7, fun _ => hc.1⟩
          · cases hu : s.up
            · refine ⟨w, ?_, by simp [hwu, hu], hwo, by simp⟩
              rw [dwRight_append, hw]; simp [dwRight, dwNext, hwu, hu]
            · simp only [Dw.tooLate, hu, Bool.true_and, decide_eq_true_eq] at hl
              refine ⟨{ w with last := s.now }, ?_, by simp [hwu, hu], hwo, fun _ => rfl⟩
              rw [dwRight_append, hw]; simp [dwRight, dwNext, hwu, hu, hwl hu]; omega
          · intro hu _; exact h5 hu (by simp [hc.2])
          · intro d hd
            have := h6 d hd
            refine ⟨this.1, fun hu => ?_⟩
            have := this.2 hu
            show d ≤ s.now + c.max + c.period + c.late
            omega
    · cases hs
  | reply =>
    simp only [Dw.step, Dw.send] at hs
    split at hs <;> cases hs
    rename_i hp
    refine ⟨h1, h2, h3, ⟨w, ?_, hwu, hwo, hwl⟩, by simp, fun hu _ => h5 hu (by simp [hp]), h6, h7, by simp⟩
    rw [dwRight_append, hw]; simp [dwRight, dwNext]
  | timer =>
    simp only [Dw.step] at hs
    split at hs
    · rename_i d hd
      have hg : s.pc ≠ .greet := fun hp => by simp [(h4 hp).1] at hd
      have ho : s.opened = true := by
        cases ho : s.opened
        · simp [h7 ho] at hd
        · rfl
      split at hs
      · rename_i hle
        split at hs <;> cases hs
        · rename_i hl
          simp only [Dw.tooLate, Bool.and_eq_true, decide_eq_true_eq] at hl
          refine ⟨by simp [Dw.giveUp], by simp [Dw.giveUp], h3, ⟨{ w with up := false, over := true }, ?_, rfl, rfl, by simp [Dw.giveUp]⟩, ?_, by simp [Dw.giveUp], by simp, fun _ => rfl, h8⟩
          · rw [dwRight_append, hw]; simp [dwRight, dwNext, hwu, hl.1, hwl hl.1, hl.2]
          · intro hp; exact absurd hp hg
        · rename_i hl
          refine ⟨h1, h2, h3, by simpa using h.w, fun hp => absurd hp hg, fun _ _ => ⟨_, rfl⟩, ?_, ?_, h8⟩
          · intro d' hd'
            simp only [Option.some.injEq] at hd'
            subst hd'
            refine ⟨by simp; omega, fun hu => ?_⟩
            simp only at hu
            simp only [Dw.tooLate, hu, Bool.true_and, decide_eq_true_eq] at hl
            show s.now + c.period ≤ s.last + c.max + c.period + c.late
            omega
          · intro hx; simp [ho] at hx
      · cases hs
    · cases hs
  | lose =>
    simp only [Dw.step] at hs
    split at hs <;> cases hs
    rename_i hu
    refine ⟨by simp, by simp, h3, ⟨{ w with up := false }, ?_, rfl, hwo, by simp⟩, h4, by simp, ?_, h7, h8⟩
    · rw [dwRight_append, hw]; simp [dwRight, dwNext, hwu, hu]
    · intro d hd; exact ⟨(h6 d hd).1, by simp⟩
  | close =>
    simp only [Dw.step] at hs
    split at hs <;> cases hs
    rename_i hc
    refine ⟨by simp [hc.2.1], h2, h3, ⟨w, ?_, hwu, hwo, hwl⟩, by simp [hc.2.2], by simp [hc.2.1], by simp, by simp, by simp [hc.2.2]⟩
    rw [dwRight_append, hw]; exact dwRight_gone _ _ _

theorem Dw.good_run {c : DwCfg} {p : Dw → DwAct → Bool} {as : List DwAct} {s : Dw} {es : List DwEv} (hr : Dw.Run c p Dw.init as s es) : s.Good c es := by
  generalize he : Dw.init = s0 at hr
  induction hr with
  | nil => subst he; exact Dw.good_init c
  | snoc _ _ hs ih => exact Dw.good_step ih hs

/-- With an empty send buffer at every connection there is never more than one message. -/
structure Dw.One (c : DwCfg) (s : Dw) (es : List DwEv) : Prop where
  one : s.air.length + s.queue.length + (if s.pc = .idle then 0 else 1) ≤ 1
  way : dwOnWay es = s.air ++ s.queue
  num : ∀ i t, DwEv.sent i t ∈ es → i < s.next
  numB : ∀ i t, DwEv.back i t ∈ es → i < s.next
  numW : ∀ i, i ∈ s.air ++ s.queue → i < s.next
  sent : ∀ i t, i ∈ s.air ++ s.queue → DwEv.sent i t ∈ es → s.up = true → s.last ≤ t
  inTime : ∀ i t u, DwEv.sent i t ∈ es → DwEv.back i u ∈ es → u ≤ t + c.max
  closed : s.opened = false → s.air = []

theorem Dw.one_init (c : DwCfg) : Dw.One c Dw.init [] := by
  constructor <;> simp [Dw.init, dwOnWay]

theorem Dw.one_step {c : DwCfg} {s s' : Dw} {a : DwAct} {es fs : List DwEv} (hg : s.Good c es) (h : s.One c es) (hp : Dw.clean s a = true) (hs : s.step c a = some (s', fs)) : s'.One c (es ++ fs) := by
  have h1 := h.one; have h2 := h.way; have h3 := h.num; have h4 := h.numB; have h5 := h.numW; have h6 := h.sent; have h7 := h.inTime; have h8 := h.closed
  cases a with
  | pass n =>
    simp only [Dw.step] at hs
    split at hs <;> cases hs
    simp only [List.append_nil]
    exact ⟨h1, h2, h3, h4, h5, h6, h7, h8⟩
  | connect =>
    simp only [Dw.step] at hs
    split at hs <;> cases hs
    rename_i hc
    have ha := h8 hc.1
    have hq : s.queue = [] := by simpa [Dw.clean] using hp
    refine ⟨by simp [ha, hq], ?_, ?_, ?_, h5, ?_, ?_, by simp⟩
    · rw [dwOnWay_append]; simpa [dwOut] using h2
    · intro i t hm; exact h3 i t (by simpa using hm)
    · intro i t hm; exact h4 i t (by simpa using hm)
    · intro i t hm; simp [ha, hq] at hm
    · intro i t u hm hn; exact h7 i t u (by simpa using hm) (by simpa using hn)
  | greet =>
    simp only [Dw.step, Dw.send] at hs
    split at hs <;> cases hs
    rename_i hc
    simp [hc] at h1
    have ha : s.air = [] := h1.1
    have hq : s.queue = [] := h1.2
    refine ⟨by simp [ha, hq], ?_, ?_, ?_, by simp [ha, hq], ?_, ?_, fun _ => ha⟩
    · rw [dwOnWay_append, h2]; simp [dwOut]
    · intro i t hm
      simp only [List.mem_append, List.mem_singleton, DwEv.sent.injEq] at hm
      show i < s.next + 1
      rcases hm with hm | hm
      · have := h3 i t hm; omega
      · omega
    · intro i t hm; have := h4 i t (by simpa using hm); show i < s.next + 1; omega
    · intro i t hm hsn _
      simp [ha, hq] at hm
      subst hm
      simp only [List.mem_append, List.mem_singleton, DwEv.sent.injEq] at hsn
      show s.last ≤ t
      rcases hsn with hsn | hsn
      · have := h3 _ _ hsn; omega
      · have := hg.past; omega
    · intro i t u hm hn
      simp only [List.mem_append, List.mem_singleton, DwEv.sent.injEq] at hm
      have hn : DwEv.back i u ∈ es := by simpa using hn
      rcases hm with hm | hm
      · exact h7 i t u hm hn
      · have := h4 i u hn; omega
  | write ok =>
    simp only [Dw.step] at hs
    split at hs
    · rename_i hu
      split at hs
      · cases hs
      · rename_i i q hq
        simp only [hq, List.length_cons] at h1
        have ha : s.air = [] := List.length_eq_zero_iff.mp (by omega)
        have hq' : q = [] := List.length_eq_zero_iff.mp (by omega)
        have hpc : s.pc = .idle := by
          by_cases hpc : s.pc = .idle
          · exact hpc
          · simp [hpc] at h1
        subst hq'
        split at hs <;> cases hs
        · simp only [List.append_nil]
          exact ⟨by simp [ha, hpc], by simpa [ha, hq] using h2, h3, h4, by simpa [ha, hq] using h5, by simpa [ha, hq] using h6, h7, fun ho => by simp [hg.open_ hu] at ho⟩
        · refine ⟨by simp [ha, hpc], ?_, ?_, ?_, by simp [ha], by simp [ha], ?_, fun _ => ha⟩
          · rw [dwOnWay_append, h2]; simp [dwOut, ha, hq]
          · intro i t hm; exact h3 i t (by simpa using hm)
          · intro i t hm; exact h4 i t (by simpa using hm)
          · intro i t u hm hn; exact h7 i t u (by simpa using hm) (by simpa using hn)
    · cases hs
  | take =>
    simp only [Dw.step] at hs
    split at hs
    · rename_i hc
      split at hs
      · cases hs
      · rename_i i r ha
        simp only [ha, List.length_cons] at h1
        have hr : r = [] := List.length_eq_zero_iff.mp (by omega)
        have hq : s.queue = [] := List.length_eq_zero_iff.mp (by omega)
        subst hr
        have hi : i < s.next := h5 i (by simp [ha])
        split at hs <;> cases hs
        · refine ⟨by simp [Dw.giveUp, hq, hc.2], ?_, ?_, ?_, by simp [Dw.giveUp, hq], by simp [Dw.giveUp], ?_, fun _ => rfl⟩
          · rw [dwOnWay_append, h2]; simp [dwOut, ha, hq, Dw.giveUp]
          · intro i t hm; exact h3 i t (by simpa using hm)
          · intro i t hm; exact h4 i t (by simpa using hm)
          · intro i t u hm hn; exact h7 i t u (by simpa using hm) (by simpa using hn)
        · rename_i hl
          refine ⟨by simp [hq], ?_, ?_, ?_, by simp [hq], by simp [hq], ?_, fun _ => rfl⟩
          · rw [dwOnWay_append, h2]; cases hu : s.up <;> simp [dwOut, ha, hq]
          · intro j t hm
            cases hu : s.up <;> simp [hu] at hm <;> exact h3 j t hm
          · intro j t hm
            cases hu : s.up <;> simp [hu] at hm
            · exact h4 j t hm
            · rcases hm with hm | hm
              · exact h4 j t hm
              · rw [hm.1]; exact hi
          · intro j t u hm hn
            have hm' : DwEv.sent j t ∈ es := by cases hu : s.up <;> simpa [hu] using hm
            cases hu : s.up <;> simp [hu] at hn
            · exact h7 j t u hm' hn
            · rcases hn with hn | ⟨rfl, rfl⟩
              · exact h7 j t u hm' hn
              · have := h6 j t (by simp [ha]) hm' hu
                simp only [Dw.tooLate, hu, Bool.true_and, decide_eq_true_eq] at hl
                omega
    · cases hs
  | reply =>
    simp only [Dw.step, Dw.send] at hs
    split at hs <;> cases hs
    rename_i hc
    simp [hc] at h1
    have ha : s.air = [] := h1.1
    have hq : s.queue = [] := h1.2
    refine ⟨by simp [ha, hq], ?_, ?_, ?_, by simp [ha, hq], ?_, ?_, fun _ => ha⟩
    · rw [dwOnWay_append, h2]; simp [dwOut]
    · intro i t hm
      simp only [List.mem_append, List.mem_singleton, DwEv.sent.injEq] at hm
      show i < s.next + 1
      rcases hm with hm | hm
      · have := h3 i t hm; omega
      · omega
    · intro i t hm; have := h4 i t (by simpa using hm); show i < s.next + 1; omega
    · intro i t hm hsn _
      simp [ha, hq] at hm
      subst hm
      simp only [List.mem_append, List.mem_singleton, DwEv.sent.injEq] at hsn
      show s.last ≤ t
      rcases hsn with hsn | hsn
      · have := h3 _ _ hsn; omega
      · have := hg.past; omega
    · intro i t u hm hn
      simp only [List.mem_append, List.mem_singleton, DwEv.sent.injEq] at hm
      have hn : DwEv.back i u ∈ es := by simpa using hn
      rcases hm with hm | hm
      · exact h7 i t u hm hn
      · have := h4 i u hn; omega
  | timer =>
    simp only [Dw.step] at hs
    split at hs
    · split at hs
      · split at hs <;> cases hs
        · refine ⟨h1, ?_, ?_, ?_, h5, by simp [Dw.giveUp], ?_, h8⟩
          · rw [dwOnWay_append]; simpa [dwOut, Dw.giveUp] using h2
          · intro i t hm; exact h3 i t (by simpa using hm)
          · intro i t hm; exact h4 i t (by simpa using hm)
          · intro i t u hm hn; exact h7 i t u (by simpa using hm) (by simpa using hn)
        · simp only [List.append_nil]
          exact ⟨h1, h2, h3, h4, h5, h6, h7, h8⟩
      · cases hs
    · cases hs
  | lose =>
    simp only [Dw.step] at hs
    split at hs <;> cases hs
    refine ⟨h1, ?_, ?_, ?_, h5, by simp, ?_, h8⟩
    · rw [dwOnWay_append]; simpa [dwOut] using h2
    · intro i t hm; exact h3 i t (by simpa using hm)
    · intro i t hm; exact h4 i t (by simpa using hm)
    · intro i t u hm hn; exact h7 i t u (by simpa using hm) (by simpa using hn)
  | close =>
    simp only [Dw.step] at hs
    split at hs <;> cases hs
    rename_i hc
    refine ⟨by simp only [List.length_nil]; omega, ?_, ?_, ?_, fun i hi => h5 i (by simp at hi; simp [hi]), by simp [hc.2.1], ?_, fun _ => rfl⟩
    · rw [dwOnWay_append, h2]
      cases ha : s.air with
      | nil => simp
      | cons i r =>
        simp only [ha, List.length_cons] at h1
        have hr : r = [] := List.length_eq_zero_iff.mp (by omega)
        have hq : s.queue = [] := List.length_eq_zero_iff.mp (by omega)
        simp [hr, hq, dwOut]
    · intro i t hm; exact h3 i t (by simpa using hm)
    · intro i t hm; exact h4 i t (by simpa using hm)
    · intro i t u hm hn; exact h7 i t u (by simpa using hm) (by simpa using hn)

theorem Dw.one_run {c : DwCfg} {as : List DwAct} {s : Dw} {es : List DwEv} (hr : Dw.Run c Dw.clean Dw.init as s es) : s.One c es := by
  generalize he : Dw.init = s0 at hr
  induction hr with
  | nil => subst he; exact Dw.one_init c
  | snoc hr hp hs ih => subst he; exact Dw.one_step (Dw.good_run hr) ih hp hs

theorem Dw.exec_run {c : DwCfg} {p : Dw → DwAct → Bool} : ∀ (bs : List DwAct) {s0 s : Dw} {as : List DwAct} {es : List DwEv} {q : Dw × List DwEv}, Dw.Run c p s0 as s es → Dw.exec c p s bs = some q → Dw.Run c p s0 (as ++ bs) q.1 (es ++ q.2) := by
  intro bs
  induction bs with
  | nil => intro s0 s as es q hr h; simp only [Dw.exec, Option.some.injEq] at h; subst h; simpa using hr
  | cons b bs ih =>
    intro s0 s as es q hr h
    simp only [Dw.exec] at h
    split at h
    · rename_i hb
      cases hs : s.step c b with
      | none => simp [hs] at h
      | some r =>
        cases hx : Dw.exec c p r.1 bs with
        | none => simp [hs, hx] at h
        | some v =>
          simp [hs, hx] at h
          subst h
          have := ih (Dw.Run.snoc hr hb (s2 := r.1) (fs := r.2) hs) hx
          simpa using this
    · cases h

theorem Dw.run_of {c : DwCfg} {p : Dw → DwAct → Bool} (bs : List DwAct) (P : Dw → List DwEv → Bool) (h : ((Dw.exec c p Dw.init bs).any fun q => P q.1 q.2) = true) : ∃ s es, Dw.Run c p Dw.init bs s es ∧ P s es = true := by
  cases hq : Dw.exec c p Dw.init bs with
  | none => simp [hq] at h
  | some q => exact ⟨q.1, q.2, by simpa using Dw.exec_run bs (Dw.Run.nil _) hq, by simpa [hq] using h⟩

end StAsio
