import Verif.Spec.Heartbeat
set_option autoImplicit false
namespace StAsio

/-- What the state says about the history (the clock started at `t0`, after the epoch). For UDP a time-out counts as a reception. -/
structure Hb.Inv (c : HbCfg) (t0 : Nat) (as : List HbAct) (s : Hb) : Prop where
  clock : t0 ≤ s.clock
  recv : (silentFor as = none → s.lastRecv = 0) ∧
    ∀ d, silentFor as = some d → d + t0 ≤ s.clock ∧ (s.clock - d) / 1000 ≤ s.lastRecv ∧ s.lastRecv ≤ s.clock / 1000 ∧ (c.kind = .tcp → s.lastRecv = (s.clock - d) / 1000)
  send : (quietFor as = none → s.lastSend = 0) ∧ ∀ d, quietFor as = some d → d + t0 ≤ s.clock ∧ s.lastSend = (s.clock - d) / 1000
  ready : s.ready = linkIsUp as
  sending : s.sending = sendInProgress as

theorem Hb.run_inv {c : HbCfg} {t0 : Nat} (ht : 1000 ≤ t0) {as : List HbAct} {s : Hb} {es : List HbEv} (hr : Hb.Run c (Hb.init t0) as s es) : s.Inv c t0 as := by
  generalize h0 : Hb.init t0 = s0 at hr
  induction hr with
  | nil => subst h0; exact ⟨by simp [Hb.init], by simp [silentFor, Hb.init], by simp [quietFor, Hb.init], rfl, rfl⟩
  | snoc s1 s2 as a es es' hr hs ih =>
    obtain ⟨h1, ⟨h2, h3⟩, ⟨h4, h5⟩, h6, h7⟩ := ih
    have key : ∀ {α : Type} (f : α → HbAct → α) (x : α), List.foldl f x (as ++ [a]) = f (List.foldl f x as) a := by intros; simp
    cases a with
    | pass d =>
      simp only [Hb.step] at hs; cases hs
      refine ⟨by simp; omega, ?_, ?_, ?_, ?_⟩
      · unfold silentFor at h2 h3 ⊢; rw [key]
        cases hx : List.foldl _ _ as with
        | none => simp [h2 hx]
        | some d' =>
          have := h3 d' hx
          simp only [Option.map_some]
          refine ⟨by simp, ?_⟩
          intro d2 hd2
          cases hd2
          have e : s1.clock + d - (d' + d) = s1.clock - d' := by omega
          simp only [e]
          refine ⟨by omega, this.2.1, by have := this.2.2.1; omega, this.2.2.2⟩
      · unfold quietFor at h4 h5 ⊢; rw [key]
        cases hx : List.foldl _ _ as with
        | none => simp [h4 hx]
        | some d' =>
          have := h5 d' hx
          simp only [Option.map_some]
          refine ⟨by simp, ?_⟩
          intro d2 hd2
          cases hd2
          have e : s1.clock + d - (d' + d) = s1.clock - d' := by omega
          simp only [e]
          refine ⟨by omega, this.2⟩
      · unfold linkIsUp at h6 ⊢; rw [key]; exact h6
      · unfold sendInProgress at h7 ⊢; rw [key]; exact h7
    | start =>
      simp only [Hb.step] at hs; cases hs
      refine ⟨h1, ?_, ?_, ?_, ?_⟩
      · unfold silentFor; rw [key]; simp [Hb.time]; omega
      · unfold quietFor at h4 h5 ⊢; rw [key]; exact ⟨h4, h5⟩
      · unfold linkIsUp at h6 ⊢; rw [key]; exact h6
      · unfold sendInProgress at h7 ⊢; rw [key]; exact h7
    | recv =>
      simp only [Hb.step] at hs; cases hs
      refine ⟨h1, ?_, ?_, ?_, ?_⟩
      · unfold silentFor; rw [key]; simp [Hb.time]; omega
      · unfold quietFor at h4 h5 ⊢; rw [key]; exact ⟨h4, h5⟩
      · unfold linkIsUp at h6 ⊢; rw [key]; exact h6
      · unfold sendInProgress at h7 ⊢; rw [key]; exact h7
    | sendEnd =>
      simp only [Hb.step] at hs; cases hs
      refine ⟨h1, ?_, ?_, ?_, ?_⟩
      · unfold silentFor at h2 h3 ⊢; rw [key]; exact ⟨h2, h3⟩
      · unfold quietFor; rw [key]; simp [Hb.time]; omega
      · unfold linkIsUp at h6 ⊢; rw [key]; exact h6
      · unfold sendInProgress; rw [key]
    | check =>
      simp only [Hb.step] at hs
      cases hc : s1.check c with
      | none => simp [hc] at hs
      | some p =>
        obtain ⟨s3, b, es3⟩ := p
        simp only [hc] at hs; cases hs
        have hcases : s2 = s1 ∨ (c.kind ≠ .tcp ∧ 0 < s1.lastRecv ∧ s2 = { s1 with lastRecv := s1.time }) := by
          unfold Hb.check at hc
          grind
        rcases hcases with rfl | ⟨hk, hl, rfl⟩
        · refine ⟨h1, ?_, ?_, ?_, ?_⟩
          · unfold silentFor at h2 h3 ⊢; rw [key]; exact ⟨h2, h3⟩
          · unfold quietFor at h4 h5 ⊢; rw [key]; exact ⟨h4, h5⟩
          · unfold linkIsUp at h6 ⊢; rw [key]; exact h6
          · unfold sendInProgress at h7 ⊢; rw [key]; exact h7
        · refine ⟨h1, ?_, ?_, ?_, ?_⟩
          · unfold silentFor at h2 h3 ⊢; rw [key]
            refine ⟨fun h => ?_, ?_⟩
            · have := h2 h; omega
            · intro d hd
              have := h3 d hd
              simp only [Hb.time]
              exact ⟨this.1, by omega, Nat.le_refl _, fun h => absurd h hk⟩
          · unfold quietFor at h4 h5 ⊢; rw [key]; exact ⟨h4, h5⟩
          · unfold linkIsUp at h6 ⊢; rw [key]; exact h6
          · unfold sendInProgress at h7 ⊢; rw [key]; exact h7
    | arrive =>
      simp only [Hb.step] at hs; cases hs
      refine ⟨h1, ?_, ?_, ?_, ?_⟩
      · unfold silentFor at h2 h3 ⊢; rw [key]; exact ⟨h2, h3⟩
      · unfold quietFor at h4 h5 ⊢; rw [key]; exact ⟨h4, h5⟩
      · unfold linkIsUp at h6 ⊢; rw [key]; exact h6
      · unfold sendInProgress at h7 ⊢; rw [key]; exact h7
    | sendBegin =>
      simp only [Hb.step] at hs; cases hs
      refine ⟨h1, ?_, ?_, ?_, ?_⟩
      · unfold silentFor at h2 h3 ⊢; rw [key]; exact ⟨h2, h3⟩
      · unfold quietFor at h4 h5 ⊢; rw [key]; exact ⟨h4, h5⟩
      · unfold linkIsUp at h6 ⊢; rw [key]; exact h6
      · unfold sendInProgress; rw [key]
    | linkUp =>
      simp only [Hb.step] at hs; cases hs
      refine ⟨h1, ?_, ?_, ?_, ?_⟩
      · unfold silentFor at h2 h3 ⊢; rw [key]; exact ⟨h2, h3⟩
      · unfold quietFor at h4 h5 ⊢; rw [key]; exact ⟨h4, h5⟩
      · unfold linkIsUp; rw [key]
      · unfold sendInProgress at h7 ⊢; rw [key]; exact h7
    | linkDown =>
      simp only [Hb.step] at hs; cases hs
      refine ⟨h1, ?_, ?_, ?_, ?_⟩
      · unfold silentFor at h2 h3 ⊢; rw [key]; exact ⟨h2, h3⟩
      · unfold quietFor at h4 h5 ⊢; rw [key]; exact ⟨h4, h5⟩
      · unfold linkIsUp; rw [key]
      · unfold sendInProgress at h7 ⊢; rw [key]; exact h7

theorem Hb.run_trans {c : HbCfg} {s s1 s2 : Hb} {as bs : List HbAct} {es fs : List HbEv} (h1 : Hb.Run c s as s1 es) (h2 : Hb.Run c s1 bs s2 fs) : Hb.Run c s (as ++ bs) s2 (es ++ fs) := by
  induction h2 with
  | nil => simpa using h1
  | snoc s2 s3 bs a fs fs' _ hs ih =>
    rw [← List.append_assoc, ← List.append_assoc]
    exact Hb.Run.snoc _ _ _ _ _ _ _ ih hs

theorem Hb.run_one {c : HbCfg} {s s1 : Hb} {a : HbAct} {es : List HbEv} (h : s.step c a = some (s1, es)) : Hb.Run c s [a] s1 es := by
  have := Hb.Run.snoc _ _ _ _ _ _ _ (Hb.Run.nil (c := c) s) h
  simpa using this

theorem Hb.exec_run {c : HbCfg} {s s' : Hb} {as : List HbAct} {es : List HbEv} (h : Hb.exec c s as = some (s', es)) : Hb.Run c s as s' es := by
  induction as generalizing s es with
  | nil => simp [Hb.exec] at h; obtain ⟨rfl, rfl⟩ := h; exact Hb.Run.nil _
  | cons a as ih =>
    simp only [Hb.exec, Option.bind_eq_bind] at h
    rw [Option.bind_eq_some_iff] at h
    obtain ⟨⟨s1, e1⟩, h1, h2⟩ := h
    rw [Option.bind_eq_some_iff] at h2
    obtain ⟨⟨s2, e2⟩, h2, h3⟩ := h2
    simp at h3
    obtain ⟨rfl, rfl⟩ := h3
    exact Hb.run_trans (Hb.run_one h1) (ih h2)

end StAsio
