import Verif.Lemmas.TimedTimer
set_option autoImplicit false
namespace StAsio

/-- What holds in addition if the timer is never started while an expiry waits for its handler. -/
structure Tt.CInv (u : Nat) (off : Int) (es : List TtEv) (s : Tt) : Prop where
  one : ∀ w, s.armed = some w → pendings es = 0
  le : pendings es ≤ 1
  armed : s.status = .started → ∀ w, s.armed = some w → ∃ d, due u es = some d ∧ w.dl = (d : Nat) + off
  aseq : ∀ w, s.armed = some w → w.seq = s.seq
  queue : s.status = .started → ∀ w ∈ s.queue, w.ok = true → ∃ d, due u es = some d ∧ d ≤ s.mono
  qseq : ∀ w ∈ s.queue, w.ok = true → w.seq = s.seq
  live : s.status = .started → (∃ w, s.armed = some w) ∨ 0 < pendings es ∨ ∃ k ∈ s.calls, k.seq = s.seq
  due : s.status = .started → due u es ≠ none → (∃ w, s.armed = some w) ∨ 0 < pendings es

theorem Tt.init_cinv (u : Nat) (off : Int) (m : Nat) (x : Int) : (Tt.init m x).CInv u off [] := by
  constructor <;> simp [Tt.init, pendings]

theorem Tt.CInv.quiet {u : Nat} {off : Int} {es fs : List TtEv} {s : Tt} (h : s.CInv u off es) (h1 : pendings (es ++ fs) = pendings es) (h2 : StAsio.due u (es ++ fs) = StAsio.due u es) :
    s.CInv u off (es ++ fs) := by
  constructor
  · rw [h1]; exact h.one
  · rw [h1]; exact h.le
  · rw [h2]; exact h.armed
  · exact h.aseq
  · rw [h2]; exact h.queue
  · exact h.qseq
  · rw [h1]; exact h.live
  · rw [h1, h2]; exact h.due

/-- The timer is switched off; nothing outstanding or outstanding for nothing. -/
theorem Tt.CInv.off {u : Nat} {off : Int} {es fs : List TtEv} {s s' : Tt} (h : s.CInv u off es) (h1 : pendings (es ++ fs) ≤ pendings es) (hst : s'.status ≠ .started)
    (ha : ∀ w, s'.armed = some w → s.armed = some w) (hq : ∀ w ∈ s'.queue, w.ok = true → w ∈ s.queue) (hseq : s'.seq = s.seq) : s'.CInv u off (es ++ fs) := by
  constructor
  · intro w hw
    have := h.one w (ha w hw)
    omega
  · have := h.le; omega
  · intro hs; exact absurd hs hst
  · intro w hw; rw [hseq]; exact h.aseq w (ha w hw)
  · intro hs; exact absurd hs hst
  · intro w hw hok; rw [hseq]; exact h.qseq w (hq w hw hok) hok
  · intro hs; exact absurd hs hst
  · intro hs; exact absurd hs hst

theorem Tt.CInv.start {u : Nat} {steady : Bool} {off : Int} {es : List TtEv} {s : Tt} (hi : s.Inv u steady off es) (hp : pendings es = 0) {ms : Nat} {e : TtEv}
    (he : e = .start s.mono ms ∨ ∃ b, e = .again b s.mono ms) : (Tt.startMs u steady ms s).CInv u off (es ++ [e]) := by
  have hp' : pendings (es ++ [e]) = 0 := by rw [pendings_append]; rcases he with rfl | ⟨b, rfl⟩ <;> exact hp
  have hd : StAsio.due u (es ++ [e]) = some (s.mono + ms * u) := by rw [due_append]; rcases he with rfl | ⟨b, rfl⟩ <;> rfl
  have hck : s.clock steady = s.mono + off := hi.clock
  obtain ⟨a1, a2, a3, a4, a5, a6, a7, a8, a9, _⟩ := Tt.abort_same { s with status := .started }
  have hq0 : s.queue.filter TWait.ok = [] := by
    have := hi.pend
    rw [hp] at this
    exact List.eq_nil_of_length_eq_zero this.symm
  unfold Tt.startMs
  have hck2 : (Tt.abort { s with status := .started }).clock steady = s.mono + off := by
    rw [← hck]
    simp only [Tt.clock, a1, a2]
  generalize Tt.abort { s with status := .started } = s1 at *
  have hno : ∀ w ∈ s1.queue, w.ok = true → False := by
    intro w hw hok
    have : w ∈ s1.queue.filter TWait.ok := List.mem_filter.mpr ⟨hw, hok⟩
    rw [a9] at this
    simp only at this
    rw [hq0] at this
    cases this
  constructor
  · intro _ _; exact hp'
  · omega
  · intro _ w hw
    simp only [Option.some.injEq] at hw
    subst hw
    refine ⟨_, hd, ?_⟩
    simp only
    rw [hck2]
    omega
  · intro w hw
    simp only [Option.some.injEq] at hw
    subst hw
    rfl
  · intro _ w hw hok; exact absurd hok (fun h => hno w hw h)
  · intro w hw hok; exact absurd hok (fun h => hno w hw h)
  · intro _; exact .inl ⟨_, rfl⟩
  · intro _ _; exact .inl ⟨_, rfl⟩

theorem Tt.live_cinv {u : Nat} {steady aligned : Bool} {off : Int} {es fs : List TtEv} {s s' : Tt} {a : TtAct} (hi : s.Inv u steady off es) (h : s.CInv u off es)
    (h1 : ∀ t ms, TtEv.start t ms ∈ fs → pendings es = 0) (h2 : ∀ b t ms, TtEv.again b t ms ∈ fs → pendings es = 0) (hcl : steady = true ∨ TtEv.clock ∉ fs)
    (hs : s.live u steady aligned a = some (s', fs)) : s'.crashed = true ∨ s'.CInv u off (es ++ fs) := by
  cases a with
  | tick d =>
    right
    simp only [Tt.live, Option.some.injEq, Prod.mk.injEq] at hs
    obtain ⟨rfl, rfl⟩ := hs
    rw [List.append_nil]
    exact ⟨h.one, h.le, h.armed, h.aseq, fun a b c d => by
      obtain ⟨x, x1, x2⟩ := h.queue a b c d
      exact ⟨x, x1, by simp only; omega⟩, h.qseq, h.live, h.due⟩
  | setClock x =>
    right
    simp only [Tt.live, Option.some.injEq, Prod.mk.injEq] at hs
    obtain ⟨rfl, rfl⟩ := hs
    have h3 := h.quiet (fs := [.clock]) (by rw [pendings_append]; rfl) (by rw [due_append]; rfl)
    exact ⟨h3.one, h3.le, h3.armed, h3.aseq, h3.queue, h3.qseq, h3.live, h3.due⟩
  | set ms =>
    right
    simp only [Tt.live, Option.some.injEq, Prod.mk.injEq] at hs
    obtain ⟨rfl, rfl⟩ := hs
    have hp := h1 _ _ (List.mem_singleton.mpr rfl)
    exact Tt.CInv.start (s := { s with interval := ms % 4294967296, hasCb := true }) (hi.same rfl rfl rfl rfl rfl rfl) hp (.inl rfl)
  | start =>
    right
    simp only [Tt.live] at hs
    split at hs
    · simp only [Option.some.injEq, Prod.mk.injEq] at hs
      obtain ⟨rfl, rfl⟩ := hs
      have hp := h1 _ _ (List.mem_singleton.mpr rfl)
      exact Tt.CInv.start hi hp (.inl rfl)
    · simp only [Option.some.injEq, Prod.mk.injEq] at hs
      obtain ⟨rfl, rfl⟩ := hs
      rw [List.append_nil]; exact h
  | stop =>
    right
    simp only [Tt.live, Option.some.injEq, Prod.mk.injEq] at hs
    obtain ⟨rfl, rfl⟩ := hs
    have hpe : pendings (es ++ [.stop s.mono]) ≤ pendings es := by rw [pendings_append]; exact Nat.le_refl _
    split
    · next hst =>
      obtain ⟨a1, a2, a3, a4, a5, a6, a7, a8, a9, _⟩ := Tt.abort_same { s with status := .canceled }
      refine h.off hpe ?_ ?_ ?_ a4
      · rw [a5]; simp
      · intro w hw
        rw [Tt.abort_armed] at hw
        cases hw
      · intro w hw hok
        have : w ∈ (Tt.abort { s with status := .canceled }).queue.filter TWait.ok := List.mem_filter.mpr ⟨hw, hok⟩
        rw [a9] at this
        exact (List.mem_filter.mp this).1
    · next hst => exact h.off hpe hst (fun w hw => hw) (fun w hw _ => hw) rfl
  | changeInterval ms =>
    right
    simp only [Tt.live, Option.some.injEq, Prod.mk.injEq] at hs
    obtain ⟨rfl, rfl⟩ := hs
    have h3 := h.quiet (fs := [.interval (ms % 4294967296)]) (by rw [pendings_append]; rfl) (by rw [due_append]; rfl)
    exact ⟨h3.one, h3.le, h3.armed, h3.aseq, h3.queue, h3.qseq, h3.live, h3.due⟩
  | expire =>
    right
    simp only [Tt.live] at hs
    split at hs
    · cases hs
    · next w hw =>
      split at hs
      · next hd =>
        simp only [Option.some.injEq, Prod.mk.injEq] at hs
        obtain ⟨rfl, rfl⟩ := hs
        have hp0 := h.one w hw
        have hpe : pendings (es ++ [.expired]) = 1 := by rw [pendings_append]; simp [pendStep, hp0]
        have hdu : StAsio.due u (es ++ [.expired]) = StAsio.due u es := by rw [due_append]; rfl
        have hq0 : s.queue.filter TWait.ok = [] := by
          have := hi.pend
          rw [hp0] at this
          exact List.eq_nil_of_length_eq_zero this.symm
        have hno : ∀ x ∈ s.queue, x.ok = true → False := by
          intro x hx hok
          have : x ∈ s.queue.filter TWait.ok := List.mem_filter.mpr ⟨hx, hok⟩
          rw [hq0] at this
          cases this
        constructor
        · intro w hw; cases hw
        · omega
        · intro _ w hw; cases hw
        · intro w hw; cases hw
        · intro hst x hx hok
          obtain ⟨d, d1, d2⟩ := h.armed hst w hw
          refine ⟨d, by rw [hdu]; exact d1, ?_⟩
          have := hi.clock
          rw [this, d2] at hd
          simp only
          omega
        · intro x hx hok
          rcases List.mem_append.mp hx with hx | hx
          · exact absurd hok (fun h => hno x hx h)
          · rw [List.mem_singleton] at hx
            subst hx
            exact h.aseq w hw
        · intro _; exact .inr (.inl (by omega))
        · intro _ _; exact .inr (by omega)
      · cases hs
  | run i =>
    right
    simp only [Tt.live] at hs
    split at hs
    · cases hs
    · next w hw =>
      obtain ⟨l1, l2, e1, e2⟩ := split_at hw
      rw [e2] at hs
      have hmem : w ∈ s.queue := by rw [e1]; simp
      have hsub : ∀ x ∈ l1 ++ l2, x ∈ s.queue := by intro x hx; rw [e1]; grind
      split at hs
      · next hc =>
        simp only [Option.some.injEq, Prod.mk.injEq] at hs
        obtain ⟨rfl, rfl⟩ := hs
        have hpos : 0 < pendings es := by
          rw [hi.pend, e1]
          simp [hc.2]
          omega
        have hp0 : pendings (es ++ [.fired s.mono w.gen]) = 0 := by
          rw [pendings_append]
          have := h.le
          simp [pendStep]
          omega
        have hno : ∀ x ∈ l1 ++ l2, x.ok = true → False := by
          intro x hx hok
          have hlen := h.le
          rw [hi.pend, e1] at hlen
          simp [hc.2] at hlen
          have : x ∈ (l1 ++ l2).filter TWait.ok := List.mem_filter.mpr ⟨hx, hok⟩
          rw [List.filter_append] at this
          have hl : (l1.filter TWait.ok ++ l2.filter TWait.ok).length = 0 := by rw [List.length_append]; omega
          rw [List.eq_nil_of_length_eq_zero hl] at this
          cases this
        have ha : s.armed = none := by
          cases hx : s.armed with
          | none => rfl
          | some x => have := h.one x hx; omega
        constructor
        · intro x hx; exact hp0
        · omega
        · intro _ x hx; simp only [ha] at hx; cases hx
        · exact h.aseq
        · intro _ x hx hok; exact absurd hok (fun h => hno x hx h)
        · intro x hx hok; exact absurd hok (fun h => hno x hx h)
        · intro _
          exact .inr (.inr ⟨⟨s.mono, s.sys, w.seq⟩, by simp, h.qseq w hmem hc.2⟩)
        · intro _ hd
          rw [due_append] at hd
          exact absurd rfl hd
      · next hc =>
        simp only [Option.some.injEq, Prod.mk.injEq] at hs
        obtain ⟨rfl, rfl⟩ := hs
        have hpe : pendings (es ++ (if w.ok = true then [TtEv.skipped] else [])) ≤ pendings es := by
          rw [pendings_append]
          split <;> simp [pendStep]
        by_cases hst : s.status = .started
        · have hok : w.ok = false := by
            cases hok : w.ok with
            | false => rfl
            | true => exact absurd ⟨hst, hok⟩ hc
          by_cases hq : w.seq = s.seq
          · rw [if_pos hq]
            refine h.off hpe (by simp) (fun w hw => hw) (fun x hx _ => hsub x hx) rfl
          · rw [if_neg hq, hok]
            simp only [Bool.false_eq_true, if_false, List.append_nil]
            exact ⟨h.one, h.le, h.armed, h.aseq, fun a x hx hok => h.queue a x (hsub x hx) hok, fun x hx hok => h.qseq x (hsub x hx) hok, h.live, h.due⟩
        · refine h.off hpe ?_ ?_ ?_ ?_
          · split
            · simp
            · exact hst
          · intro x hx
            split at hx <;> exact hx
          · intro x hx _
            split at hx <;> exact hsub x hx
          · split <;> rfl
  | finish i ret =>
    simp only [Tt.live] at hs
    split at hs
    · cases hs
    · next k hk =>
      have hpq : pendings (es ++ [.ended s.mono ret]) = pendings es := by rw [pendings_append]; rfl
      have hbase : Tt.Inv u steady off (es ++ [.ended s.mono ret]) { s with calls := s.calls.eraseIdx i } := by
        by_cases hst : ret = true ∧ s.status = .started
        · have hi' : Tt.Inv u steady off es { s with status := .canceled } := hi.same rfl rfl rfl rfl rfl rfl
          have hstep : Tt.live u steady aligned { s with status := .canceled } (.finish i ret) =
              some (if k.seq = s.seq then { s with status := .canceled, calls := s.calls.eraseIdx i } else { s with status := .canceled, calls := s.calls.eraseIdx i }, [.ended s.mono ret]) := by
            simp only [Tt.live, hk]
            simp
          have := Tt.live_inv hi' (by right; simp) hstep
          split at this <;> exact this.same rfl rfl rfl rfl rfl rfl
        · have hstep : Tt.live u steady aligned s (.finish i ret) =
              some (if k.seq = s.seq then { s with status := .canceled, calls := s.calls.eraseIdx i } else { s with calls := s.calls.eraseIdx i }, [.ended s.mono ret]) := by
            simp only [Tt.live, hk]
            simp [hst]
          have := Tt.live_inv hi (by right; simp) hstep
          split at this <;> exact this.same rfl rfl rfl rfl rfl rfl
      split at hs
      · split at hs
        · simp only [Option.some.injEq, Prod.mk.injEq] at hs
          obtain ⟨rfl, rfl⟩ := hs
          exact .inl rfl
        · next ms hms =>
          right
          simp only [Option.some.injEq, Prod.mk.injEq] at hs
          obtain ⟨rfl, rfl⟩ := hs
          have hp := h2 k.mono s.mono ms (by simp)
          have : (es ++ [TtEv.ended s.mono ret, .again k.mono s.mono ms]) = (es ++ [.ended s.mono ret]) ++ [.again k.mono s.mono ms] := by simp
          rw [this]
          exact Tt.CInv.start hbase (by rw [hpq]; exact hp) (.inr ⟨_, rfl⟩)
      · next hc =>
        right
        simp only [Option.some.injEq, Prod.mk.injEq] at hs
        obtain ⟨rfl, rfl⟩ := hs
        by_cases hq : k.seq = s.seq
        · rw [if_pos hq]
          exact h.off (Nat.le_of_eq hpq) (by simp) (fun w hw => hw) (fun x hx _ => hx) rfl
        · rw [if_neg hq]
          have h3 := h.quiet (fs := [.ended s.mono ret]) hpq (by rw [due_append]; rfl)
          refine ⟨h3.one, h3.le, h3.armed, h3.aseq, h3.queue, h3.qseq, ?_, h3.due⟩
          intro hst
          rcases h3.live hst with hl | hl | ⟨k', hl1, hl2⟩
          · exact .inl hl
          · exact .inr (.inl hl)
          · refine .inr (.inr ⟨k', ?_, hl2⟩)
            obtain ⟨l1, l2, e1, e2⟩ := split_at hk
            simp only [e2]
            rw [e1] at hl1
            have : k' ≠ k := by rintro rfl; exact hq hl2
            grind

/-- In which steps starts are made. -/
theorem Tt.live_shape {u : Nat} {steady aligned : Bool} {fs : List TtEv} {s s' : Tt} {a : TtAct} (hs : s.live u steady aligned a = some (s', fs)) :
    (∀ t ms, TtEv.start t ms ∈ fs → fs = [.start t ms]) ∧ (∀ b t ms, TtEv.again b t ms ∈ fs → fs = [.ended t true, .again b t ms]) ∧ (∀ t g, TtEv.fired t g ∈ fs → fs = [.fired t g]) := by
  cases a <;> simp only [Tt.live] at hs <;> (repeat' split at hs) <;> (first | (cases hs; done) | skip) <;> simp only [Option.some.injEq, Prod.mk.injEq] at hs <;> obtain ⟨_, rfl⟩ := hs <;>
    simp_all <;> grind

theorem CleanStart.left {es fs : List TtEv} (h : CleanStart (es ++ fs)) : CleanStart es :=
  ⟨fun pre t ms post e => h.1 pre t ms (post ++ fs) (by rw [e]; simp), fun pre b t ms post e => h.2 pre b t ms (post ++ fs) (by rw [e]; simp)⟩

theorem Separate.left {es fs : List TtEv} (h : Separate (es ++ fs)) : Separate es := fun pre t ms post e => h pre t ms (post ++ fs) (by rw [e]; simp)

theorem CleanStart.step {u : Nat} {steady aligned : Bool} {es fs : List TtEv} {s s' : Tt} {a : TtAct} (h : CleanStart (es ++ fs)) (hs : s.live u steady aligned a = some (s', fs)) :
    (∀ t ms, TtEv.start t ms ∈ fs → pendings es = 0) ∧ (∀ b t ms, TtEv.again b t ms ∈ fs → pendings es = 0) := by
  obtain ⟨h1, h2, _⟩ := Tt.live_shape hs
  refine ⟨fun t ms hm => ?_, fun b t ms hm => ?_⟩
  · exact h.1 es t ms [] (by rw [h1 t ms hm])
  · have := h.2 (es ++ [.ended t true]) b t ms [] (by rw [h2 b t ms hm]; simp)
    rwa [pendings_append] at this

theorem Tt.run_cinv {u : Nat} {steady aligned : Bool} {m : Nat} {x : Int} {es : List TtEv} {s : Tt} {as : List TtAct} (hcl : steady = true ∨ TtEv.clock ∉ es) (hc : CleanStart es)
    (hr : Tt.Run u steady aligned (Tt.init m x) as s es) : s.crashed = true ∨ s.CInv u (if steady then 0 else x - m) es := by
  induction hr with
  | nil => exact .inr (Tt.init_cinv _ _ _ _)
  | snoc s1 s2 as a es fs hr hs ih =>
    obtain ⟨hn, hl⟩ := Tt.step_eq hs
    rcases ih (by grind) hc.left with h | h
    · rw [hn] at h; cases h
    · obtain ⟨h1, h2⟩ := hc.step hl
      exact Tt.live_cinv (Tt.run_inv (by grind) hr) h h1 h2 (by grind) hl

/-- Without starts by the program at bad times there is at most one wait, pending expiry or call. -/
def Tt.SInv (es : List TtEv) (s : Tt) : Prop := s.armed.toList.length + pendings es + running es ≤ 1

theorem startMs_armed (u : Nat) (steady : Bool) (ms : Nat) (s : Tt) : (Tt.startMs u steady ms s).armed.toList.length = 1 := rfl

theorem Tt.live_sinv {u : Nat} {steady aligned : Bool} {off : Int} {es fs : List TtEv} {s s' : Tt} {a : TtAct} (hi : s.Inv u steady off es) (h : s.SInv es)
    (h1 : ∀ t ms, TtEv.start t ms ∈ fs → pendings es = 0 ∧ running es = 0) (hs : s.live u steady aligned a = some (s', fs)) :
    s'.SInv (es ++ fs) ∧ (∀ b t ms, TtEv.again b t ms ∈ fs → pendings es = 0) := by
  unfold Tt.SInv at *
  rw [pendings_append, running_append]
  cases a with
  | tick d =>
    simp only [Tt.live, Option.some.injEq, Prod.mk.injEq] at hs
    obtain ⟨rfl, rfl⟩ := hs
    exact ⟨h, by simp⟩
  | setClock x =>
    simp only [Tt.live, Option.some.injEq, Prod.mk.injEq] at hs
    obtain ⟨rfl, rfl⟩ := hs
    exact ⟨h, by simp⟩
  | set ms =>
    simp only [Tt.live, Option.some.injEq, Prod.mk.injEq] at hs
    obtain ⟨rfl, rfl⟩ := hs
    obtain ⟨p1, p2⟩ := h1 _ _ (List.mem_singleton.mpr rfl)
    refine ⟨?_, by simp⟩
    rw [startMs_armed]
    simp [pendStep, callStep, p1, p2]
  | start =>
    simp only [Tt.live] at hs
    split at hs
    · simp only [Option.some.injEq, Prod.mk.injEq] at hs
      obtain ⟨rfl, rfl⟩ := hs
      obtain ⟨p1, p2⟩ := h1 _ _ (List.mem_singleton.mpr rfl)
      refine ⟨?_, by simp⟩
      rw [startMs_armed]
      simp [pendStep, callStep, p1, p2]
    · simp only [Option.some.injEq, Prod.mk.injEq] at hs
      obtain ⟨rfl, rfl⟩ := hs
      exact ⟨h, by simp⟩
  | stop =>
    simp only [Tt.live, Option.some.injEq, Prod.mk.injEq] at hs
    obtain ⟨rfl, rfl⟩ := hs
    refine ⟨?_, by simp⟩
    simp only [List.foldl_cons, List.foldl_nil, pendStep, callStep]
    split
    · rw [Tt.abort_armed]; simp; omega
    · exact h
  | changeInterval ms =>
    simp only [Tt.live, Option.some.injEq, Prod.mk.injEq] at hs
    obtain ⟨rfl, rfl⟩ := hs
    exact ⟨h, by simp⟩
  | expire =>
    simp only [Tt.live] at hs
    split at hs
    · cases hs
    · next w hw =>
      split at hs
      · simp only [Option.some.injEq, Prod.mk.injEq] at hs
        obtain ⟨rfl, rfl⟩ := hs
        rw [hw] at h
        refine ⟨?_, by simp⟩
        simp [pendStep, callStep] at h ⊢
        omega
      · cases hs
  | run i =>
    simp only [Tt.live] at hs
    split at hs
    · cases hs
    · next w hw =>
      obtain ⟨l1, l2, e1, e2⟩ := split_at hw
      split at hs
      · next hc =>
        simp only [Option.some.injEq, Prod.mk.injEq] at hs
        obtain ⟨rfl, rfl⟩ := hs
        have hpos : 0 < pendings es := by
          rw [hi.pend, e1]
          simp [hc.2]
          omega
        refine ⟨?_, by simp⟩
        simp [pendStep, callStep]
        omega
      · simp only [Option.some.injEq, Prod.mk.injEq] at hs
        obtain ⟨rfl, rfl⟩ := hs
        constructor
        · have ha : (if w.seq = s.seq then { s with queue := s.queue.eraseIdx i, status := .canceled } else { s with queue := s.queue.eraseIdx i }).armed = s.armed := by split <;> rfl
          rw [ha]
          cases w.ok <;> simp [pendStep, callStep] <;> omega
        · cases w.ok <;> simp
  | finish i ret =>
    simp only [Tt.live] at hs
    split at hs
    · cases hs
    · next k hk =>
      have hpos : 0 < running es := by
        rw [hi.run]
        exact Nat.lt_of_le_of_lt (Nat.zero_le _) (List.getElem?_eq_some_iff.mp hk).1
      split at hs
      · split at hs
        · simp only [Option.some.injEq, Prod.mk.injEq] at hs
          obtain ⟨rfl, rfl⟩ := hs
          refine ⟨?_, by simp⟩
          simp [pendStep, callStep]
          omega
        · next ms hms =>
          simp only [Option.some.injEq, Prod.mk.injEq] at hs
          obtain ⟨rfl, rfl⟩ := hs
          refine ⟨?_, fun _ _ _ _ => by omega⟩
          rw [startMs_armed]
          simp [pendStep, callStep]
          omega
      · simp only [Option.some.injEq, Prod.mk.injEq] at hs
        obtain ⟨rfl, rfl⟩ := hs
        refine ⟨?_, by simp⟩
        have ha : (if k.seq = s.seq then { s with calls := s.calls.eraseIdx i, status := .canceled } else { s with calls := s.calls.eraseIdx i }).armed = s.armed := by split <;> rfl
        rw [ha]
        simp [pendStep, callStep]
        omega

theorem append_cons_cases {α : Type} {es fs pre post : List α} {e : α} (h : es ++ fs = pre ++ e :: post) :
    (∃ q, es = pre ++ e :: q) ∨ (∃ p, pre = es ++ p ∧ fs = p ++ e :: post) := by
  rcases List.append_eq_append_iff.mp h with ⟨a, h1, h2⟩ | ⟨a, h1, h2⟩
  · exact .inr ⟨a, h1, h2⟩
  · cases a with
    | nil => exact .inr ⟨[], by simpa using h1.symm, by simpa using h2.symm⟩
    | cons x a =>
      simp only [List.cons_append, List.cons.injEq] at h2
      exact .inl ⟨a, by rw [h1, h2.1]⟩

theorem singleton_split {α : Type} {p q : List α} {e f : α} (h : [f] = p ++ e :: q) : p = [] ∧ e = f ∧ q = [] := by
  cases p with
  | nil => simp at h; exact ⟨rfl, h.1.symm, h.2⟩
  | cons x p => simp at h

theorem pair_split {α : Type} {p q : List α} {e f g : α} (h : [f, g] = p ++ e :: q) : (p = [] ∧ e = f ∧ q = [g]) ∨ (p = [f] ∧ e = g ∧ q = []) := by
  cases p with
  | nil => simp at h; exact .inl ⟨rfl, h.1.symm, h.2.symm⟩
  | cons x p =>
    simp only [List.cons_append, List.cons.injEq] at h
    obtain ⟨rfl, h⟩ := h
    obtain ⟨rfl, rfl, rfl⟩ := singleton_split h
    exact .inr ⟨rfl, rfl, rfl⟩

/-- If the program does not start the timer at bad times, neither does the library. -/
theorem Tt.run_sinv {u : Nat} {steady aligned : Bool} {m : Nat} {x : Int} {es : List TtEv} {s : Tt} {as : List TtAct} (hcl : steady = true ∨ TtEv.clock ∉ es) (hc : Separate es)
    (hr : Tt.Run u steady aligned (Tt.init m x) as s es) : s.SInv es ∧ CleanStart es := by
  induction hr with
  | nil => exact ⟨by simp [Tt.SInv, Tt.init, pendings, running], by constructor <;> simp⟩
  | snoc s1 s2 as a es fs hr hs ih =>
    obtain ⟨hn, hl⟩ := Tt.step_eq hs
    obtain ⟨i1, i2⟩ := ih (by grind) hc.left
    obtain ⟨g1, g2, _⟩ := Tt.live_shape hl
    have hst : ∀ t ms, TtEv.start t ms ∈ fs → pendings es = 0 ∧ running es = 0 := fun t ms hm => hc es t ms [] (by rw [g1 t ms hm])
    obtain ⟨j1, j2⟩ := Tt.live_sinv (Tt.run_inv (by grind) hr) i1 hst hl
    refine ⟨j1, ?_, ?_⟩
    · intro pre t ms post e
      rcases append_cons_cases e with ⟨q, hq⟩ | ⟨p, hp, hf⟩
      · exact i2.1 pre t ms q hq
      · have hm : TtEv.start t ms ∈ fs := by rw [hf]; simp
        rw [g1 t ms hm] at hf
        obtain ⟨rfl, _, _⟩ := singleton_split hf
        rw [hp, List.append_nil]
        exact (hst t ms hm).1
    · intro pre b t ms post e
      rcases append_cons_cases e with ⟨q, hq⟩ | ⟨p, hp, hf⟩
      · exact i2.2 pre b t ms q hq
      · have hm : TtEv.again b t ms ∈ fs := by rw [hf]; simp
        rw [g2 b t ms hm] at hf
        rcases pair_split hf with ⟨_, h, _⟩ | ⟨rfl, _, _⟩
        · cases h
        · rw [hp, pendings_append]
          exact j2 b t ms hm

/-- Interval in effect, times of running calls. -/
structure Tt.EInv (es : List TtEv) (s : Tt) : Prop where
  interval : s.interval = inEffect es
  calls : ∀ k ∈ s.calls, k.mono ≤ s.mono ∧ ∃ g, TtEv.fired k.mono g ∈ es

theorem inEffect_append (a b : List TtEv) : inEffect (a ++ b) = b.foldl inEffectStep (inEffect a) := by simp [inEffect]

theorem startMs_same (u : Nat) (steady : Bool) (ms : Nat) (s : Tt) : (Tt.startMs u steady ms s).interval = s.interval ∧ (Tt.startMs u steady ms s).calls = s.calls ∧
    (Tt.startMs u steady ms s).mono = s.mono ∧ (Tt.startMs u steady ms s).sys = s.sys := by
  obtain ⟨a1, a2, a3, a4, a5, a6, a7, a8, a9, _⟩ := Tt.abort_same { s with status := .started }
  exact ⟨a7, a6, a1, a2⟩

theorem Tt.EInv.of {es fs : List TtEv} {s s' : Tt} (h : s.EInv es) (h1 : s'.interval = fs.foldl inEffectStep s.interval) (h2 : ∀ k ∈ s'.calls, k ∈ s.calls) (h3 : s.mono ≤ s'.mono) : s'.EInv (es ++ fs) := by
  constructor
  · rw [inEffect_append, ← h.interval]; exact h1
  · intro k hk
    obtain ⟨a, g, b⟩ := h.calls k (h2 k hk)
    exact ⟨by omega, g, by simp [b]⟩

theorem Tt.live_einv {u : Nat} {steady aligned : Bool} {es fs : List TtEv} {s s' : Tt} {a : TtAct} (h : s.EInv es) (hs : s.live u steady aligned a = some (s', fs)) : s'.EInv (es ++ fs) := by
  cases a with
  | tick d =>
    simp only [Tt.live, Option.some.injEq, Prod.mk.injEq] at hs
    obtain ⟨rfl, rfl⟩ := hs
    exact h.of rfl (fun k hk => hk) (by simp)
  | setClock x =>
    simp only [Tt.live, Option.some.injEq, Prod.mk.injEq] at hs
    obtain ⟨rfl, rfl⟩ := hs
    exact h.of rfl (fun k hk => hk) (by simp)
  | set ms =>
    simp only [Tt.live, Option.some.injEq, Prod.mk.injEq] at hs
    obtain ⟨rfl, rfl⟩ := hs
    obtain ⟨a1, a2, a3, a4⟩ := startMs_same u steady (ms % 4294967296) { s with interval := ms % 4294967296, hasCb := true }
    exact h.of (by rw [a1]; rfl) (fun k hk => by rw [a2] at hk; exact hk) (by rw [a3]; simp)
  | start =>
    simp only [Tt.live] at hs
    split at hs
    · simp only [Option.some.injEq, Prod.mk.injEq] at hs
      obtain ⟨rfl, rfl⟩ := hs
      obtain ⟨a1, a2, a3, a4⟩ := startMs_same u steady s.interval s
      exact h.of (by rw [a1]; rfl) (fun k hk => by rw [a2] at hk; exact hk) (by rw [a3]; simp)
    · simp only [Option.some.injEq, Prod.mk.injEq] at hs
      obtain ⟨rfl, rfl⟩ := hs
      rw [List.append_nil]; exact h
  | stop =>
    simp only [Tt.live, Option.some.injEq, Prod.mk.injEq] at hs
    obtain ⟨rfl, rfl⟩ := hs
    obtain ⟨a1, a2, a3, a4, a5, a6, a7, a8, a9, _⟩ := Tt.abort_same { s with status := .canceled }
    split
    · exact h.of (by rw [a7]; rfl) (fun k hk => by rw [a6] at hk; exact hk) (by rw [a1]; simp)
    · exact h.of rfl (fun k hk => hk) (by simp)
  | changeInterval ms =>
    simp only [Tt.live, Option.some.injEq, Prod.mk.injEq] at hs
    obtain ⟨rfl, rfl⟩ := hs
    exact h.of rfl (fun k hk => hk) (by simp)
  | expire =>
    simp only [Tt.live] at hs
    split at hs
    · cases hs
    · split at hs
      · simp only [Option.some.injEq, Prod.mk.injEq] at hs
        obtain ⟨rfl, rfl⟩ := hs
        exact h.of rfl (fun k hk => hk) (by simp)
      · cases hs
  | run i =>
    simp only [Tt.live] at hs
    split at hs
    · cases hs
    · next w hw =>
      split at hs
      · simp only [Option.some.injEq, Prod.mk.injEq] at hs
        obtain ⟨rfl, rfl⟩ := hs
        constructor
        · rw [inEffect_append, ← h.interval]; rfl
        · intro k hk
          simp only [List.mem_append, List.mem_singleton] at hk
          rcases hk with hk | rfl
          · obtain ⟨a, g, b⟩ := h.calls k hk
            exact ⟨a, g, by simp [b]⟩
          · exact ⟨Nat.le_refl _, w.gen, by simp⟩
      · simp only [Option.some.injEq, Prod.mk.injEq] at hs
        obtain ⟨rfl, rfl⟩ := hs
        refine h.of ?_ ?_ ?_
        · cases w.ok <;> by_cases hq : w.seq = s.seq <;> simp [hq, inEffectStep]
        · intro k hk
          split at hk <;> exact hk
        · split <;> simp
  | finish i ret =>
    simp only [Tt.live] at hs
    split at hs
    · cases hs
    · next k hk =>
      have hsub : ∀ x ∈ s.calls.eraseIdx i, x ∈ s.calls := fun x hx => (List.eraseIdx_sublist s.calls i).subset hx
      split at hs
      · split at hs
        · simp only [Option.some.injEq, Prod.mk.injEq] at hs
          obtain ⟨rfl, rfl⟩ := hs
          exact h.of rfl hsub (by simp)
        · next ms hms =>
          simp only [Option.some.injEq, Prod.mk.injEq] at hs
          obtain ⟨rfl, rfl⟩ := hs
          obtain ⟨a1, a2, a3, a4⟩ := startMs_same u steady ms { s with calls := s.calls.eraseIdx i }
          exact h.of (by rw [a1]; rfl) (fun x hx => by rw [a2] at hx; exact hsub x hx) (by rw [a3]; simp)
      · simp only [Option.some.injEq, Prod.mk.injEq] at hs
        obtain ⟨rfl, rfl⟩ := hs
        split
        · exact h.of rfl hsub (by simp)
        · exact h.of rfl hsub (by simp)

theorem Tt.run_einv {u : Nat} {steady aligned : Bool} {m : Nat} {x : Int} {es : List TtEv} {s : Tt} {as : List TtAct}
    (hr : Tt.Run u steady aligned (Tt.init m x) as s es) : s.EInv es := by
  induction hr with
  | nil => exact ⟨rfl, by simp [Tt.init]⟩
  | snoc s1 s2 as a es fs hr hs ih => exact Tt.live_einv ih (Tt.step_eq hs).2

/-- While nobody sets the clock, both clocks run in parallel. -/
theorem Tt.run_parallel {u : Nat} {steady aligned : Bool} {m : Nat} {x : Int} {es : List TtEv} {s : Tt} {as : List TtAct}
    (hr : Tt.Run u steady aligned (Tt.init m x) as s es) (hcl : TtEv.clock ∉ es) : s.sys = s.mono + (x - m) ∧ ∀ k ∈ s.calls, k.sys = k.mono + (x - m) := by
  induction hr with
  | nil => exact ⟨by simp [Tt.init]; omega, by simp [Tt.init]⟩
  | snoc s1 s2 as a es fs hr hs ih =>
    obtain ⟨i1, i2⟩ := ih (by grind)
    have hl := (Tt.step_eq hs).2
    cases a with
    | tick d =>
      simp only [Tt.live, Option.some.injEq, Prod.mk.injEq] at hl
      obtain ⟨rfl, rfl⟩ := hl
      exact ⟨by simp only; omega, i2⟩
    | setClock x =>
      simp only [Tt.live, Option.some.injEq, Prod.mk.injEq] at hl
      obtain ⟨rfl, rfl⟩ := hl
      simp at hcl
    | set ms =>
      simp only [Tt.live, Option.some.injEq, Prod.mk.injEq] at hl
      obtain ⟨rfl, rfl⟩ := hl
      obtain ⟨a1, a2, a3, a4⟩ := startMs_same u steady (ms % 4294967296) { s1 with interval := ms % 4294967296, hasCb := true }
      rw [a2, a3, a4]
      exact ⟨i1, i2⟩
    | start =>
      simp only [Tt.live] at hl
      split at hl
      · simp only [Option.some.injEq, Prod.mk.injEq] at hl
        obtain ⟨rfl, rfl⟩ := hl
        obtain ⟨a1, a2, a3, a4⟩ := startMs_same u steady s1.interval s1
        rw [a2, a3, a4]
        exact ⟨i1, i2⟩
      · simp only [Option.some.injEq, Prod.mk.injEq] at hl
        obtain ⟨rfl, rfl⟩ := hl
        exact ⟨i1, i2⟩
    | stop =>
      simp only [Tt.live, Option.some.injEq, Prod.mk.injEq] at hl
      obtain ⟨rfl, rfl⟩ := hl
      obtain ⟨a1, a2, a3, a4, a5, a6, a7, a8, a9, _⟩ := Tt.abort_same { s1 with status := .canceled }
      split
      · rw [a1, a2, a6]; exact ⟨i1, i2⟩
      · exact ⟨i1, i2⟩
    | changeInterval ms =>
      simp only [Tt.live, Option.some.injEq, Prod.mk.injEq] at hl
      obtain ⟨rfl, rfl⟩ := hl
      exact ⟨i1, i2⟩
    | expire =>
      simp only [Tt.live] at hl
      split at hl
      · cases hl
      · split at hl
        · simp only [Option.some.injEq, Prod.mk.injEq] at hl
          obtain ⟨rfl, rfl⟩ := hl
          exact ⟨i1, i2⟩
        · cases hl
    | run i =>
      simp only [Tt.live] at hl
      split at hl
      · cases hl
      · next w hw =>
        split at hl
        · simp only [Option.some.injEq, Prod.mk.injEq] at hl
          obtain ⟨rfl, rfl⟩ := hl
          refine ⟨i1, ?_⟩
          intro k hk
          simp only [List.mem_append, List.mem_singleton] at hk
          rcases hk with hk | rfl
          · exact i2 k hk
          · exact i1
        · simp only [Option.some.injEq, Prod.mk.injEq] at hl
          obtain ⟨rfl, rfl⟩ := hl
          split <;> exact ⟨i1, i2⟩
    | finish i ret =>
      simp only [Tt.live] at hl
      split at hl
      · cases hl
      · next k hk =>
        have hsub : ∀ x ∈ s1.calls.eraseIdx i, x ∈ s1.calls := fun x hx => (List.eraseIdx_sublist s1.calls i).subset hx
        split at hl
        · split at hl
          · simp only [Option.some.injEq, Prod.mk.injEq] at hl
            obtain ⟨rfl, rfl⟩ := hl
            exact ⟨i1, fun k hk => i2 k (hsub k hk)⟩
          · next ms hms =>
            simp only [Option.some.injEq, Prod.mk.injEq] at hl
            obtain ⟨rfl, rfl⟩ := hl
            obtain ⟨a1, a2, a3, a4⟩ := startMs_same u steady ms { s1 with calls := s1.calls.eraseIdx i }
            rw [a2, a3, a4]
            exact ⟨i1, fun k hk => i2 k (hsub k hk)⟩
        · simp only [Option.some.injEq, Prod.mk.injEq] at hl
          obtain ⟨rfl, rfl⟩ := hl
          split <;> exact ⟨i1, fun k hk => i2 k (hsub k hk)⟩

/-- The waiting time after a call back that took `e` ticks. -/
theorem alignedWait_spec {u interval e : Nat} (hu : 0 < u) (he : e < 4294967296 * u) {b : Int} {ms : Nat} (h : alignedWait u interval b (b + e) = some ms) :
    ms ≤ interval ∧ ∃ k r, 1 ≤ k ∧ r < u ∧ e + ms * u = k * interval * u + r := by
  have hel : elapsedMs u b (b + e) = e / u := by
    unfold elapsedMs
    have h1 : b + (e : Int) - b = e := by omega
    rw [h1]
    have h2 : Int.tdiv (e : Int) u = ((e / u : Nat) : Int) := by
      rw [Int.tdiv_eq_ediv_of_nonneg (by omega)]
      simp
    rw [h2]
    have h3 : e / u < 4294967296 := by
      rw [Nat.div_lt_iff_lt_mul hu]; exact he
    generalize e / u = z at *
    omega
  have hem := Nat.div_add_mod e u
  have hr := Nat.mod_lt e hu
  simp only [alignedWait, hel] at h
  generalize hq : e / u = q at *
  generalize hrr : e % u = r at *
  split at h
  · next hgt =>
    split at h
    · cases h
    · next h0 =>
      simp only [Option.some.injEq] at h
      subst h
      have h4 := Nat.div_add_mod q interval
      have h5 := Nat.mod_lt q (Nat.pos_of_ne_zero h0)
      refine ⟨by omega, q / interval + 1, r, Nat.le_add_left _ _, hr, ?_⟩
      generalize q / interval = p at *
      generalize q % interval = z at *
      have h6 : (p + 1) * interval = q + (interval - z) := by
        rw [Nat.add_mul, Nat.one_mul, Nat.mul_comm p, ← h4]
        omega
      rw [← hem, h6, Nat.add_mul, Nat.mul_comm u q]
      omega
  · next hle =>
    simp only [Option.some.injEq] at h
    subst h
    refine ⟨by omega, 1, r, by omega, hr, ?_⟩
    obtain ⟨y, rfl⟩ := Nat.exists_eq_add_of_le (Nat.le_of_not_lt hle)
    rw [← hem, Nat.add_sub_cancel_left, Nat.one_mul, Nat.add_mul, Nat.mul_comm u q]
    omega

theorem alignedWait_le {u interval : Nat} {b e : Int} {ms : Nat} (h : alignedWait u interval b e = some ms) : ms ≤ interval := by
  simp only [alignedWait] at h
  split at h
  · split at h
    · cases h
    · cases h; omega
  · cases h; omega

theorem Tt.live_fired {u : Nat} {steady aligned : Bool} {fs : List TtEv} {s s' : Tt} {a : TtAct} {t g : Nat} (hs : s.live u steady aligned a = some (s', fs)) (hm : TtEv.fired t g ∈ fs) :
    ∃ w ∈ s.queue, w.ok = true ∧ s.status = .started ∧ g = w.gen ∧ t = s.mono := by
  cases a <;> simp only [Tt.live] at hs <;> (repeat' split at hs) <;> (first | (cases hs; done) | skip) <;> simp only [Option.some.injEq, Prod.mk.injEq] at hs <;> obtain ⟨_, rfl⟩ := hs <;>
    simp at hm
  next w hw hc _ =>
    obtain ⟨rfl, rfl⟩ := hm
    exact ⟨w, List.mem_of_getElem? hw, hc.2, hc.1, rfl, rfl⟩

theorem Tt.live_again {u : Nat} {steady aligned : Bool} {fs : List TtEv} {s s' : Tt} {a : TtAct} {b t ms : Nat} (hs : s.live u steady aligned a = some (s', fs)) (hm : TtEv.again b t ms ∈ fs) :
    ∃ (i : Nat) (k : TtCall), s.calls[i]? = some k ∧ s.status = .started ∧ b = k.mono ∧ t = s.mono ∧ (if aligned then alignedWait u s.interval k.sys s.sys else some s.interval) = some ms := by
  cases a <;> simp only [Tt.live] at hs <;> (repeat' split at hs) <;> (first | (cases hs; done) | skip) <;> simp only [Option.some.injEq, Prod.mk.injEq] at hs <;> obtain ⟨_, rfl⟩ := hs <;>
    simp at hm
  next k hk hc _ ms' hms _ =>
    obtain ⟨rfl, rfl, rfl⟩ := hm
    exact ⟨_, k, hk, hc.2, rfl, rfl, hms⟩

theorem Tt.live_crash {u : Nat} {steady aligned : Bool} {fs : List TtEv} {s s' : Tt} {a : TtAct} (hs : s.live u steady aligned a = some (s', fs)) (hm : TtEv.crash ∈ fs) :
    ∃ (i : Nat) (k : TtCall) (ret : Bool), a = .finish i ret ∧ s.calls[i]? = some k ∧ fs = [.ended s.mono ret, .crash] ∧ (if aligned then alignedWait u s.interval k.sys s.sys else some s.interval) = none := by
  cases a <;> simp only [Tt.live] at hs <;> (repeat' split at hs) <;> (first | (cases hs; done) | skip) <;> simp only [Option.some.injEq, Prod.mk.injEq] at hs <;> obtain ⟨_, rfl⟩ := hs <;>
    simp at hm
  next k hk hc _ hms _ => exact ⟨_, k, _, rfl, hk, rfl, hms⟩

/-- Where a start by the library comes from. -/
theorem Tt.run_again {u : Nat} {steady aligned : Bool} {m : Nat} {x : Int} {es : List TtEv} {s : Tt} {as : List TtAct} (hr : Tt.Run u steady aligned (Tt.init m x) as s es)
    {pre : List TtEv} {b t ms : Nat} {post : List TtEv} (he : es = pre ++ .again b t ms :: post) :
    ∃ s1 as1 pre', Tt.Run u steady aligned (Tt.init m x) as1 s1 pre' ∧ ∃ (i : Nat) (k : TtCall), pre = pre' ++ [.ended t true] ∧ s1.calls[i]? = some k ∧ s1.status = .started ∧ b = k.mono ∧ t = s1.mono ∧
      (if aligned then alignedWait u s1.interval k.sys s1.sys else some s1.interval) = some ms := by
  induction hr generalizing pre post with
  | nil => simp at he
  | snoc s1 s2 as a es fs hr hs ih =>
    rcases append_cons_cases he with ⟨q, hq⟩ | ⟨p, hp, hf⟩
    · exact ih hq
    · obtain ⟨hn, hl⟩ := Tt.step_eq hs
      have hm : TtEv.again b t ms ∈ fs := by rw [hf]; simp
      obtain ⟨i, k, h1, h2, h3, h4, h5⟩ := Tt.live_again hl hm
      rw [(Tt.live_shape hl).2.1 b t ms hm] at hf
      rcases pair_split hf with ⟨_, h, _⟩ | ⟨rfl, _, _⟩
      · cases h
      · exact ⟨s1, as, es, hr, i, k, hp, h1, h2, h3, h4, h5⟩

end StAsio
