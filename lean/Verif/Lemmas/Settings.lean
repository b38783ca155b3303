import Verif.Model.Settings
/-! Lemmas about the settings of pooled sockets. -/
set_option autoImplicit false
namespace StAsio

theorem Sg.exec_run {D : Setting → SetVal} {R : Bool} : ∀ (as : List SgAct) (s0 s s' : Sg) (bs : List SgAct) (es fs : List SgEv),
    Sg.Run D R s0 bs s es → Sg.exec D R s as = some (s', fs) → Sg.Run D R s0 (bs ++ as) s' (es ++ fs) := by
  intro as
  induction as with
  | nil => intro s0 s s' bs es fs h he; simp only [Sg.exec, Option.some.injEq, Prod.mk.injEq] at he; obtain ⟨rfl, rfl⟩ := he; simpa using h
  | cons a as ih =>
    intro s0 s s' bs es fs h he
    simp only [Sg.exec, Option.bind_eq_bind] at he
    cases h1 : s.step D R a with
    | none => simp [h1] at he
    | some r =>
      obtain ⟨s1, e1⟩ := r
      cases h2 : Sg.exec D R s1 as with
      | none => simp [h1, h2] at he
      | some r2 =>
        obtain ⟨s2, e2⟩ := r2
        simp only [h1, h2, Option.bind_some, Option.some.injEq, Prod.mk.injEq] at he
        obtain ⟨rfl, rfl⟩ := he
        have := ih s0 s1 s2 (bs ++ [a]) (es ++ e1) e2 (.snoc _ _ _ _ _ _ _ h h1) h2
        simpa [List.append_assoc] using this

/-- The setter calls of a call touch only this object and these settings. -/
theorem Sg.setFor_ne (s : Sg) (o : Nat) (c : AddCall) (x : Nat) (m : Setting) (h : x ≠ o ∨ c.says m = none) : (s.setFor o c).val x m = s.val x m := by
  cases c <;> cases m <;> simp_all [Sg.setFor, Sg.setAddr, AddCall.says]

theorem Sg.setFor_ph (s : Sg) (o : Nat) (c : AddCall) : (s.setFor o c).ph = s.ph ∧ (s.setFor o c).n = s.n := by
  cases c <;> simp [Sg.setFor, Sg.setAddr]

theorem Sg.setFor_says (s : Sg) (o : Nat) (c : AddCall) (m : Setting) (v : SetVal) (h : c.says m = some (some v)) : (s.setFor o c).val o m = v := by
  cases c <;> cases m <;> simp_all [Sg.setFor, Sg.setAddr, AddCall.says, IpArg.endpoint, sgAddr] <;> (split at h <;> simp_all)

/-- Objects that exist have a number below `n`. -/
def Sg.Inv (s : Sg) : Prop := ∀ x, s.n ≤ x → s.ph x = .absent

theorem Sg.create_spec {D : Setting → SetVal} {R : Bool} {s s' : Sg} {o : Nat} {pick : Option Nat} (h : s.create D R pick = some (o, s')) :
    (pick = some o ∧ R = true ∧ s.ph o = .dead ∧ s'.n = s.n ∧ s'.val o = sgReset D (s.val o) ∨ pick = none ∧ o = s.n ∧ s'.n = s.n + 1 ∧ s'.val o = D)
    ∧ s'.ph o = .held ∧ (∀ x, x ≠ o → s'.val x = s.val x ∧ s'.ph x = s.ph x) := by
  cases pick with
  | none =>
    simp only [Sg.create, Option.some.injEq, Prod.mk.injEq] at h
    obtain ⟨rfl, rfl⟩ := h
    refine ⟨.inr ⟨rfl, rfl, rfl, by simp⟩, by simp, fun x hx => by simp [hx]⟩
  | some p =>
    simp only [Sg.create] at h
    split at h
    · rename_i hc
      simp only [Option.some.injEq, Prod.mk.injEq] at h
      obtain ⟨rfl, rfl⟩ := h
      refine ⟨.inl ⟨rfl, hc.1, hc.2, rfl, by simp⟩, by simp, fun x hx => by simp [hx]⟩
    · cases h

theorem Sg.inv_step {D : Setting → SetVal} {R : Bool} {s s' : Sg} {a : SgAct} {fs : List SgEv} (hi : s.Inv) (h : s.step D R a = some (s', fs)) : s'.Inv := by
  have hcr : ∀ (pick : Option Nat) (o : Nat) (t : Sg), s.create D R pick = some (o, t) → o < t.n ∧ t.Inv := by
    intro pick o t hc
    obtain ⟨h1, h2, h3⟩ := Sg.create_spec hc
    rcases h1 with ⟨-, -, hd, hn, -⟩ | ⟨-, ho, hn, -⟩
    · have : o < s.n := by
        refine Nat.lt_of_not_le fun hle => ?_
        rw [hi o hle] at hd; cases hd
      refine ⟨by omega, fun x hx => ?_⟩
      rw [(h3 x (by omega)).2]; exact hi x (by omega)
    · refine ⟨by omega, fun x hx => ?_⟩
      rw [(h3 x (by omega)).2]; exact hi x (by omega)
  cases a with
  | create pick =>
    simp only [Sg.step] at h
    cases hc : s.create D R pick with
    | none => simp [hc] at h
    | some r =>
      obtain ⟨o, t⟩ := r
      simp only [hc, Option.map_some, Option.some.injEq, Prod.mk.injEq] at h
      obtain ⟨rfl, rfl⟩ := h
      exact (hcr pick o t hc).2
  | call c pick =>
    simp only [Sg.step] at h
    cases hc : s.create D R pick with
    | none => simp [hc] at h
    | some r =>
      obtain ⟨o, t⟩ := r
      simp only [hc, Option.map_some, Option.some.injEq, Prod.mk.injEq] at h
      obtain ⟨rfl, rfl⟩ := h
      obtain ⟨hlt, ht⟩ := hcr pick o t hc
      intro x hx
      have hp := Sg.setFor_ph t o c
      simp only [Sg.add, hp.1, hp.2] at hx ⊢
      rw [if_neg (by omega)]; exact ht x hx
  | setNum o m v =>
    simp only [Sg.step] at h
    split at h
    · simp only [Option.some.injEq, Prod.mk.injEq] at h
      obtain ⟨rfl, rfl⟩ := h
      simp only [Sg.setNum]
      split
      · exact hi
      · split <;> exact hi
    · cases h
  | setAddr o m p ip =>
    simp only [Sg.step] at h
    split at h
    · simp only [Option.some.injEq, Prod.mk.injEq] at h
      obtain ⟨rfl, rfl⟩ := h
      exact hi
    · cases h
  | again o =>
    simp only [Sg.step] at h
    split at h
    · simp only [Option.some.injEq, Prod.mk.injEq] at h
      obtain ⟨rfl, rfl⟩ := h
      exact hi
    · cases h
  | add o =>
    simp only [Sg.step] at h
    split at h
    · rename_i hp
      simp only [Sg.add, Option.some.injEq, Prod.mk.injEq] at h
      obtain ⟨rfl, rfl⟩ := h
      intro x hx
      have := hi x hx
      have hne : x ≠ o := by intro e; rw [e, hp] at this; cases this
      simp [hne, this]
    · cases h
  | close o =>
    simp only [Sg.step] at h
    split at h
    · rename_i hp
      simp only [Option.some.injEq, Prod.mk.injEq] at h
      obtain ⟨rfl, rfl⟩ := h
      intro x hx
      have := hi x hx
      have hne : x ≠ o := by intro e; rw [e, hp] at this; cases this
      simp [hne, this]
    · cases h
  | free o =>
    simp only [Sg.step] at h
    split at h
    · rename_i hp
      simp only [Option.some.injEq, Prod.mk.injEq] at h
      obtain ⟨rfl, rfl⟩ := h
      intro x hx
      have := hi x hx
      have hne : x ≠ o := by intro e; rw [e, hp] at this; cases this
      simp [hne, this]
    · cases h

theorem Sg.run_inv {D : Setting → SetVal} {R : Bool} {s : Sg} {as : List SgAct} {es : List SgEv} (h : Sg.Run D R Sg.init as s es) : s.Inv := by
  generalize he : Sg.init = s0 at h
  induction h with
  | nil => subst he; intro x _; rfl
  | snoc s1 s2 as a es fs _ hs ih => exact Sg.inv_step ih hs

end StAsio
