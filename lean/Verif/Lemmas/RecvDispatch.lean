import Verif.Spec.Dispatch
import Verif.Lemmas.Queue
set_option autoImplicit false
namespace StAsio

theorem rStrip_append (p r : List Bytes) : rStrip p (p ++ r) = some r := by
  induction p with
  | nil => rfl
  | cons a p ih => simp [rStrip, ih]

theorem rStrip_some {p l r : List Bytes} (h : rStrip p l = some r) : l = p ++ r := by
  induction p generalizing l with
  | nil => simpa [rStrip] using h
  | cons a p ih =>
    cases l with
    | nil => simp [rStrip] at h
    | cons b l =>
      simp only [rStrip] at h
      split at h
      · rename_i hab; rw [hab, ih h]; rfl
      · cases h

theorem rMonitor_append (t : IdealRx) (es es' : List REv) :
    t.monitor (es ++ es') = (t.monitor es).bind (fun t => t.monitor es') := by
  induction es generalizing t with
  | nil => rfl
  | cons e es ih =>
    simp only [List.cons_append, IdealRx.monitor]
    cases t.event e with
    | none => rfl
    | some t' => exact ih t'

theorem rMonitor_plain {t t' : IdealRx} {es : List REv} (h : t.monitor es = some t') (hp : ∀ e ∈ es, RPlainEv e) :
    t.taken.toList ++ t.waiting ++ rReceived es = rAccepted es ++ t'.taken.toList ++ t'.waiting := by
  induction es generalizing t with
  | nil => simp [IdealRx.monitor] at h; subst h; simp [rReceived, rAccepted]
  | cons e es ih =>
    simp only [IdealRx.monitor] at h
    cases he : t.event e with
    | none => rw [he] at h; cases h
    | some t1 =>
      rw [he] at h
      have ih := ih h (fun x hx => hp x (by simp [hx]))
      have hpe := hp e (by simp)
      cases e with
      | received ms =>
        simp [IdealRx.event] at he; subst he
        simp only [rReceived, rAccepted]
        rw [← ih]; simp
      | taken m =>
        simp only [IdealRx.event] at he
        split at he
        · rename_i hc
          rw [Option.map_eq_some_iff] at he
          obtain ⟨w, h1, rfl⟩ := he
          have := rStrip_some h1
          simp only [rReceived, rAccepted]
          rw [this, hc.1, ← ih]; simp
        · cases he
      | call m =>
        simp only [IdealRx.event] at he
        split at he
        · cases he; exact ih
        · cases he
      | ret m ok =>
        simp only [IdealRx.event] at he
        split at he
        · rename_i hc
          cases he
          cases ok
          · simp only [rReceived, rAccepted, hc.1]
            simpa using ih
          · simp only [rReceived, rAccepted, hc.1]
            simp at ih ⊢
            exact ih
        · cases he
      | popped ms => exact absurd hpe (by simp [RPlainEv])
      | cleared => exact absurd hpe (by simp [RPlainEv])

theorem rMonitor_calls {t t' : IdealRx} {es : List REv} (h : t.monitor es = some t') :
    rCalls es + t.busy.toNat = rRets es + t'.busy.toNat := by
  induction es generalizing t with
  | nil => simp [IdealRx.monitor] at h; subst h; simp [rCalls, rRets]
  | cons e es ih =>
    simp only [IdealRx.monitor] at h
    cases he : t.event e with
    | none => rw [he] at h; cases h
    | some t1 =>
      rw [he] at h
      have ih := ih h
      cases e with
      | received ms => simp [IdealRx.event] at he; subst he; exact ih
      | taken m =>
        simp only [IdealRx.event] at he
        split at he
        · rw [Option.map_eq_some_iff] at he
          obtain ⟨w, h1, rfl⟩ := he
          exact ih
        · cases he
      | call m =>
        simp only [IdealRx.event] at he
        split at he
        · rename_i hc
          cases he; simp [rCalls, rRets, hc.2] at ih ⊢; omega
        · cases he
      | ret m ok =>
        simp only [IdealRx.event] at he
        split at he
        · rename_i hc
          cases he; simp [rCalls, rRets, hc.2] at ih ⊢; omega
        · cases he
      | popped ms =>
        simp only [IdealRx.event] at he
        rw [Option.map_eq_some_iff] at he
        obtain ⟨w, h1, rfl⟩ := he
        exact ih
      | cleared =>
        simp only [IdealRx.event] at he
        split at he
        · rename_i hc; cases he; simp [rCalls, rRets, hc] at ih ⊢; omega
        · cases he

/-! invariants -/

structure Rx.Inv (s : Rx) : Prop where
  bad : s.bad = false
  exact : s.buf.Exact rsz
  idle : s.pc = .idle → s.dispatching = s.cur.isSome
  got : s.pc = .got → s.cur.isSome = true
  handling : s.pc = .handling → s.cur.isSome = true ∧ s.dispatching = true
  refused : s.pc = .refused → s.cur.isSome = true ∧ s.dispatching = true
  clearing : s.pc = .clearing → s.cur = none ∧ s.dispatching = true
  posting : s.pc = .posting → s.cur = none ∧ s.dispatching = false
  wakeD : s.pc = .idle → s.dispatching = true → s.dtimer = true ∨ 0 < s.posted ∨ s.dlost = true
  wakeB : s.buf.items ≠ [] → 0 < s.posted ∨ s.pc ≠ .idle ∨ s.dispatching = true ∨ s.rd = .moved

theorem Rx.init_inv : Rx.init.Inv where
  bad := rfl
  exact := rfl
  idle := fun _ => rfl
  got := by simp [Rx.init]
  handling := by simp [Rx.init]
  refused := by simp [Rx.init]
  clearing := by simp [Rx.init]
  posting := by simp [Rx.init]
  wakeD := by simp [Rx.init]
  wakeB := by simp [Rx.init, Q.init]

def Rx.ideal (s : Rx) : IdealRx := { waiting := s.buf.items, taken := s.cur, busy := s.pc == .handling }

theorem Rx.step_inv {limit : Nat} {s s' : Rx} {a : RAct} {es : List REv} (h : s.Inv) (hs : s.step limit a = some (s', es)) :
    s'.Inv ∧ s.ideal.monitor es = some s'.ideal := by
  have he := h.exact
  unfold Q.Exact at he
  cases a with
  | read ms =>
    simp only [Rx.step] at hs
    split at hs
    · cases hs
    · rename_i hrd
      have hrd : s.rd = .reading := by simpa using hrd
      split at hs
      · cases hs
        refine ⟨⟨h.bad, h.exact, h.idle, h.got, h.handling, h.refused, h.clearing, h.posting, h.wakeD, ?_⟩, rfl⟩
        intro hb; have := h.wakeB hb; rw [hrd] at this; simpa using this
      · have hd : Q.declared rsz ms (getSizeInByte rsz ms) = some (sumSize rsz ms % 2 ^ 64) := by
          unfold Q.declared
          rw [getSizeInByte_eq]
          split
          · rfl
          · simp
        simp [Q.moveIn, hd] at hs
        obtain ⟨rfl, rfl⟩ := hs
        refine ⟨⟨h.bad, ?_, h.idle, h.got, h.handling, h.refused, h.clearing, h.posting, h.wakeD, by simp⟩, rfl⟩
        simp only [Q.Exact, sumSize_append, w64add, he]; omega
  | readError =>
    simp only [Rx.step] at hs
    split at hs
    · rename_i hrd
      cases hs
      refine ⟨⟨h.bad, h.exact, h.idle, h.got, h.handling, h.refused, h.clearing, h.posting, h.wakeD, ?_⟩, rfl⟩
      intro hb; have := h.wakeB hb; rcases hrd with hrd | hrd <;> rw [hrd] at this <;> simpa using this
    · cases hs
  | loadDisp =>
    simp only [Rx.step] at hs
    split at hs
    · cases hs
    · cases hs
      refine ⟨⟨h.bad, h.exact, h.idle, h.got, h.handling, h.refused, h.clearing, h.posting, ?_, ?_⟩, rfl⟩
      · intro h1 h2
        simp only at h1 h2 ⊢
        rw [if_pos h2]; exact h.wakeD h1 h2
      · intro hb
        cases hd : s.dispatching <;> simp
  | handled =>
    simp only [Rx.step] at hs
    split at hs
    · cases hs
    · rename_i hrd
      have hrd : s.rd = .check := by simpa using hrd
      cases hs
      refine ⟨⟨h.bad, h.exact, h.idle, h.got, h.handling, h.refused, h.clearing, h.posting, h.wakeD, ?_⟩, rfl⟩
      intro hb; have := h.wakeB hb; rw [hrd] at this
      simp only [reduceCtorEq, or_false] at this
      rcases this with t | t | t
      · exact Or.inl t
      · exact Or.inr (Or.inl t)
      · exact Or.inr (Or.inr (Or.inl t))
  | checkTimer =>
    simp only [Rx.step] at hs
    split at hs
    · cases hs
    · rename_i hrd
      have hrd : s.rd = .timer := by simpa using hrd
      cases hs
      refine ⟨⟨h.bad, h.exact, h.idle, h.got, h.handling, h.refused, h.clearing, h.posting, h.wakeD, ?_⟩, rfl⟩
      intro hb; have := h.wakeB hb; rw [hrd] at this
      simp only [reduceCtorEq, or_false] at this
      rcases this with t | t | t
      · exact Or.inl t
      · exact Or.inr (Or.inl t)
      · exact Or.inr (Or.inr (Or.inl t))
  | resume =>
    simp only [Rx.step] at hs
    split at hs
    · cases hs
    · rename_i hrd
      have hrd : s.rd = .resume := by simpa using hrd
      cases hs
      refine ⟨⟨h.bad, h.exact, h.idle, h.got, h.handling, h.refused, h.clearing, h.posting, h.wakeD, ?_⟩, rfl⟩
      intro hb; have := h.wakeB hb; rw [hrd] at this; simpa using this
  | run =>
    simp only [Rx.step] at hs
    split at hs
    · cases hs
    · rename_i hc
      have hpc : s.pc = .idle := by cases hp : s.pc <;> simp [hp] at hc ⊢
      have hid := h.idle hpc
      split at hs
      · rename_i hd
        cases hs
        have hcs : s.cur.isSome = true := by rw [← hid]; exact hd
        refine ⟨⟨?_, h.exact, by simp, fun _ => hcs, by simp, by simp, by simp, by simp, by simp, by simp⟩, ?_⟩
        · cases hcu : s.cur with
          | none => simp [hcu] at hcs
          | some m => simp [h.bad]
        · simp [IdealRx.monitor, Rx.ideal, hpc]; rfl
      · rename_i hd
        have hd : s.dispatching = false := by simpa using hd
        have hcn : s.cur = none := by
          rw [hd] at hid
          cases hcu : s.cur with
          | none => rfl
          | some m => simp [hcu] at hid
        cases hi : s.buf.items with
        | nil =>
          simp [Q.tryDequeue, hi] at hs
          obtain ⟨rfl, rfl⟩ := hs
          refine ⟨⟨h.bad, h.exact, ?_, ?_, ?_, ?_, ?_, ?_, by simp, ?_⟩, ?_⟩
          · intro _; simp [hcn]
          · simp [hpc]
          · simp [hpc]
          · simp [hpc]
          · simp [hpc]
          · simp [hpc]
          · simp [hi]
          · simp [IdealRx.monitor, Rx.ideal]
        | cons m l =>
          simp [Q.tryDequeue, hi] at hs
          obtain ⟨rfl, rfl⟩ := hs
          refine ⟨⟨by simp [h.bad, hcn], ?_, by simp, by simp, by simp, by simp, by simp, by simp, by simp, by simp⟩, ?_⟩
          · rw [hi, sumSize_cons] at he
            simp only [Q.Exact, he]
            unfold w64sub; omega
          · simp [IdealRx.monitor, IdealRx.event, Rx.ideal, hpc, hcn, hi, rStrip]; rfl
  | begin =>
    simp only [Rx.step] at hs
    split at hs
    · cases hs
    · rename_i hpc
      have hpc : s.pc = .got := by simpa using hpc
      have hg := h.got hpc
      cases hcu : s.cur with
      | none => simp [hcu] at hg
      | some m =>
        rw [hcu] at hs
        cases hs
        refine ⟨⟨h.bad, h.exact, by simp, by simp, by simp, by simp, by simp, by simp, by simp, by simp⟩, ?_⟩
        simp [IdealRx.monitor, IdealRx.event, Rx.ideal, hpc, hcu]
  | ret ok =>
    simp only [Rx.step] at hs
    split at hs
    · cases hs
    · rename_i hpc
      have hpc : s.pc = .handling := by simpa using hpc
      have hg := h.handling hpc
      cases hcu : s.cur with
      | none => simp [hcu] at hg
      | some m =>
        rw [hcu] at hs
        cases ok
        · simp at hs
          obtain ⟨rfl, rfl⟩ := hs
          refine ⟨⟨h.bad, h.exact, by simp, by simp, by simp, by simp [hg.2], by simp, by simp, by simp, by simp⟩, ?_⟩
          simp [IdealRx.monitor, IdealRx.event, Rx.ideal, hpc, hcu]
        · simp at hs
          obtain ⟨rfl, rfl⟩ := hs
          refine ⟨⟨h.bad, h.exact, by simp, by simp, by simp, by simp, by simp [hg.2], by simp, by simp, by simp⟩, ?_⟩
          simp [IdealRx.monitor, IdealRx.event, Rx.ideal, hpc, hcu]
  | dis =>
    simp only [Rx.step] at hs
    split at hs
    · rename_i hpc
      cases hs
      refine ⟨⟨h.bad, h.exact, by simp, by simp, by simp, by simp, by simp, by simp [(h.clearing hpc).1], by simp, by simp⟩, ?_⟩
      simp [IdealRx.monitor, Rx.ideal, hpc]; rfl
    · rename_i hpc
      cases hs
      refine ⟨⟨h.bad, h.exact, by simp [h.posting hpc], by simp, by simp, by simp, by simp, by simp, by simp, by simp⟩, ?_⟩
      simp [IdealRx.monitor, Rx.ideal, hpc]; rfl
    · rename_i hpc
      cases hs
      refine ⟨⟨h.bad, h.exact, by simp [h.refused hpc], by simp, by simp, by simp, by simp, by simp, by simp, by simp [h.refused hpc]⟩, ?_⟩
      simp [IdealRx.monitor, Rx.ideal, hpc]; rfl
    · cases hs
  | dtimer =>
    simp only [Rx.step] at hs
    split at hs
    · cases hs
      exact ⟨⟨h.bad, h.exact, h.idle, h.got, h.handling, h.refused, h.clearing, h.posting, by simp, by simp⟩, rfl⟩
    · cases hs
  | loseDispatch =>
    simp only [Rx.step] at hs
    split at hs
    · cases hs
      exact ⟨⟨h.bad, h.exact, h.idle, h.got, h.handling, h.refused, h.clearing, h.posting, by simp, h.wakeB⟩, rfl⟩
    · cases hs
  | loseCheck =>
    simp only [Rx.step] at hs
    split at hs
    · rename_i hrd
      cases hs
      refine ⟨⟨h.bad, h.exact, h.idle, h.got, h.handling, h.refused, h.clearing, h.posting, h.wakeD, ?_⟩, rfl⟩
      intro hb; have := h.wakeB hb; rw [hrd] at this; simpa using this
    · cases hs
  | pop =>
    simp only [Rx.step] at hs
    cases hi : s.buf.items with
    | nil =>
      simp [Q.tryDequeue, hi] at hs
      obtain ⟨rfl, rfl⟩ := hs
      exact ⟨h, rfl⟩
    | cons m l =>
      simp [Q.tryDequeue, hi] at hs
      obtain ⟨rfl, rfl⟩ := hs
      refine ⟨⟨h.bad, ?_, h.idle, h.got, h.handling, h.refused, h.clearing, h.posting, h.wakeD, fun _ => h.wakeB (by simp [hi])⟩, ?_⟩
      · rw [hi, sumSize_cons] at he
        simp only [Q.Exact, he]
        unfold w64sub; omega
      · simp [IdealRx.monitor, IdealRx.event, Rx.ideal, hi, rStrip]
  | popAll =>
    simp only [Rx.step, Option.some.injEq, Prod.mk.injEq] at hs
    obtain ⟨rfl, rfl⟩ := hs
    refine ⟨⟨h.bad, rfl, h.idle, h.got, h.handling, h.refused, h.clearing, h.posting, h.wakeD, by simp [Q.swap]⟩, ?_⟩
    have : rStrip s.buf.items s.buf.items = some [] := by simpa using rStrip_append s.buf.items []
    simp [IdealRx.monitor, IdealRx.event, Rx.ideal, Q.swap, this]
  | linkUp =>
    simp only [Rx.step] at hs
    split at hs
    · rename_i hc
      cases hs
      refine ⟨⟨h.bad, h.exact, h.idle, h.got, h.handling, h.refused, h.clearing, h.posting, h.wakeD, ?_⟩, rfl⟩
      intro hb; have := h.wakeB hb; rw [hc.2.2.2] at this; simpa using this
    · cases hs
  | reset =>
    simp only [Rx.step] at hs
    split at hs
    · rename_i hc
      cases hs
      refine ⟨⟨h.bad, rfl, by simp, by simp [hc.2.1], by simp [hc.2.1], by simp [hc.2.1], by simp [hc.2.1], by simp [hc.2.1], by simp, by simp [Q.clear]⟩, ?_⟩
      simp [IdealRx.monitor, IdealRx.event, Rx.ideal, Q.clear, hc.2.1]
    · cases hs

theorem Rx.run_inv {limit : Nat} {s s' : Rx} {as : List RAct} {es : List REv} (h : s.Inv) (hr : Rx.Run limit s as s' es) :
    s'.Inv ∧ s.ideal.monitor es = some s'.ideal := by
  induction hr with
  | nil => exact ⟨h, rfl⟩
  | snoc s1 s2 as a es es' hr hs ih =>
    have := Rx.step_inv ih.1 hs
    exact ⟨this.1, by rw [rMonitor_append, ih.2]; exact this.2⟩

end StAsio
