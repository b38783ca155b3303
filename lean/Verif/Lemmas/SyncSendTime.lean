import Verif.Model.SyncSendTime
import Verif.Props.C20_C23_TcpSend

/-!
# Lemmas for C114
-/

set_option autoImplicit false

namespace StAsio

theorem SqWatch.seeAll_append (p : Nat) (w : SqWatch) (es fs : List SqEv) : w.seeAll p (es ++ fs) = (w.seeAll p es).bind (fun w1 => w1.seeAll p fs) := by
  induction es generalizing w with
  | nil => rfl
  | cons e es ih =>
    simp only [List.cons_append, SqWatch.seeAll]
    cases w.see p e with
    | none => rfl
    | some w1 => simp [ih]

/-- What the stop watch of someone who follows `p` shows. -/
def Sq.watch (s : Sq) (p : Nat) : SqWatch := ⟨(s.calls p).map (fun c => (s.now - c.1, c.2)), s.done p⟩

theorem see_evs (p : Nat) (es : List TxEv) : ∀ (x : Option (Nat × Nat)) (f : Nat → Option SyncRes), (SqWatch.mk x (f p)).seeAll p (es.map .ev) = some ⟨x, setAll f es p⟩ := by
  induction es with
  | nil => intro x f; rfl
  | cons e es ih =>
    intro x f
    simp only [List.map_cons, SqWatch.seeAll]
    cases e with
    | resolved q r =>
      have := ih x (fun q' => if q' = q then (f q').or (some r) else f q')
      simp only [SqWatch.see, setAll]
      by_cases hq : q = p
      · subst hq; simpa using this
      · have hq' : ¬ p = q := fun h => hq h.symm
        simp only [hq, hq', if_false] at this ⊢
        simpa using this
    | _ => simpa [SqWatch.see, setAll] using ih x f

/-- The state of the callers. -/
structure Sq.Inv (s : Sq) (es : List SqEv) : Prop where
  used : ∀ p, s.calls p ≠ none → p ∈ s.used
  past : ∀ p c, s.calls p = some c → c.1 ≤ s.now
  open_ : ∀ p c, s.calls p = some c → c.2 ≠ 0 → s.now ≤ c.1 + c.2
  watch : ∀ p, (SqWatch.mk none none).seeAll p es = some (s.watch p)

theorem Sq.init_inv : Sq.init.Inv [] where
  used := by simp [Sq.init]
  past := by simp [Sq.init]
  open_ := by simp [Sq.init]
  watch := fun _ => rfl

theorem Sq.step_inv {batch : Nat} {s s' : Sq} {a : SqAct} {es es' : List SqEv} (h : s.Inv es) (hs : s.step batch a = some (s', es')) : s'.Inv (es ++ es') := by
  have hw : ∀ (t : Sq), (∀ p, (s.watch p).seeAll p es' = some (t.watch p)) → ∀ p, (SqWatch.mk none none).seeAll p (es ++ es') = some (t.watch p) := by
    intro t ht p; rw [SqWatch.seeAll_append, h.watch p]; exact ht p
  cases a with
  | call p d a =>
    simp only [Sq.step] at hs
    split at hs
    · rename_i hc
      obtain ⟨_, hu, _⟩ := hc
      have hn : s.calls p = none := by
        cases hx : s.calls p with
        | none => rfl
        | some c => exact absurd (h.used p (by simp [hx])) hu
      split at hs
      · split at hs
        · cases hs
          refine ⟨fun q hq => List.mem_cons_of_mem _ (h.used q hq), h.past, h.open_, hw _ fun q => ?_⟩
          simp only [SqWatch.seeAll, SqWatch.see, Option.bind_some]
          exact see_evs _ _ _ _
        · cases hs
          refine ⟨fun q hq => ?_, fun q c hq => ?_, fun q c hq hd => ?_, hw _ fun q => ?_⟩
          · by_cases e : q = p
            · simp [e]
            · simp only [e, if_false] at hq; exact List.mem_cons_of_mem _ (h.used q hq)
          · simp only at hq ⊢
            split at hq
            · cases hq; exact Nat.le_refl _
            · exact h.past q c hq
          · simp only at hq ⊢
            split at hq
            · cases hq; omega
            · exact h.open_ q c hq hd
          · simp only [SqWatch.seeAll, SqWatch.see]
            by_cases e : p = q
            · subst e
              simp only [if_true, Sq.watch, hn, Option.map_none, Option.bind_some, Option.map_some, Nat.sub_self]
              exact see_evs _ _ _ _
            · have e' : ¬ q = p := fun x => e x.symm
              simp only [e, e', if_false, Sq.watch, Option.bind_some]
              exact see_evs _ _ _ _
      · cases hs
    · cases hs
  | act a =>
    simp only [Sq.step] at hs
    split at hs
    · split at hs
      · cases hs
        exact ⟨h.used, h.past, h.open_, hw _ fun q => see_evs _ _ _ _⟩
      · cases hs
    · cases hs
  | ret p =>
    simp only [Sq.step] at hs
    split at hs
    · rename_i c r hc hd
      cases hs
      refine ⟨fun q hq => ?_, fun q c hq => ?_, fun q c hq hd => ?_, hw _ fun q => ?_⟩
      · simp only at hq; split at hq
        · exact absurd rfl hq
        · exact h.used q hq
      · simp only at hq; split at hq
        · cases hq
        · exact h.past q c hq
      · simp only at hq; split at hq
        · cases hq
        · exact h.open_ q c hq hd
      · by_cases e : p = q
        · subst e; simp [SqWatch.seeAll, SqWatch.see, Sq.watch, hc, hd]
        · have e' : ¬ q = p := fun x => e x.symm
          simp [SqWatch.seeAll, SqWatch.see, Sq.watch, e, e']
    · cases hs
  | timeout p =>
    simp only [Sq.step] at hs
    split at hs
    · rename_i c d hc hd
      split at hs
      · rename_i hx
        cases hs
        have ho := h.open_ _ _ hc hx.1
        have hp := h.past _ _ hc
        simp only at ho hp
        refine ⟨fun q hq => ?_, fun q c hq => ?_, fun q c hq hd => ?_, hw _ fun q => ?_⟩
        · simp only at hq; split at hq
          · exact absurd rfl hq
          · exact h.used q hq
        · simp only at hq; split at hq
          · cases hq
          · exact h.past q c hq
        · simp only at hq; split at hq
          · cases hq
          · exact h.open_ q c hq hd
        · by_cases e : p = q
          · subst e
            have : s.now - c = d := by omega
            simp [SqWatch.seeAll, SqWatch.see, Sq.watch, hc, hd, hx.1, this]
          · have e' : ¬ q = p := fun x => e x.symm
            simp [SqWatch.seeAll, SqWatch.see, Sq.watch, e, e']
      · cases hs
    · cases hs
  | tick =>
    simp only [Sq.step] at hs
    split at hs
    · cases hs
    · rename_i hn
      cases hs
      have hnd : ∀ q c, s.calls q = some c → s.done q = none ∧ (c.2 ≠ 0 → s.now < c.1 + c.2) := by
        intro q c hq
        have hm := h.used q (by simp [hq])
        have : s.due q = false := by
          cases hd : s.due q with
          | false => rfl
          | true => exact absurd (List.any_eq_true.mpr ⟨q, hm, hd⟩) hn
        simp only [Sq.due, hq, Bool.or_eq_false_iff, Bool.and_eq_false_iff, Option.isSome_eq_false_iff, Option.isNone_iff_eq_none, bne_eq_false_iff_eq, decide_eq_false_iff_not] at this
        exact ⟨this.1, fun hd => by rcases this.2 with x | x <;> omega⟩
      refine ⟨h.used, fun q c hq => Nat.le_succ_of_le (h.past q c hq), fun q c hq hd => (hnd q c hq).2 hd, hw _ fun q => ?_⟩
      cases hq : s.calls q with
      | none => simp [SqWatch.seeAll, SqWatch.see, Sq.watch, hq]
      | some c =>
        obtain ⟨h1, h2⟩ := hnd q c hq
        have hp := h.past q c hq
        have : ¬ (c.2 ≠ 0 ∧ c.2 ≤ s.now - c.1) := fun x => by have := h2 x.1; omega
        have e : s.now + 1 - c.1 = s.now - c.1 + 1 := by omega
        simp only [SqWatch.seeAll, SqWatch.see, Sq.watch, hq, h1, Option.map_some, e]
        rw [if_neg (by simpa using this)]; rfl

theorem Sq.run_inv {batch : Nat} {as : List SqAct} {s : Sq} {es : List SqEv} (h : Sq.Run batch Sq.init as s es) : s.Inv es := by
  generalize he : Sq.init = s0 at h
  induction h with
  | nil => subst he; exact Sq.init_inv
  | snoc s1 s2 as a es es' hr hs ih => exact Sq.step_inv ih hs

theorem Sq.exec_run {batch : Nat} {s s' : Sq} {as : List SqAct} {es : List SqEv} (h : Sq.exec batch s as = some (s', es)) : Sq.Run batch s as s' es := by
  suffices ∀ (as : List SqAct) (s0 s s' : Sq) (bs : List SqAct) (es fs : List SqEv), Sq.Run batch s0 bs s fs → Sq.exec batch s as = some (s', es) → Sq.Run batch s0 (bs ++ as) s' (fs ++ es) by
    simpa using this as s s s' [] es [] (.nil _) h
  intro as
  induction as with
  | nil => intro s0 s s' bs es fs hr h; simp only [Sq.exec, Option.some.injEq, Prod.mk.injEq] at h; obtain ⟨rfl, rfl⟩ := h; simpa using hr
  | cons a as ih =>
    intro s0 s s' bs es fs hr h
    simp only [Sq.exec] at h
    split at h
    · rename_i s1 es1 h1
      split at h
      · rename_i s2 es2 h2
        simp only [Option.some.injEq, Prod.mk.injEq] at h
        obtain ⟨rfl, rfl⟩ := h
        have := ih s0 s1 _ (bs ++ [a]) es2 (fs ++ es1) (.snoc _ _ _ _ _ _ _ hr h1) h2
        simpa using this
      · cases h
    · cases h

/-- The events of the sending side. -/
def SqEv.tx : SqEv → Option TxEv
  | .ev e => some e
  | _ => none

/-- Without calls and clock an execution is one of the sending side. -/
theorem Sq.run_tx {batch : Nat} {as : List SqAct} {s : Sq} {es : List SqEv} (h : Sq.Run batch Sq.init as s es) : ∃ bs, Tx.Run batch Tx.init bs s.tx (es.filterMap SqEv.tx) := by
  have hm : ∀ es : List TxEv, (es.map SqEv.ev).filterMap SqEv.tx = es := by
    intro es; induction es with
    | nil => rfl
    | cons e es ih => simp only [List.map_cons, List.filterMap_cons, SqEv.tx, ih]
  generalize he : Sq.init = s0 at h
  induction h with
  | nil => subst he; exact ⟨[], .nil _⟩
  | snoc s1 s2 as a es es' hr hs ih =>
    obtain ⟨bs, ih⟩ := ih
    rw [List.filterMap_append]
    cases a <;> simp only [Sq.step] at hs
    · split at hs
      · split at hs
        · rename_i ht
          split at hs <;> cases hs <;> exact ⟨_, by simpa only [List.filterMap_cons, SqEv.tx, hm] using Tx.Run.snoc _ _ _ _ _ _ _ ih ht⟩
        · cases hs
      · cases hs
    · split at hs
      · split at hs
        · rename_i ht
          cases hs; exact ⟨_, by simpa only [hm] using Tx.Run.snoc _ _ _ _ _ _ _ ih ht⟩
        · cases hs
      · cases hs
    · split at hs
      · cases hs; exact ⟨bs, by simpa only [List.filterMap_cons, List.filterMap_nil, SqEv.tx, List.append_nil] using ih⟩
      · cases hs
    · split at hs
      · split at hs
        · cases hs; exact ⟨bs, by simpa only [List.filterMap_cons, List.filterMap_nil, SqEv.tx, List.append_nil] using ih⟩
        · cases hs
      · cases hs
    · split at hs
      · cases hs
      · cases hs; exact ⟨bs, by simpa only [List.filterMap_cons, List.filterMap_nil, SqEv.tx, List.append_nil] using ih⟩

/-- Every promise set by a step of the sending side is set truthfully, at this moment or before. -/
theorem Tx.resolved_true {batch : Nat} {as : List TxAct} {s : Tx} {es : List TxEv} (h : Tx.Run batch Tx.init as s es) (p : Nat) (r : SyncRes) (hr : TxEv.resolved p r ∈ es) :
    ∃ ms m, m ∈ ms ∧ m.p = some p ∧ ((r = .success ∧ TxEv.sent ms ∈ es) ∨ (r = .notApplicable ∧ (TxEv.sendError ms ∈ es ∨ TxEv.popped ms ∈ es))) := by
  generalize he : Tx.init = s0 at h
  induction h with
  | nil => simp at hr
  | snoc s1 s2 as a es es' hrun hs ih =>
    subst he
    rw [List.mem_append] at hr
    rcases hr with hr | hr
    · obtain ⟨ms, m, h1, h2, h3⟩ := ih hr
      refine ⟨ms, m, h1, h2, ?_⟩
      rcases h3 with ⟨a, b⟩ | ⟨a, b | b⟩
      · exact Or.inl ⟨a, List.mem_append_left _ b⟩
      · exact Or.inr ⟨a, Or.inl (List.mem_append_left _ b)⟩
      · exact Or.inr ⟨a, Or.inr (List.mem_append_left _ b)⟩
    · obtain ⟨ms, m, h1, h2, h3⟩ := C23_true_outcome_partial batch as _ _ es es' a hrun hs p r hr
      refine ⟨ms, m, h1, h2, ?_⟩
      rcases h3 with ⟨a, b, _⟩ | ⟨a, b | b⟩
      · exact Or.inl ⟨a, List.mem_append_right _ b⟩
      · exact Or.inr ⟨a, Or.inl (List.mem_append_right _ b)⟩
      · exact Or.inr ⟨a, Or.inr (List.mem_append_right _ b)⟩

end StAsio
