import Verif.Model.Services

/-!
# C39: the life of the services of a pump
-/

set_option autoImplicit false

namespace StAsio

theorem svcLife_append (u : Bool) (es fs : List SvcEv) : svcLife u (es ++ fs) = (svcLife u es).bind (fun v => svcLife v fs) := by
  induction es generalizing u with
  | nil => rfl
  | cons e es ih =>
    cases e <;> simp only [List.cons_append, svcLife]
    · split
      · rfl
      · exact ih _
    · split
      · exact ih _
      · rfl
    · exact ih _

theorem ofSvc_append (k : Nat) (es fs : List SvcEv) : ofSvc k (es ++ fs) = ofSvc k es ++ ofSvc k fs := by simp [ofSvc]

/-- The calls fs lead every service from its state in s to its state in s'. -/
def Svcs.Good (s s' : Svcs) (fs : List SvcEv) : Prop := ∀ k, svcLife (s.up k) (ofSvc k fs) = some (s'.up k)

theorem Svcs.Good.refl {s s' : Svcs} (h : ∀ k, s'.up k = s.up k) : Svcs.Good s s' [] := by
  intro k; rw [h]; rfl

theorem Svcs.Good.trans {s s1 s2 : Svcs} {es fs : List SvcEv} (h1 : Svcs.Good s s1 es) (h2 : Svcs.Good s1 s2 fs) : Svcs.Good s s2 (es ++ fs) := by
  intro k
  rw [ofSvc_append, svcLife_append, h1 k]
  exact h2 k

theorem Svcs.up_mark (s : Svcs) (k j : Nat) (b : Bool) : (s.mark k b).up j = if j = k ∧ k < s.objs.length then b else s.up j := by
  simp only [Svcs.up, Svcs.mark, List.getElem?_modify]
  by_cases h : j = k
  · subst h
    by_cases hl : j < s.objs.length
    · simp [hl]
    · simp [hl]
  · have h' : ¬ k = j := fun c => h c.symm
    simp [h, h']

theorem Svcs.mark_len (s : Svcs) (k : Nat) (b : Bool) : (s.mark k b).objs.length = s.objs.length := by simp [Svcs.mark]

theorem Svcs.startSvc_up (fail : List Nat) {s : Svcs} {k : Nat} (hk : k < s.objs.length) (j : Nat) : (Svcs.startSvc fail s k).1.up j = if j = k then (s.up k || !fail.contains k) else s.up j := by
  simp only [Svcs.startSvc]
  split
  · rename_i h
    by_cases hj : j = k
    · subst hj; simp [h]
    · simp [hj]
  · rename_i h
    simp only [Svcs.up_mark]
    by_cases hj : j = k
    · subst hj; simp [h, hk]
    · simp [hj]

theorem Svcs.stopSvc_up (s : Svcs) (k j : Nat) : (Svcs.stopSvc s k).1.up j = if j = k then false else s.up j := by
  simp only [Svcs.stopSvc]
  split
  · rename_i h
    have hk : k < s.objs.length := by
      apply Classical.byContradiction
      intro c
      simp [Svcs.up, List.getElem?_eq_none (Nat.le_of_not_lt c)] at h
    simp only [Svcs.up_mark]
    by_cases hj : j = k
    · subst hj; simp [hk]
    · simp [hj]
  · rename_i h
    by_cases hj : j = k
    · subst hj; simp [h]
    · simp [hj]

theorem Svcs.startSvc_good (fail : List Nat) {s : Svcs} {k : Nat} (hk : k < s.objs.length) : Svcs.Good s (Svcs.startSvc fail s k).1 (Svcs.startSvc fail s k).2 := by
  intro j
  rw [Svcs.startSvc_up fail hk]
  simp only [Svcs.startSvc]
  cases hu : s.up k with
  | true =>
    by_cases hj : j = k
    · subst hj; simp [ofSvc, svcLife, hu]
    · simp [hj, ofSvc, svcLife]
  | false =>
    by_cases hj : j = k
    · subst hj; simp [ofSvc, svcLife, hu, SvcEv.who]
    · have : ¬ k = j := fun c => hj c.symm
      simp [hj, this, ofSvc, svcLife, SvcEv.who]

theorem Svcs.stopSvc_good (s : Svcs) (k : Nat) : Svcs.Good s (Svcs.stopSvc s k).1 (Svcs.stopSvc s k).2 := by
  intro j
  rw [Svcs.stopSvc_up]
  simp only [Svcs.stopSvc]
  cases hu : s.up k with
  | true =>
    by_cases hj : j = k
    · subst hj; simp [ofSvc, svcLife, hu, SvcEv.who]
    · have : ¬ k = j := fun c => hj c.symm
      simp [hj, this, ofSvc, svcLife, SvcEv.who]
  | false =>
    by_cases hj : j = k
    · subst hj; simp [ofSvc, svcLife, hu]
    · simp [hj, ofSvc, svcLife]

theorem Svcs.finalSvc_good (s : Svcs) (k : Nat) : Svcs.Good s (Svcs.finalSvc s k).1 (Svcs.finalSvc s k).2 := by
  intro j
  simp only [Svcs.finalSvc, ofSvc, SvcEv.who]
  by_cases hj : k = j
  · simp [hj, svcLife]
  · simp [hj, svcLife]

/-- What the walks over the services do not touch. -/
def Svcs.Same (s s' : Svcs) : Prop := s'.reg = s.reg ∧ s'.on = s.on ∧ s'.blocked = s.blocked ∧ s'.contexts = s.contexts ∧ s'.bad = s.bad ∧ s'.objs.length = s.objs.length ∧ ∀ k, s'.exists? k = s.exists? k

theorem Svcs.Same.refl (s : Svcs) : Svcs.Same s s := ⟨rfl, rfl, rfl, rfl, rfl, rfl, fun _ => rfl⟩

theorem Svcs.Same.trans {s s1 s2 : Svcs} (h1 : Svcs.Same s s1) (h2 : Svcs.Same s1 s2) : Svcs.Same s s2 := by
  obtain ⟨a1, a2, a3, a4, a5, a6, a7⟩ := h1
  obtain ⟨b1, b2, b3, b4, b5, b6, b7⟩ := h2
  exact ⟨b1.trans a1, b2.trans a2, b3.trans a3, b4.trans a4, b5.trans a5, b6.trans a6, fun k => (b7 k).trans (a7 k)⟩

theorem Svcs.mark_same (s : Svcs) (k : Nat) (b : Bool) : Svcs.Same s (s.mark k b) := by
  refine ⟨rfl, rfl, rfl, rfl, rfl, Svcs.mark_len s k b, ?_⟩
  intro j
  simp only [Svcs.exists?, Svcs.mark, List.getElem?_modify]
  by_cases h : k = j
  · simp [h]; cases s.objs[j]? <;> simp
  · simp [h]

theorem Svcs.startSvc_same (fail : List Nat) (s : Svcs) (k : Nat) : Svcs.Same s (Svcs.startSvc fail s k).1 := by
  simp only [Svcs.startSvc]; split
  · exact Svcs.Same.refl s
  · exact Svcs.mark_same ..

theorem Svcs.stopSvc_same (s : Svcs) (k : Nat) : Svcs.Same s (Svcs.stopSvc s k).1 := by
  simp only [Svcs.stopSvc]; split
  · exact Svcs.mark_same ..
  · exact Svcs.Same.refl s

theorem Svcs.all_same {f : Svcs → Nat → Svcs × List SvcEv} (hf : ∀ s k, Svcs.Same s (f s k).1) (s : Svcs) (ks : List Nat) : Svcs.Same s (Svcs.all f s ks).1 := by
  induction ks generalizing s with
  | nil => exact Svcs.Same.refl s
  | cons k ks ih => exact Svcs.Same.trans (hf s k) (ih _)

theorem Svcs.all_good {f : Svcs → Nat → Svcs × List SvcEv} (hf : ∀ s k, Svcs.Same s (f s k).1) (s : Svcs) (ks : List Nat) (hg : ∀ (t : Svcs) (k : Nat), k ∈ ks → t.objs.length = s.objs.length → Svcs.Good t (f t k).1 (f t k).2) :
    Svcs.Good s (Svcs.all f s ks).1 (Svcs.all f s ks).2 := by
  induction ks generalizing s with
  | nil => exact Svcs.Good.refl (fun _ => rfl)
  | cons k ks ih =>
    refine Svcs.Good.trans (hg s k (by simp) rfl) (ih _ ?_)
    intro t j hj ht
    exact hg t j (by simp [hj]) (ht.trans (hf s k).2.2.2.2.2.1)

/-- The invariant: registered services exist, in the order of their creation; every service's life so far has been in order. -/
structure Svcs.Inv (s : Svcs) (es : List SvcEv) : Prop where
  order : s.reg.Pairwise (· < ·)
  reg : ∀ k ∈ s.reg, s.exists? k = true
  life : ∀ k, svcLife false (ofSvc k es) = some (s.up k)

theorem Svcs.Inv.after {s s' : Svcs} {es fs : List SvcEv} (h : s.Inv es) (hg : Svcs.Good s s' fs) (ho : s'.reg.Pairwise (· < ·)) (hr : ∀ k ∈ s'.reg, s'.exists? k = true) : s'.Inv (es ++ fs) := by
  refine ⟨ho, hr, ?_⟩
  intro k
  rw [ofSvc_append, svcLife_append, h.life k]
  exact hg k

theorem Svcs.Inv.afterSame {s s' : Svcs} {es fs : List SvcEv} (h : s.Inv es) (hg : Svcs.Good s s' fs) (hr : s'.reg = s.reg) (hl : ∀ k, s'.exists? k = s.exists? k) : s'.Inv (es ++ fs) :=
  h.after hg (by rw [hr]; exact h.order) (by rw [hr]; intro k hk; rw [hl]; exact h.reg k hk)

theorem Svcs.exists_lt {s : Svcs} {k : Nat} (h : s.exists? k = true) : k < s.objs.length := by
  apply Classical.byContradiction
  intro c
  simp [Svcs.exists?, List.getElem?_eq_none (Nat.le_of_not_lt c)] at h

theorem Svcs.doService_good {s : Svcs} {es : List SvcEv} (h : s.Inv es) (threads : Int) (fail : List Nat) : Svcs.Good s (s.doService threads fail).1 (s.doService threads fail).2 ∧ (s.doService threads fail).1.reg = s.reg ∧ ∀ k, (s.doService threads fail).1.exists? k = s.exists? k := by
  simp only [Svcs.doService]
  split
  · exact ⟨Svcs.Good.refl (fun _ => rfl), rfl, fun _ => rfl⟩
  · have hsm := Svcs.all_same (Svcs.startSvc_same fail) { s with on := true } s.reg
    refine ⟨?_, hsm.1, hsm.2.2.2.2.2.2⟩
    have := Svcs.all_good (Svcs.startSvc_same fail) { s with on := true } s.reg (fun t k hk ht => Svcs.startSvc_good fail (by rw [ht]; exact Svcs.exists_lt (h.reg k hk)))
    exact this

theorem Svcs.waitService_good (s : Svcs) : Svcs.Good s s.waitService.1 s.waitService.2 ∧ s.waitService.1.reg = s.reg ∧ ∀ k, s.waitService.1.exists? k = s.exists? k := by
  have hsame : ∀ s k, Svcs.Same s (Svcs.finalSvc s k).1 := fun s k => Svcs.Same.refl s
  have h1 := Svcs.all_good hsame s s.reg (fun t k _ _ => Svcs.finalSvc_good t k)
  have h2 := Svcs.all_same hsame s s.reg
  exact ⟨fun k => h1 k, h2.1, h2.2.2.2.2.2.2⟩

theorem Svcs.endService_good (s : Svcs) : Svcs.Good s s.endService.1 s.endService.2 ∧ s.endService.1.reg = s.reg ∧ ∀ k, s.endService.1.exists? k = s.exists? k := by
  simp only [Svcs.endService]
  split
  · have h1 := Svcs.all_good Svcs.stopSvc_same s s.reg (fun t k _ _ => Svcs.stopSvc_good t k)
    have h2 := Svcs.all_same Svcs.stopSvc_same s s.reg
    exact ⟨h1, h2.1, h2.2.2.2.2.2.2⟩
  · exact ⟨Svcs.Good.refl (fun _ => rfl), rfl, fun _ => rfl⟩

theorem Svcs.takeOut_inv {s : Svcs} {es : List SvcEv} (h : s.Inv es) (k : Nat) : (s.takeOut k).1.Inv (es ++ (s.takeOut k).2) := by
  have hs := Svcs.stopSvc_same { s with reg := s.reg.filter (fun j => j != k) } k
  have hg : Svcs.Good s (s.takeOut k).1 (s.takeOut k).2 := Svcs.stopSvc_good { s with reg := s.reg.filter (fun j => j != k) } k
  refine h.after hg ?_ ?_
  · simp only [Svcs.takeOut]
    rw [hs.1]
    exact h.order.filter _
  · simp only [Svcs.takeOut]
    rw [hs.1]
    intro j hj
    rw [hs.2.2.2.2.2.2]
    exact h.reg j (List.mem_filter.1 hj).1

theorem Svcs.inv_step {s s' : Svcs} {a : SvcAct} {es fs : List SvcEv} (h : s.Inv es) (hs : s.step a = some (s', fs)) : s'.Inv (es ++ fs) := by
  cases a with
  | create id =>
    cases hs
    refine h.after (Svcs.Good.refl ?_) ?_ ?_
    · intro k
      simp only [Svcs.up]
      by_cases hk : k < s.objs.length
      · rw [List.getElem?_append_left hk]
      · rw [List.getElem?_append_right (Nat.le_of_not_lt hk), List.getElem?_eq_none (Nat.le_of_not_lt hk)]
        by_cases he : k - s.objs.length = 0
        · rw [he]; rfl
        · rw [List.getElem?_eq_none (by simp; omega)]
    · simp only [List.pairwise_append]
      refine ⟨h.order, by simp, ?_⟩
      intro a ha b hb
      simp at hb; subst hb
      exact Svcs.exists_lt (h.reg a ha)
    · intro k hk
      rcases List.mem_append.1 hk with hk | hk
      · have h1 := h.reg k hk
        have h2 := Svcs.exists_lt h1
        simp only [Svcs.exists?, List.getElem?_append_left h2]
        exact h1
      · simp at hk; subst hk
        simp [Svcs.exists?]
  | setId k id =>
    simp only [Svcs.step] at hs
    split at hs
    · cases hs
      refine h.after (Svcs.Good.refl ?_) h.order ?_
      · intro j
        simp only [Svcs.up, List.getElem?_modify]
        by_cases hj : k = j
        · simp [hj]; cases s.objs[j]? <;> simp
        · simp [hj]
      · intro j hj
        have h1 := h.reg j hj
        simp only [Svcs.exists?, List.getElem?_modify] at h1 ⊢
        by_cases hj : k = j
        · simp [hj]; cases e : s.objs[j]? <;> simp [e] at h1 ⊢; exact h1
        · simp [hj]; exact h1
    · cases hs
  | destroy k =>
    simp only [Svcs.step] at hs
    split at hs
    · split at hs
      · cases hs
        exact h.after (Svcs.Good.refl (fun _ => rfl)) h.order h.reg
      · cases hs
        refine h.after (Svcs.Good.refl ?_) (h.order.filter _) ?_
        · intro j
          simp only [Svcs.up, List.getElem?_modify]
          by_cases hj : k = j
          · simp [hj]; cases s.objs[j]? <;> simp
          · simp [hj]
        · intro j hj
          have h0 := List.mem_filter.1 hj
          have h1 := h.reg j h0.1
          have h2 : ¬ k = j := by rintro rfl; simp at h0
          simp only [Svcs.exists?, List.getElem?_modify] at h1 ⊢
          simp [h2]; exact h1
    · cases hs
  | removePtr k =>
    simp only [Svcs.step] at hs
    split at hs
    · have := Svcs.takeOut_inv h k
      simp only [Option.some.injEq] at hs
      rw [hs] at this
      exact this
    · cases hs
  | removeId id =>
    simp only [Svcs.step] at hs
    split at hs
    · rename_i k _
      have := Svcs.takeOut_inv h k
      simp only [Option.some.injEq] at hs
      rw [hs] at this
      exact this
    · cases hs; rw [List.append_nil]; exact h
  | clear =>
    simp only [Svcs.step, Option.some.injEq] at hs
    have h1 := Svcs.all_good Svcs.stopSvc_same { s with reg := [] } s.reg (fun t k _ _ => Svcs.stopSvc_good t k)
    have h2 := Svcs.all_same Svcs.stopSvc_same { s with reg := [] } s.reg
    rw [hs] at h1 h2
    refine h.after (fun k => h1 k) ?_ ?_
    · rw [h2.1]; exact List.Pairwise.nil
    · rw [h2.1]; simp
  | start threads fail =>
    simp only [Svcs.step] at hs
    split at hs
    · cases hs; rw [List.append_nil]; exact h
    · simp only [Option.some.injEq] at hs
      obtain ⟨g1, g2, g3⟩ := Svcs.doService_good h threads fail
      rw [hs] at g1 g2 g3
      exact h.afterSame g1 g2 g3
  | run threads fail =>
    simp only [Svcs.step] at hs
    split at hs
    · cases hs; rw [List.append_nil]; exact h
    · split at hs
      · simp only [Option.some.injEq] at hs
        obtain ⟨g1, g2, g3⟩ := Svcs.waitService_good s
        rw [hs] at g1 g2 g3
        exact h.afterSame g1 g2 g3
      · simp only [Option.some.injEq] at hs
        obtain ⟨g1, g2, g3⟩ := Svcs.doService_good h threads fail
        cases hs
        exact h.afterSame (fun k => g1 k) g2 g3
  | runEnd =>
    simp only [Svcs.step] at hs
    split at hs
    · simp only [Option.some.injEq] at hs
      obtain ⟨g1, g2, g3⟩ := Svcs.waitService_good s
      rw [hs] at g1 g2 g3
      exact h.afterSame g1 g2 g3
    · cases hs
  | stop =>
    simp only [Svcs.step] at hs
    split at hs
    · cases hs
    · split at hs
      · simp only [Option.some.injEq] at hs
        obtain ⟨g1, g2, g3⟩ := Svcs.endService_good s
        obtain ⟨k1, k2, k3⟩ := Svcs.waitService_good s.endService.1
        cases hs
        exact h.afterSame (g1.trans k1) (k2.trans g2) (fun k => (k3 k).trans (g3 k))
      · cases hs; rw [List.append_nil]; exact h
  | finish =>
    simp only [Svcs.step, Option.some.injEq] at hs
    obtain ⟨g1, g2, g3⟩ := Svcs.endService_good s
    rw [hs] at g1 g2 g3
    exact h.afterSame g1 g2 g3
  | startOne k threads fail =>
    simp only [Svcs.step] at hs
    split at hs
    · rename_i hk
      split at hs
      · simp only [Option.some.injEq] at hs
        have g1 := Svcs.startSvc_good fail (Svcs.exists_lt hk)
        have g2 := Svcs.startSvc_same fail s k
        rw [hs] at g1 g2
        exact h.afterSame g1 g2.1 g2.2.2.2.2.2.2
      · simp only [Option.some.injEq] at hs
        obtain ⟨g1, g2, g3⟩ := Svcs.doService_good h threads fail
        rw [hs] at g1 g2 g3
        exact h.afterSame g1 g2 g3
    · cases hs
  | stopOne k =>
    simp only [Svcs.step] at hs
    split at hs
    · simp only [Option.some.injEq] at hs
      have g1 := Svcs.stopSvc_good s k
      have g2 := Svcs.stopSvc_same s k
      rw [hs] at g1 g2
      exact h.afterSame g1 g2.1 g2.2.2.2.2.2.2
    · cases hs

theorem Svcs.inv_run {n : Nat} {as : List SvcAct} {s : Svcs} {es : List SvcEv} (hr : Svcs.Run (Svcs.init n) as s es) : s.Inv es := by
  generalize h0 : Svcs.init n = s0 at hr
  induction hr with
  | nil => subst h0; exact ⟨List.Pairwise.nil, by simp [Svcs.init], fun k => rfl⟩
  | snoc s1 s2 as a es fs _ _ hs ih => exact Svcs.inv_step ih hs

/-- **C39** (init and uninit alternate): in every history of calls, every service is initialised only while it is not initialised, and uninitialised only while it is; whether it is can be asked with service_started(). -/
theorem C39_alternate {n : Nat} {as : List SvcAct} {s : Svcs} {es : List SvcEv} (hr : Svcs.Run (Svcs.init n) as s es) (k : Nat) : svcLife false (ofSvc k es) = some (s.up k) := (Svcs.inv_run hr).life k

/-- **C39** (order of registration): the registered services are always kept in the order of their creation. -/
theorem C39_registered_in_order {n : Nat} {as : List SvcAct} {s : Svcs} {es : List SvcEv} (hr : Svcs.Run (Svcs.init n) as s es) : s.reg.Pairwise (· < ·) := (Svcs.inv_run hr).order

theorem Svcs.all_start (fail : List Nat) (s : Svcs) (ks : List Nat) (hk : ∀ k ∈ ks, k < s.objs.length) (hn : ks.Nodup) :
    (Svcs.all (Svcs.startSvc fail) s ks).2 = (ks.filter (fun k => !s.up k)).map (fun k => .init k (!fail.contains k)) ∧
    ∀ j, (Svcs.all (Svcs.startSvc fail) s ks).1.up j = if j ∈ ks then (s.up j || !fail.contains j) else s.up j := by
  induction ks generalizing s with
  | nil => simp [Svcs.all]
  | cons k ks ih =>
    rw [List.nodup_cons] at hn
    have hsame := Svcs.startSvc_same fail s k
    have hup := Svcs.startSvc_up fail (s := s) (k := k) (hk k (by simp))
    obtain ⟨h1, h2⟩ := ih (Svcs.startSvc fail s k).1 (by rw [hsame.2.2.2.2.2.1]; intro j hj; exact hk j (by simp [hj])) hn.2
    refine ⟨?_, ?_⟩
    · simp only [Svcs.all]
      rw [h1]
      have hf : ks.filter (fun j => !(Svcs.startSvc fail s k).1.up j) = ks.filter (fun j => !s.up j) := by
        apply List.filter_congr
        intro j hj
        rw [hup, if_neg (by rintro rfl; exact hn.1 hj)]
      rw [hf]
      simp only [Svcs.startSvc]
      cases hu : s.up k <;> simp [hu]
    · intro j
      simp only [Svcs.all]
      rw [h2, hup]
      by_cases hj : j = k
      · subst hj; simp [hn.1]
      · simp [hj]

theorem Svcs.all_stop (s : Svcs) (ks : List Nat) (hn : ks.Nodup) :
    (Svcs.all Svcs.stopSvc s ks).2 = (ks.filter s.up).map .uninit ∧ ∀ j, (Svcs.all Svcs.stopSvc s ks).1.up j = if j ∈ ks then false else s.up j := by
  induction ks generalizing s with
  | nil => simp [Svcs.all]
  | cons k ks ih =>
    rw [List.nodup_cons] at hn
    have hup := Svcs.stopSvc_up s k
    obtain ⟨h1, h2⟩ := ih (Svcs.stopSvc s k).1 hn.2
    refine ⟨?_, ?_⟩
    · simp only [Svcs.all]
      rw [h1]
      have hf : ks.filter (Svcs.stopSvc s k).1.up = ks.filter s.up := by
        apply List.filter_congr
        intro j hj
        rw [hup, if_neg (by rintro rfl; exact hn.1 hj)]
      rw [hf]
      simp only [Svcs.stopSvc]
      cases hu : s.up k <;> simp [hu]
    · intro j
      simp only [Svcs.all]
      rw [h2, hup]
      by_cases hj : j = k
      · subst hj; simp
      · simp [hj]

theorem Svcs.all_final (s : Svcs) (ks : List Nat) : Svcs.all Svcs.finalSvc s ks = (s, ks.map .finalize) := by
  induction ks with
  | nil => rfl
  | cons k ks ih => simp [Svcs.all, Svcs.finalSvc, ih]

theorem nodup_of_lt {l : List Nat} (h : l.Pairwise (· < ·)) : l.Nodup := by
  apply List.Pairwise.imp _ h
  intro a b hab c
  omega

/-- find gives the first service registered with this id. -/
theorem C39_find {n : Nat} {as : List SvcAct} {s : Svcs} {es : List SvcEv} (hr : Svcs.Run (Svcs.init n) as s es) (id : Int) :
    (∀ k, s.find id = some k → k ∈ s.reg ∧ (∃ o, s.objs[k]? = some o ∧ o.id = id) ∧ ∀ j ∈ s.reg, j < k → ∀ o, s.objs[j]? = some o → o.id ≠ id) ∧
    (s.find id = none → ∀ j ∈ s.reg, ∀ o, s.objs[j]? = some o → o.id ≠ id) := by
  have hi := Svcs.inv_run hr
  refine ⟨?_, ?_⟩
  · intro k hk
    obtain ⟨h1, as, bs, h2, h3⟩ := List.find?_eq_some_iff_append.1 hk
    refine ⟨List.mem_of_find?_eq_some hk, ?_, ?_⟩
    · cases e : s.objs[k]? with
      | none => simp [e] at h1
      | some o => simp [e] at h1; exact ⟨o, rfl, h1⟩
    · intro j hj hlt o ho c
      have hp := hi.order
      rw [h2] at hp hj
      rcases List.mem_append.1 hj with hj | hj
      · have := h3 j hj
        simp [ho, c] at this
      · rcases List.mem_cons.1 hj with rfl | hj
        · omega
        · have := List.rel_of_pairwise_cons (List.pairwise_append.1 hp).2.1 hj
          omega
  · intro h j hj o ho c
    have := List.find?_eq_none.1 h j hj
    simp [ho, c] at this

/-- **C39** (starting): start_service, after any history, with a valid number of threads and if the pump is not started, initialises exactly the registered services that are not initialised yet, each once, in order of registration; afterwards
those whose init() succeeded, and those already initialised, are started. Otherwise it does nothing. -/
theorem C39_start {n : Nat} {as : List SvcAct} {s s' : Svcs} {es fs : List SvcEv} {threads : Int} {fail : List Nat} (hr : Svcs.Run (Svcs.init n) as s es) (hs : s.step (.start threads fail) = some (s', fs)) :
    (s.on = false → 0 < threads → (s.contexts : Int) ≤ threads → s'.on = true ∧ s'.reg = s.reg ∧ fs = (s.reg.filter (fun k => !s.up k)).map (fun k => .init k (!fail.contains k)) ∧ ∀ k ∈ s.reg, s'.up k = (s.up k || !fail.contains k)) ∧
    (s.on = true ∨ threads ≤ 0 ∨ threads < s.contexts → s' = s ∧ fs = []) := by
  have hi := Svcs.inv_run hr
  simp only [Svcs.step] at hs
  split at hs
  · rename_i hon
    cases hs
    exact ⟨by simp [hon], by simp⟩
  · rename_i hon
    simp only [Option.some.injEq, Svcs.doService] at hs
    split at hs
    · cases hs
      refine ⟨?_, by simp⟩
      intro _ h1 h2
      exfalso; omega
    · have hsm := Svcs.all_same (Svcs.startSvc_same fail) { s with on := true } s.reg
      obtain ⟨h1, h2⟩ := Svcs.all_start fail { s with on := true } s.reg (fun k hk => Svcs.exists_lt (hi.reg k hk)) (nodup_of_lt hi.order)
      rw [hs] at hsm h1 h2
      refine ⟨?_, ?_⟩
      · intro _ _ _
        refine ⟨hsm.2.1, hsm.1, h1, ?_⟩
        intro k hk
        have := h2 k
        rw [if_pos hk] at this
        exact this
      · intro h
        exfalso
        rcases h with h | h | h
        · exact hon h
        · omega
        · omega

/-- **C39** (running): run_service with a valid number of threads starts the same services and then blocks; with more contexts than threads, or no threads, it starts nothing and does not block. -/
theorem C39_run {n : Nat} {as : List SvcAct} {s s' : Svcs} {es fs : List SvcEv} {threads : Int} {fail : List Nat} (hr : Svcs.Run (Svcs.init n) as s es) (hs : s.step (.run threads fail) = some (s', fs)) :
    (s.on = false → 0 < threads → (s.contexts : Int) ≤ threads →
      s'.on = true ∧ s'.blocked = true ∧ s'.reg = s.reg ∧ fs = (s.reg.filter (fun k => !s.up k)).map (fun k => .init k (!fail.contains k)) ∧ ∀ k ∈ s.reg, s'.up k = (s.up k || !fail.contains k)) ∧
    (s.on = true → s' = s ∧ fs = []) ∧ (s.on = false → threads ≤ 0 ∨ threads < s.contexts → s'.on = false ∧ s'.blocked = false ∧ s'.reg = s.reg ∧ (∀ k, s'.up k = s.up k) ∧ fs = s.reg.map .finalize) := by
  have hi := Svcs.inv_run hr
  simp only [Svcs.step] at hs
  split at hs
  · rename_i hon
    cases hs
    exact ⟨by simp [hon], by simp, by simp [hon]⟩
  · rename_i hon
    split at hs
    · rename_i ht
      simp only [Option.some.injEq, Svcs.waitService, Svcs.all_final, Prod.mk.injEq] at hs
      obtain ⟨rfl, rfl⟩ := hs
      exact ⟨fun _ _ _ => by exfalso; omega, fun h => absurd h hon, fun _ _ => ⟨rfl, rfl, rfl, fun k => rfl, rfl⟩⟩
    · rename_i ht
      simp only [Option.some.injEq, Prod.mk.injEq] at hs
      have hd : s.doService threads fail = ((s.doService threads fail).1, fs) := by rw [← hs.2]
      obtain ⟨h1, _⟩ := C39_start (s' := (s.doService threads fail).1) (fs := fs) (threads := threads) (fail := fail) hr (by simp only [Svcs.step, if_neg hon]; rw [← hd])
      refine ⟨fun h2 h3 h4 => ?_, fun h => absurd h hon, fun _ h => by exfalso; omega⟩
      obtain ⟨g1, g2, g3, g4⟩ := h1 h2 h3 h4
      rw [← hs.1]
      exact ⟨g1, rfl, g2, g3, g4⟩

/-- **C39** (starting one): start_service(service) of a running pump initialises this service only, if it is not initialised yet; of a pump that is not running it starts the pump, like start_service. -/
theorem C39_start_one {n : Nat} {as : List SvcAct} {s s' : Svcs} {es fs : List SvcEv} {threads : Int} {fail : List Nat} {k : Nat} (hr : Svcs.Run (Svcs.init n) as s es) (hs : s.step (.startOne k threads fail) = some (s', fs)) :
    (s.on = true → s'.on = true ∧ s'.reg = s.reg ∧ fs = (if s.up k then [] else [.init k (!fail.contains k)]) ∧ ∀ j, s'.up j = if j = k then (s.up k || !fail.contains k) else s.up j) ∧
    (s.on = false → s.step (.start threads fail) = some (s', fs)) := by
  have hi := Svcs.inv_run hr
  simp only [Svcs.step] at hs ⊢
  split at hs
  · rename_i hx
    split at hs
    · rename_i hon
      simp only [Option.some.injEq, Prod.ext_iff] at hs
      refine ⟨fun _ => ?_, fun h => by rw [h] at hon; cases hon⟩
      have hsm := Svcs.startSvc_same fail s k
      rw [← hs.1, ← hs.2]
      refine ⟨hsm.2.1.trans hon, hsm.1, ?_, fun j => Svcs.startSvc_up fail (Svcs.exists_lt hx) j⟩
      unfold Svcs.startSvc
      split <;> rfl
    · rename_i hon
      exact ⟨fun h => absurd h hon, fun _ => by rw [if_neg hon]; exact hs⟩
  · cases hs

/-- **C39** (stopping): stop_service uninitialises exactly those registered services that are started, each once and in order of registration, then finalises every registered service in this order; afterwards none of them is started. If the pump is not
started it does nothing. -/
theorem C39_stop {n : Nat} {as : List SvcAct} {s s' : Svcs} {es fs : List SvcEv} (hr : Svcs.Run (Svcs.init n) as s es) (hs : s.step .stop = some (s', fs)) :
    (s.on = true → s'.on = false ∧ s'.reg = s.reg ∧ fs = (s.reg.filter s.up).map .uninit ++ s.reg.map .finalize ∧ ∀ k ∈ s.reg, s'.up k = false) ∧ (s.on = false → s' = s ∧ fs = []) := by
  have hi := Svcs.inv_run hr
  simp only [Svcs.step] at hs
  split at hs
  · cases hs
  · split at hs
    · rename_i hon
      refine ⟨fun _ => ?_, by simp [hon]⟩
      have hsm := Svcs.all_same Svcs.stopSvc_same s s.reg
      obtain ⟨h1, h2⟩ := Svcs.all_stop s s.reg (nodup_of_lt hi.order)
      simp only [Svcs.endService, if_pos hon, Svcs.waitService, Svcs.all_final, Option.some.injEq] at hs
      cases hs
      refine ⟨rfl, hsm.1, ?_, ?_⟩
      · rw [h1, hsm.1]
      · intro k hk
        have := h2 k
        rw [if_pos hk] at this
        exact this
    · rename_i hon
      cases hs
      exact ⟨by simp [hon], by simp⟩

/-- **C39** (end_service, for pumps blocked in run_service): uninitialises exactly the started registered services, in order; finalisation follows when run_service returns. -/
theorem C39_end {n : Nat} {as : List SvcAct} {s s' : Svcs} {es fs : List SvcEv} (hr : Svcs.Run (Svcs.init n) as s es) (hon : s.on = true) (hs : s.step .finish = some (s', fs)) :
    fs = (s.reg.filter s.up).map .uninit ∧ s'.on = true ∧ ∀ k ∈ s.reg, s'.up k = false := by
  have hi := Svcs.inv_run hr
  simp only [Svcs.step, Svcs.endService, if_pos hon, Option.some.injEq] at hs
  have hsm := Svcs.all_same Svcs.stopSvc_same s s.reg
  obtain ⟨h1, h2⟩ := Svcs.all_stop s s.reg (nodup_of_lt hi.order)
  rw [hs] at hsm h1 h2
  refine ⟨h1, hsm.2.1.trans hon, ?_⟩
  intro k hk
  have := h2 k
  rw [if_pos hk] at this
  exact this

/-- **C39** (removing): remove(pointer), remove(id) and clear() uninitialise exactly the services they take out that are started, in order of registration; the services left are not touched. remove(id) takes the first one registered with this id. -/
theorem C39_remove {n : Nat} {as : List SvcAct} {s s' : Svcs} {es fs : List SvcEv} (hr : Svcs.Run (Svcs.init n) as s es) :
    (∀ k, s.step (.removePtr k) = some (s', fs) → s'.reg = s.reg.filter (· != k) ∧ fs = (if s.up k then [.uninit k] else []) ∧ ∀ j, s'.up j = if j = k then false else s.up j) ∧
    (∀ id k, s.find id = some k → s.step (.removeId id) = s.step (.removePtr k)) ∧
    (s.step .clear = some (s', fs) → s'.reg = [] ∧ fs = (s.reg.filter s.up).map .uninit ∧ ∀ j, s'.up j = if j ∈ s.reg then false else s.up j) := by
  have hi := Svcs.inv_run hr
  refine ⟨?_, ?_, ?_⟩
  · intro k hs
    simp only [Svcs.step] at hs
    split at hs
    · simp only [Option.some.injEq, Svcs.takeOut] at hs
      have h1 := Svcs.stopSvc_same { s with reg := s.reg.filter (fun j => j != k) } k
      have h2 := Svcs.stopSvc_up { s with reg := s.reg.filter (fun j => j != k) } k
      have h3 : (Svcs.stopSvc { s with reg := s.reg.filter (fun j => j != k) } k).2 = if s.up k then [.uninit k] else [] := by
        simp only [Svcs.stopSvc]
        have : Svcs.up { s with reg := s.reg.filter (fun j => j != k) } k = s.up k := rfl
        rw [this]
        cases s.up k <;> rfl
      rw [hs] at h1 h2 h3
      exact ⟨h1.1, h3, h2⟩
    · cases hs
  · intro id k hf
    have he := hi.reg k (List.mem_of_find?_eq_some hf)
    simp only [Svcs.step, hf, he, if_pos]
  · intro hs
    simp only [Svcs.step, Option.some.injEq] at hs
    have h1 := Svcs.all_same Svcs.stopSvc_same { s with reg := [] } s.reg
    obtain ⟨h2, h3⟩ := Svcs.all_stop { s with reg := [] } s.reg (nodup_of_lt hi.order)
    rw [hs] at h1 h2 h3
    exact ⟨h1.1, h2, h3⟩

theorem Svcs.run_trans {s s1 s2 : Svcs} {as bs : List SvcAct} {es fs : List SvcEv} (h1 : Svcs.Run s as s1 es) (h2 : Svcs.Run s1 bs s2 fs) : Svcs.Run s (as ++ bs) s2 (es ++ fs) := by
  induction h2 with
  | nil => simpa using h1
  | snoc s2 s3 bs a fs fs' _ hb hs ih =>
    rw [← List.append_assoc, ← List.append_assoc]
    exact Svcs.Run.snoc _ _ _ _ _ _ _ ih hb hs

theorem Svcs.exec_run {s s' : Svcs} {as : List SvcAct} {es : List SvcEv} (h : Svcs.exec s as = some (s', es)) : Svcs.Run s as s' es := by
  induction as generalizing s es with
  | nil => simp [Svcs.exec] at h; obtain ⟨rfl, rfl⟩ := h; exact Svcs.Run.nil _
  | cons a as ih =>
    simp only [Svcs.exec, Option.bind_eq_bind] at h
    cases hb : s.bad with
    | true => simp [hb] at h
    | false =>
      simp only [hb, Bool.false_eq_true, if_false, Option.pure_def] at h
      rw [Option.bind_eq_some_iff] at h
      obtain ⟨⟨s1, e1⟩, h1, h2⟩ := h
      rw [Option.bind_eq_some_iff] at h2
      obtain ⟨⟨s2, e2⟩, h2, h3⟩ := h2
      simp at h3
      obtain ⟨rfl, rfl⟩ := h3
      have := Svcs.Run.snoc _ _ _ _ _ _ _ (Svcs.Run.nil s) hb h1
      exact Svcs.run_trans (by simpa using this) (ih h2)

/-- A concrete history: three services, the second one fails to initialise and is started later; the pump is stopped and started again. -/
example : ∃ s es, Svcs.Run (Svcs.init 1) [.create 1, .create 2, .create 3, .start 4 [1], .startOne 1 4 [], .removeId 3, .stop, .start 1 []] s es ∧
    es = [.init 0 true, .init 1 false, .init 2 true, .init 1 true, .uninit 2, .uninit 0, .uninit 1, .finalize 0, .finalize 1, .init 0 true, .init 1 true] :=
  ⟨_, _, Svcs.exec_run rfl, by decide⟩

/-! ### where C39 is false -/

/-- If run_service returns because all io_contexts have run out of work, the services are finalised without being uninitialised and still count as started: the next run_service does not initialise them. -/
theorem C39_fails_auto_end : ∃ (as : List SvcAct) (s : Svcs) (es : List SvcEv), Svcs.Run (Svcs.init 1) as s es ∧ as = [.create 1, .run 4 [], .runEnd, .run 4 []] ∧ s.on = true ∧ es = [.init 0 true, .finalize 0] :=
  ⟨_, _, _, Svcs.exec_run rfl, rfl, by decide, by decide⟩

/-- run_service with too few threads starts nothing but finalises the services. -/
theorem C39_fails_finalize : ∃ (as : List SvcAct) (s : Svcs) (es : List SvcEv), Svcs.Run (Svcs.init 2) as s es ∧ as = [.create 1, .run 1 []] ∧ es = [.finalize 0] :=
  ⟨_, _, _, Svcs.exec_run rfl, rfl, by decide⟩

/-- A service that has been removed can be started again while the pump is started, and no stop of the pump uninitialises it. -/
theorem C39_fails_removed : ∃ (as : List SvcAct) (s : Svcs) (es : List SvcEv), Svcs.Run (Svcs.init 1) as s es ∧ as = [.create 1, .start 4 [], .removePtr 0, .startOne 0 4 [], .stop] ∧ s.on = false ∧ s.up 0 = true :=
  ⟨_, _, _, Svcs.exec_run rfl, rfl, by decide, by decide⟩

/-- Destroying a started service calls a pure virtual function. -/
theorem C39_fails_destroy : ∃ (as : List SvcAct) (s : Svcs) (es : List SvcEv), Svcs.Run (Svcs.init 1) as s es ∧ as = [.create 1, .start 4 [], .destroy 0] ∧ s.bad = true :=
  ⟨_, _, _, Svcs.exec_run rfl, rfl, by decide⟩

/-- It is safe to destroy a registered service after stop_service(), as the comment at service_pump.h:295 promises. -/
theorem C39_destroy_after_stop {n : Nat} {as : List SvcAct} {s s' : Svcs} {es fs : List SvcEv} (hr : Svcs.Run (Svcs.init n) as s es) (hon : s.on = true) (hs : s.step .stop = some (s', fs)) {k : Nat} (hk : k ∈ s.reg) :
    ∃ s'', s'.step (.destroy k) = some (s'', []) ∧ s''.bad = s'.bad ∧ k ∉ s''.reg := by
  obtain ⟨_, h2, _, h4⟩ := (C39_stop hr hs).1 hon
  have hi := Svcs.inv_step (Svcs.inv_run hr) hs
  have hex := hi.reg k (by rw [h2]; exact hk)
  have e : s'.step (.destroy k) = some (({ s' with reg := s'.reg.filter (fun j => j != k), objs := s'.objs.modify k (fun o => { o with alive := false }) } : Svcs), []) := by
    simp only [Svcs.step, hex, if_pos, h4 k hk, Bool.false_eq_true, if_false]
  exact ⟨_, e, rfl, by simp⟩

end StAsio
