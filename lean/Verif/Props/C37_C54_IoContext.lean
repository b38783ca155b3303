import Verif.Spec.IoContext
/-!
C37: objects are spread over the io_contexts by the number of references, and the references are counted exactly. C54: every io_context gets a thread.
-/
set_option autoImplicit false
namespace StAsio

/-! ### the loop finds the first minimum -/

theorem pickLoop_aux (pre rs : List Nat) (cur : Nat) (best : Option Nat)
    (h : (pre = [] ∧ cur = 0 ∧ best = none) ∨ (∃ b : Nat, best = some b ∧ pre[b]? = some cur ∧ 0 < cur ∧ (∀ (j r : Nat), pre[j]? = some r → cur ≤ r) ∧ ∀ (j r : Nat), pre[j]? = some r → j < b → cur < r)) (hne : pre ++ rs ≠ []) :
    ∃ k m, pickLoop pre.length rs cur best = some k ∧ (pre ++ rs)[k]? = some m ∧ (∀ (j r : Nat), (pre ++ rs)[j]? = some r → m ≤ r) ∧ ∀ (j r : Nat), (pre ++ rs)[j]? = some r → j < k → m < r := by
  induction rs generalizing pre cur best with
  | nil =>
    rcases h with ⟨h, _⟩ | ⟨b, hb, h1, h2, h3, h4⟩
    · subst h; simp at hne
    · refine ⟨b, cur, ?_, ?_, ?_, ?_⟩
      · simp [pickLoop, hb]
      · simpa using h1
      · simpa using h3
      · simpa using h4
  | cons r rs ih =>
    have hr : (pre ++ r :: rs)[pre.length]? = some r := by simp
    simp only [pickLoop]
    by_cases hz : r = 0
    · subst hz
      refine ⟨pre.length, 0, by simp, hr, by simp, ?_⟩
      intro j x hj hlt
      rw [List.getElem?_append_left hlt] at hj
      rcases h with ⟨h, _⟩ | ⟨b, hb, h1, h2, h3, h4⟩
      · subst h; simp at hlt
      · have := h3 j x hj; omega
    · rw [if_neg hz]
      have e : pre ++ r :: rs = (pre ++ [r]) ++ rs := by simp
      have el : pre.length + 1 = (pre ++ [r]).length := by simp
      rw [e, el]
      apply ih _ _ _ _ (by simp)
      right
      have hlast : ∀ (j x : Nat), (pre ++ [r])[j]? = some x → pre[j]? = some x ∨ (j = pre.length ∧ x = r) := by
        intro j x hj
        by_cases hjl : j < pre.length
        · left; rw [List.getElem?_append_left hjl] at hj; exact hj
        · right
          rw [List.getElem?_append_right (by omega)] at hj
          have : j - pre.length = 0 := by
            apply Classical.byContradiction; intro c
            rw [List.getElem?_eq_none (by simp; omega)] at hj; cases hj
          rw [this] at hj
          simp at hj
          exact ⟨by omega, hj.symm⟩
      by_cases ht : r = 0 ∨ cur = 0 ∨ r < cur
      · rw [if_pos ht, if_pos ht]
        refine ⟨pre.length, rfl, by simp, by omega, ?_, ?_⟩
        · intro j x hj
          rcases hlast j x hj with hj | ⟨_, rfl⟩
          · rcases h with ⟨h, _⟩ | ⟨b, hb, h1, h2, h3, h4⟩
            · subst h; simp at hj
            · have := h3 j x hj; omega
          · omega
        · intro j x hj hlt
          rcases hlast j x hj with hj | ⟨h', rfl⟩
          · rcases h with ⟨h, _⟩ | ⟨b, hb, h1, h2, h3, h4⟩
            · subst h; simp at hj
            · have := h3 j x hj; omega
          · omega
      · rw [if_neg ht, if_neg ht]
        rcases h with ⟨_, h, _⟩ | ⟨b, hb, h1, h2, h3, h4⟩
        · omega
        · have hbl : b < pre.length := by
            apply Classical.byContradiction; intro c
            rw [List.getElem?_eq_none (by omega)] at h1; cases h1
          refine ⟨b, hb, by rw [List.getElem?_append_left hbl]; exact h1, h2, ?_, ?_⟩
          · intro j x hj
            rcases hlast j x hj with hj | ⟨h', rfl⟩
            · exact h3 j x hj
            · omega
          · intro j x hj hlt
            rcases hlast j x hj with hj | ⟨h', rfl⟩
            · exact h4 j x hj hlt
            · omega

theorem pickLoop_spec (l : List Nat) (h : l ≠ []) :
    ∃ k m, pickLoop 0 l 0 none = some k ∧ l[k]? = some m ∧ (∀ (j r : Nat), l[j]? = some r → m ≤ r) ∧ ∀ (j r : Nat), l[j]? = some r → j < k → m < r := by
  have := pickLoop_aux [] l 0 none (Or.inl ⟨rfl, rfl, rfl⟩) (by simpa using h)
  simpa using this

/-! ### C37 -/

/-- **C37** (least loaded): with multiple io_contexts, assign_io_context never throws and picks the first io_context with the least references; in single mode it is always the first. -/
theorem C37_least_loaded (s : IoPump) (h : s.refs ≠ []) :
    (s.single = true → s.pick = some 0) ∧
    (s.single = false → ∃ k m, s.pick = some k ∧ s.refs[k]? = some m ∧ (∀ (j r : Nat), s.refs[j]? = some r → m ≤ r) ∧ ∀ (j r : Nat), s.refs[j]? = some r → j < k → m < r) := by
  refine ⟨fun hs => by simp [IoPump.pick, hs], fun hs => ?_⟩
  have := pickLoop_spec s.refs h
  simpa [IoPump.pick, hs] using this

theorem bumpUp_get (l : List Nat) (i n j : Nat) : (bumpUp l i n)[j]? = (l[j]?).map (fun r => if j = i then (r + n) % 2 ^ 32 else r) := by
  simp only [bumpUp, List.getElem?_modify]
  by_cases h : i = j
  · subst h; simp
  · simp [h, Ne.symm h]

theorem bumpDown_get (l : List Nat) (i n j : Nat) : (bumpDown l i n)[j]? = (l[j]?).map (fun r => if j = i then (r + (2 ^ 32 - n % 2 ^ 32)) % 2 ^ 32 else r) := by
  simp only [bumpDown, List.getElem?_modify]
  by_cases h : i = j
  · subst h; simp
  · simp [h, Ne.symm h]

theorem refBalance_append (es fs : List IoEv) (i : Nat) : refBalance (es ++ fs) i = refBalance es i + refBalance fs i := by
  simp [refBalance]

theorem refBalance_nil (i : Nat) : refBalance [] i = 0 := rfl
theorem refBalance_assigned (k n i : Nat) : refBalance [.assigned k n] i = if k = i then (n : Int) else 0 := by simp [refBalance]
theorem refBalance_returned (k n i : Nat) : refBalance [.returned k n] i = if k = i then -(n : Int) else 0 := by simp [refBalance]

/-- What a step of the pump amounts to: references to one io_context taken or given back, or new io_contexts. -/
theorem IoPump.step_cases {s s' : IoPump} {a : IoAct} {fs : List IoEv} (hs : s.step a = some (s', fs)) :
    (s'.refs = s.refs ∧ s'.single = s.single ∧ fs = []) ∨
    (∃ i n, s'.single = s.single ∧ fs = [.assigned i n] ∧ s'.refs = if s.single then s.refs else bumpUp s.refs i n) ∨
    (∃ i n, s'.single = s.single ∧ fs = [.returned i n] ∧ s'.refs = if s.single then s.refs else bumpDown s.refs i n) ∨
    (∃ n, 0 < n ∧ s'.single = false ∧ fs = [] ∧ s'.refs = s.refs ++ List.replicate n 0 ∧ a = .addContexts n) := by
  have hass : ∀ (t : IoPump) i n, t.refs = s.refs → t.single = s.single → (t.assignTo i n).single = s.single ∧ (t.assignTo i n).refs = if s.single then s.refs else bumpUp s.refs i n := by
    intro t i n h1 h2
    simp only [IoPump.assignTo, h2]
    cases e : s.single <;> simp [h1, h2, e]
  have hret : ∀ (t : IoPump) i n, t.refs = s.refs → t.single = s.single → (t.returnTo i n).single = s.single ∧ (t.returnTo i n).refs = if s.single then s.refs else bumpDown s.refs i n := by
    intro t i n h1 h2
    simp only [IoPump.returnTo, h2]
    cases e : s.single <;> simp [h1, h2, e]
  have hadd : ∀ j n, s.add j n = some (s', fs) → (s'.refs = s.refs ∧ s'.single = s.single ∧ fs = []) ∨
      (∃ i n, s'.single = s.single ∧ fs = [.assigned i n] ∧ s'.refs = if s.single then s.refs else bumpUp s.refs i n) := by
    intro j n h
    simp only [IoPump.add] at h
    split at h
    · rename_i i r _
      split at h
      · cases h
        have := hass { s with objs := s.objs.set j (i, (r + n) % 2 ^ 32) } i n rfl rfl
        exact Or.inr ⟨i, n, this.1, rfl, this.2⟩
      · cases h; exact Or.inl ⟨rfl, rfl, rfl⟩
    · cases h
  have hsub : ∀ j n, s.sub j n = some (s', fs) → (s'.refs = s.refs ∧ s'.single = s.single ∧ fs = []) ∨
      (∃ i n, s'.single = s.single ∧ fs = [.returned i n] ∧ s'.refs = if s.single then s.refs else bumpDown s.refs i n) := by
    intro j n h
    simp only [IoPump.sub] at h
    split at h
    · rename_i i r _
      split at h
      · cases h
        have := hret { s with objs := s.objs.set j (i, r - n) } i n rfl rfl
        exact Or.inr ⟨i, n, this.1, rfl, this.2⟩
      · cases h; exact Or.inl ⟨rfl, rfl, rfl⟩
    · cases h
  cases a with
  | create =>
    simp only [IoPump.step] at hs
    split at hs
    · rename_i i _
      cases hs
      have := hass { s with objs := s.objs ++ [(i, 1)] } i 1 rfl rfl
      exact Or.inr (Or.inl ⟨i, 1, this.1, rfl, this.2⟩)
    · cases hs
  | look =>
    simp only [IoPump.step] at hs
    split at hs
    · cases hs; exact Or.inl ⟨rfl, rfl, rfl⟩
    · cases hs
  | addRefs j n =>
    rcases hadd _ _ hs with h | h
    · exact Or.inl h
    · exact Or.inr (Or.inl h)
  | subRefs j n =>
    rcases hsub _ _ hs with h | h
    · exact Or.inl h
    · exact Or.inr (Or.inr (Or.inl h))
  | clearRefs j =>
    simp only [IoPump.step] at hs
    split at hs
    · rcases hsub _ _ hs with h | h
      · exact Or.inl h
      · exact Or.inr (Or.inr (Or.inl h))
    · cases hs
  | resetRefs j =>
    simp only [IoPump.step] at hs
    split at hs
    · split at hs
      · rcases hadd _ _ hs with h | h
        · exact Or.inl h
        · exact Or.inr (Or.inl h)
      · cases hs; exact Or.inl ⟨rfl, rfl, rfl⟩
    · cases hs
  | userAssign i n =>
    simp only [IoPump.step] at hs
    split at hs
    · cases hs
      have := hass s i (n % 2 ^ 32) rfl rfl
      exact Or.inr (Or.inl ⟨i, _, this.1, rfl, this.2⟩)
    · cases hs
  | userReturn i n =>
    simp only [IoPump.step] at hs
    split at hs
    · cases hs
      have := hret s i (n % 2 ^ 32) rfl rfl
      exact Or.inr (Or.inr (Or.inl ⟨i, _, this.1, rfl, this.2⟩))
    · cases hs
  | addContexts n =>
    simp only [IoPump.step] at hs
    split at hs
    · cases hs; exact Or.inr (Or.inr (Or.inr ⟨n, by assumption, rfl, rfl, rfl, rfl⟩))
    · cases hs; exact Or.inl ⟨rfl, rfl, rfl⟩

theorem IoPump.balance_step {s s' : IoPump} {a : IoAct} {es fs : List IoEv} (hm : s.single = false) (hlen : ∀ i n, IoEv.assigned i n ∈ fs ∨ IoEv.returned i n ∈ fs → i < s.refs.length)
    (hz : ∀ i, s.refs.length ≤ i → refBalance es i = 0) (hb : ∀ i r : Nat, s.refs[i]? = some r → (r : Int) = refBalance es i % 2 ^ 32) (hs : s.step a = some (s', fs)) :
    s'.single = false ∧ (∀ i, s'.refs.length ≤ i → refBalance (es ++ fs) i = 0) ∧ ∀ i r : Nat, s'.refs[i]? = some r → (r : Int) = refBalance (es ++ fs) i % 2 ^ 32 := by
  rcases IoPump.step_cases hs with ⟨h1, h2, rfl⟩ | ⟨k, n, h2, rfl, h1⟩ | ⟨k, n, h2, rfl, h1⟩ | ⟨n, hn, h2, rfl, h1, _⟩
  · rw [h1, h2, List.append_nil]
    exact ⟨hm, hz, hb⟩
  · rw [hm] at h1 h2
    simp only [Bool.false_eq_true, if_false] at h1
    have hk := hlen k n (by simp)
    refine ⟨h2, ?_, ?_⟩
    · intro i hi
      rw [h1] at hi
      simp only [bumpUp, List.length_modify] at hi
      rw [refBalance_append, refBalance_assigned, hz i hi, if_neg (by omega)]; rfl
    · intro i r hr
      rw [h1, bumpUp_get] at hr
      rw [refBalance_append, refBalance_assigned]
      cases hx : s.refs[i]? with
      | none => rw [hx] at hr; cases hr
      | some r0 =>
        have := hb i r0 hx
        rw [hx] at hr
        simp only [Option.map_some, Option.some.injEq] at hr
        by_cases hik : i = k
        · rw [if_pos hik] at hr; rw [if_pos hik.symm]; omega
        · rw [if_neg hik] at hr; rw [if_neg (Ne.symm hik)]; omega
  · rw [hm] at h1 h2
    simp only [Bool.false_eq_true, if_false] at h1
    have hk := hlen k n (by simp)
    refine ⟨h2, ?_, ?_⟩
    · intro i hi
      rw [h1] at hi
      simp only [bumpDown, List.length_modify] at hi
      rw [refBalance_append, refBalance_returned, hz i hi, if_neg (by omega)]; rfl
    · intro i r hr
      rw [h1, bumpDown_get] at hr
      rw [refBalance_append, refBalance_returned]
      cases hx : s.refs[i]? with
      | none => rw [hx] at hr; cases hr
      | some r0 =>
        have := hb i r0 hx
        rw [hx] at hr
        simp only [Option.map_some, Option.some.injEq] at hr
        by_cases hik : i = k
        · rw [if_pos hik] at hr; rw [if_pos hik.symm]; omega
        · rw [if_neg hik] at hr; rw [if_neg (Ne.symm hik)]; omega
  · rw [List.append_nil]
    refine ⟨h2, ?_, ?_⟩
    · intro i hi
      rw [h1, List.length_append] at hi
      exact hz i (by omega)
    · intro i r hr
      rw [h1] at hr
      by_cases hi : i < s.refs.length
      · rw [List.getElem?_append_left hi] at hr
        exact hb i r hr
      · rw [List.getElem?_append_right (by omega), List.getElem?_replicate] at hr
        split at hr
        · cases hr
          rw [hz i (by omega)]; rfl
        · cases hr

/-! ### what the objects hold -/

theorem heldRefs_append (l : List (Nat × Nat)) (p : Nat × Nat) (i : Nat) : heldRefs (l ++ [p]) i = heldRefs l i + if p.1 = i then p.2 else 0 := by
  simp [heldRefs]

theorem heldRefs_set {l : List (Nat × Nat)} {j k r : Nat} (h : l[j]? = some (k, r)) (r' i : Nat) :
    heldRefs (l.set j (k, r')) i + (if k = i then r else 0) = heldRefs l i + (if k = i then r' else 0) := by
  induction l generalizing j with
  | nil => simp at h
  | cons p l ih =>
    cases j with
    | zero => simp at h; subst h; simp [heldRefs]; omega
    | succ j =>
      simp at h
      have := ih h
      simp only [heldRefs, List.set_cons_succ, List.map_cons, List.sum_cons] at this ⊢
      omega

/-- Only the objects' references are counted, no direct calls by the user. -/
def IoAct.byObject : IoAct → Bool
  | .userAssign _ _ => false
  | .userReturn _ _ => false
  | _ => true

structure IoPump.Held (s : IoPump) (es : List IoEv) : Prop where
  onCtx : ∀ p ∈ s.objs, p.1 < s.refs.length ∧ p.2 < 2 ^ 32
  bal : ∀ i, (heldRefs s.objs i : Int) % 2 ^ 32 = refBalance es i % 2 ^ 32

theorem IoPump.pick_lt {s : IoPump} (h : s.refs ≠ []) {k : Nat} (hp : s.pick = some k) : k < s.refs.length := by
  cases hsg : s.single with
  | true =>
    rw [(C37_least_loaded s h).1 hsg] at hp
    cases hp
    exact List.length_pos_iff.2 h
  | false =>
    obtain ⟨k', m, h1, h2, _⟩ := (C37_least_loaded s h).2 hsg
    rw [h1] at hp
    cases hp
    apply Classical.byContradiction
    intro c
    rw [List.getElem?_eq_none (by omega)] at h2
    cases h2

theorem IoPump.assignTo_len (s : IoPump) (i n : Nat) : (s.assignTo i n).refs.length = s.refs.length := by
  simp only [IoPump.assignTo]; split <;> simp [bumpUp]

theorem IoPump.returnTo_len (s : IoPump) (i n : Nat) : (s.returnTo i n).refs.length = s.refs.length := by
  simp only [IoPump.returnTo]; split <;> simp [bumpDown]

theorem IoPump.assignTo_objs (s : IoPump) (i n : Nat) : (s.assignTo i n).objs = s.objs := by
  simp only [IoPump.assignTo]; split <;> rfl

theorem IoPump.returnTo_objs (s : IoPump) (i n : Nat) : (s.returnTo i n).objs = s.objs := by
  simp only [IoPump.returnTo]; split <;> rfl

theorem IoPump.add_held {s s' : IoPump} {es fs : List IoEv} {j n : Nat} (hh : s.Held es) (hs : s.add j n = some (s', fs)) : s'.Held (es ++ fs) ∧ s'.refs.length = s.refs.length := by
  simp only [IoPump.add] at hs
  split at hs
  · rename_i i r hj
    split at hs
    · cases hs
      refine ⟨⟨?_, ?_⟩, by rw [IoPump.assignTo_len]⟩
      · rw [IoPump.assignTo_objs, IoPump.assignTo_len]
        intro p hp
        rcases List.mem_or_eq_of_mem_set hp with hp | rfl
        · exact hh.onCtx p hp
        · exact ⟨(hh.onCtx _ (List.mem_of_getElem? hj)).1, Nat.mod_lt _ (by decide)⟩
      · intro k
        rw [IoPump.assignTo_objs, refBalance_append, refBalance_assigned]
        have h1 := heldRefs_set hj ((r + n) % 2 ^ 32) k
        have h2 := hh.bal k
        simp only
        by_cases hik : i = k
        · rw [if_pos hik] at h1 ⊢; rw [if_pos hik] at h1; omega
        · rw [if_neg hik] at h1 ⊢; rw [if_neg hik] at h1; omega
    · cases hs; rw [List.append_nil]; exact ⟨hh, rfl⟩
  · cases hs

theorem IoPump.sub_held {s s' : IoPump} {es fs : List IoEv} {j n : Nat} (hh : s.Held es) (hs : s.sub j n = some (s', fs)) : s'.Held (es ++ fs) ∧ s'.refs.length = s.refs.length := by
  simp only [IoPump.sub] at hs
  split at hs
  · rename_i i r hj
    split at hs
    · rename_i hn
      cases hs
      have hr := hh.onCtx _ (List.mem_of_getElem? hj)
      refine ⟨⟨?_, ?_⟩, by rw [IoPump.returnTo_len]⟩
      · rw [IoPump.returnTo_objs, IoPump.returnTo_len]
        intro p hp
        rcases List.mem_or_eq_of_mem_set hp with hp | rfl
        · exact hh.onCtx p hp
        · exact ⟨hr.1, by simp only at hr ⊢; omega⟩
      · intro k
        rw [IoPump.returnTo_objs, refBalance_append, refBalance_returned]
        have h1 := heldRefs_set hj (r - n) k
        have h2 := hh.bal k
        simp only
        by_cases hik : i = k
        · rw [if_pos hik] at h1 ⊢; rw [if_pos hik] at h1; omega
        · rw [if_neg hik] at h1 ⊢; rw [if_neg hik] at h1; omega
    · cases hs; rw [List.append_nil]; exact ⟨hh, rfl⟩
  · cases hs

theorem IoPump.held_step {s s' : IoPump} {a : IoAct} {es fs : List IoEv} (hne : s.refs ≠ []) (hh : s.Held es) (ha : a.byObject = true) (hs : s.step a = some (s', fs)) : s'.Held (es ++ fs) ∧ s.refs.length ≤ s'.refs.length := by
  have le : ∀ {x y : Nat}, x = y → y ≤ x := by intro x y h; omega
  cases a with
  | create =>
    simp only [IoPump.step] at hs
    split at hs
    · rename_i i hp
      cases hs
      have hi := IoPump.pick_lt hne hp
      refine ⟨⟨?_, ?_⟩, by rw [IoPump.assignTo_len]; exact Nat.le_refl _⟩
      · rw [IoPump.assignTo_objs, IoPump.assignTo_len]
        intro p hp
        rcases List.mem_append.1 hp with hp | hp
        · exact hh.onCtx p hp
        · simp at hp; subst hp; exact ⟨hi, by show 1 < 2 ^ 32; decide⟩
      · intro k
        rw [IoPump.assignTo_objs, refBalance_append, refBalance_assigned, heldRefs_append]
        have h2 := hh.bal k
        by_cases hik : i = k
        · rw [if_pos hik, if_pos hik]; omega
        · rw [if_neg hik, if_neg hik]; omega
    · cases hs
  | look =>
    simp only [IoPump.step] at hs
    split at hs
    · cases hs; rw [List.append_nil]; exact ⟨hh, Nat.le_refl _⟩
    · cases hs
  | addRefs j n => obtain ⟨h1, h2⟩ := IoPump.add_held hh hs; exact ⟨h1, le h2⟩
  | subRefs j n => obtain ⟨h1, h2⟩ := IoPump.sub_held hh hs; exact ⟨h1, le h2⟩
  | clearRefs j =>
    simp only [IoPump.step] at hs
    split at hs
    · obtain ⟨h1, h2⟩ := IoPump.sub_held hh hs; exact ⟨h1, le h2⟩
    · cases hs
  | resetRefs j =>
    simp only [IoPump.step] at hs
    split at hs
    · split at hs
      · obtain ⟨h1, h2⟩ := IoPump.add_held hh hs; exact ⟨h1, le h2⟩
      · cases hs; rw [List.append_nil]; exact ⟨hh, Nat.le_refl _⟩
    · cases hs
  | userAssign i n => cases ha
  | userReturn i n => cases ha
  | addContexts n =>
    simp only [IoPump.step] at hs
    split at hs
    · cases hs
      rw [List.append_nil]
      refine ⟨⟨?_, hh.bal⟩, by simp⟩
      intro p hp
      have := hh.onCtx p hp
      simp only [List.length_append, List.length_replicate]
      omega
    · cases hs; rw [List.append_nil]; exact ⟨hh, Nat.le_refl _⟩

/-- Events concern existing io_contexts. -/
theorem IoPump.events_lt {s s' : IoPump} {a : IoAct} {fs : List IoEv} (hne : s.refs ≠ []) (ho : ∀ p ∈ s.objs, p.1 < s.refs.length) (hs : s.step a = some (s', fs)) :
    (∀ i n, IoEv.assigned i n ∈ fs ∨ IoEv.returned i n ∈ fs → i < s.refs.length) ∧ (∀ p ∈ s'.objs, p.1 < s'.refs.length) ∧ s'.refs ≠ [] := by
  have hpos := List.length_pos_iff.2 hne
  have ne_of_len : ∀ {t : IoPump}, s.refs.length ≤ t.refs.length → t.refs ≠ [] := by
    intro t h; apply List.length_pos_iff.1; omega
  have hadd : ∀ j n, s.add j n = some (s', fs) → (∀ i n, IoEv.assigned i n ∈ fs ∨ IoEv.returned i n ∈ fs → i < s.refs.length) ∧ (∀ p ∈ s'.objs, p.1 < s'.refs.length) ∧ s'.refs ≠ [] := by
    intro j n h
    simp only [IoPump.add] at h
    split at h
    · rename_i i r hj
      have hi := ho _ (List.mem_of_getElem? hj)
      split at h
      · cases h
        refine ⟨by simp; exact hi, ?_, ne_of_len (by rw [IoPump.assignTo_len]; exact Nat.le_refl _)⟩
        rw [IoPump.assignTo_objs, IoPump.assignTo_len]
        intro p hp
        rcases List.mem_or_eq_of_mem_set hp with hp | rfl
        · exact ho p hp
        · exact hi
      · cases h; exact ⟨by simp, ho, hne⟩
    · cases h
  have hsub : ∀ j n, s.sub j n = some (s', fs) → (∀ i n, IoEv.assigned i n ∈ fs ∨ IoEv.returned i n ∈ fs → i < s.refs.length) ∧ (∀ p ∈ s'.objs, p.1 < s'.refs.length) ∧ s'.refs ≠ [] := by
    intro j n h
    simp only [IoPump.sub] at h
    split at h
    · rename_i i r hj
      have hi := ho _ (List.mem_of_getElem? hj)
      split at h
      · cases h
        refine ⟨by simp; exact hi, ?_, ne_of_len (by rw [IoPump.returnTo_len]; exact Nat.le_refl _)⟩
        rw [IoPump.returnTo_objs, IoPump.returnTo_len]
        intro p hp
        rcases List.mem_or_eq_of_mem_set hp with hp | rfl
        · exact ho p hp
        · exact hi
      · cases h; exact ⟨by simp, ho, hne⟩
    · cases h
  cases a with
  | create =>
    simp only [IoPump.step] at hs
    split at hs
    · rename_i i hp
      cases hs
      have hi := IoPump.pick_lt hne hp
      refine ⟨by simp; exact hi, ?_, ne_of_len (by rw [IoPump.assignTo_len]; exact Nat.le_refl _)⟩
      rw [IoPump.assignTo_objs, IoPump.assignTo_len]
      intro p hp
      rcases List.mem_append.1 hp with hp | hp
      · exact ho p hp
      · simp at hp; subst hp; exact hi
    · cases hs
  | look =>
    simp only [IoPump.step] at hs
    split at hs
    · cases hs; exact ⟨by simp, ho, hne⟩
    · cases hs
  | addRefs j n => exact hadd _ _ hs
  | subRefs j n => exact hsub _ _ hs
  | clearRefs j => simp only [IoPump.step] at hs; split at hs; exact hsub _ _ hs; cases hs
  | resetRefs j =>
    simp only [IoPump.step] at hs
    split at hs
    · split at hs
      · exact hadd _ _ hs
      · cases hs; exact ⟨by simp, ho, hne⟩
    · cases hs
  | userAssign i n =>
    simp only [IoPump.step] at hs
    split at hs
    · rename_i hi
      cases hs
      refine ⟨by simp; exact hi, ?_, ne_of_len (by rw [IoPump.assignTo_len]; exact Nat.le_refl _)⟩
      rw [IoPump.assignTo_objs, IoPump.assignTo_len]; exact ho
    · cases hs
  | userReturn i n =>
    simp only [IoPump.step] at hs
    split at hs
    · rename_i hi
      cases hs
      refine ⟨by simp; exact hi, ?_, ne_of_len (by rw [IoPump.returnTo_len]; exact Nat.le_refl _)⟩
      rw [IoPump.returnTo_objs, IoPump.returnTo_len]; exact ho
    · cases hs
  | addContexts n =>
    simp only [IoPump.step] at hs
    split at hs
    · cases hs
      refine ⟨by simp, ?_, by simp [hne]⟩
      intro p hp
      have := ho p hp
      simp only [List.length_append, List.length_replicate]
      omega
    · cases hs; exact ⟨by simp, ho, hne⟩

/-- **C37** (exact accounting): with multiple io_contexts the reference number of every io_context is the number of references taken minus the number given back (as unsigned), after any sequence of calls. -/
theorem C37_balance {num : Nat} (hn : 0 < num) {as : List IoAct} {s : IoPump} {es : List IoEv} (hr : IoPump.Run (IoPump.init num true) as s es) {i r : Nat} (hi : s.refs[i]? = some r) : (r : Int) = refBalance es i % 2 ^ 32 := by
  suffices h : s.single = false ∧ s.refs ≠ [] ∧ (∀ p ∈ s.objs, p.1 < s.refs.length) ∧ (∀ i, s.refs.length ≤ i → refBalance es i = 0) ∧ ∀ i r : Nat, s.refs[i]? = some r → (r : Int) = refBalance es i % 2 ^ 32 from h.2.2.2.2 i r hi
  clear hi
  generalize h0 : IoPump.init num true = s0 at hr
  induction hr with
  | nil =>
    subst h0
    refine ⟨rfl, by simp [IoPump.init]; omega, by simp [IoPump.init], by simp [refBalance], ?_⟩
    intro i r h
    simp only [IoPump.init, List.getElem?_replicate] at h
    split at h
    · cases h; rfl
    · cases h
  | snoc s1 s2 as a es fs _ hs ih =>
    obtain ⟨h1, h2, h3, h4, h5⟩ := ih
    obtain ⟨e1, e2, e3⟩ := IoPump.events_lt h2 h3 hs
    obtain ⟨g1, g2, g3⟩ := IoPump.balance_step h1 e1 h4 h5 hs
    exact ⟨g1, e3, e2, g2, g3⟩

/-- **C37** (what the numbers mean): if the references are managed by the objects only, the number of an io_context is the number of references held by the objects on it, as long as this is below 2^32. It never underflows. -/
theorem C37_objects {num : Nat} (hn : 0 < num) {as : List IoAct} {s : IoPump} {es : List IoEv} (hr : IoPump.Run (IoPump.init num true) as s es) (hu : ∀ a ∈ as, a.byObject = true) {i r : Nat} (hi : s.refs[i]? = some r)
    (hlt : heldRefs s.objs i < 2 ^ 32) : r = heldRefs s.objs i := by
  have h1 := C37_balance hn hr hi
  suffices h : s.Held es ∧ s.refs ≠ [] by
    have h2 := h.1.bal i
    omega
  clear hi hlt h1
  generalize h0 : IoPump.init num true = s0 at hr
  induction hr with
  | nil =>
    subst h0
    exact ⟨⟨by simp [IoPump.init], by simp [IoPump.init, heldRefs, refBalance]⟩, by simp [IoPump.init]; omega⟩
  | snoc s1 s2 as a es fs _ hs ih =>
    obtain ⟨h1, h2⟩ := ih (fun a ha => hu a (List.mem_append_left _ ha))
    obtain ⟨g1, g2⟩ := IoPump.held_step h2 h1 (hu a (by simp)) hs
    refine ⟨g1, ?_⟩
    have := List.length_pos_iff.2 h2
    apply List.length_pos_iff.1
    omega

/-- **C37** (single io_context): nothing is counted. -/
theorem C37_single {num : Nat} {as : List IoAct} {s : IoPump} {es : List IoEv} (hr : IoPump.Run (IoPump.init num false) as s es) (hc : ∀ n, 0 < n → IoAct.addContexts n ∉ as) : s.single = true ∧ s.refs = List.replicate num 0 := by
  generalize h0 : IoPump.init num false = s0 at hr
  induction hr with
  | nil => subst h0; exact ⟨rfl, rfl⟩
  | snoc s1 s2 as a es fs _ hs ih =>
    obtain ⟨h1, h2⟩ := ih (fun n hn c => hc n hn (List.mem_append_left _ c))
    rcases IoPump.step_cases hs with ⟨h3, h4, _⟩ | ⟨k, n, h4, _, h3⟩ | ⟨k, n, h4, _, h3⟩ | ⟨n, hn, h4, _, h3, h5⟩
    · rw [h3, h4]; exact ⟨h1, h2⟩
    · rw [h1] at h3 h4; simp only [if_pos] at h3; rw [h3]; exact ⟨h4, h2⟩
    · rw [h1] at h3 h4; simp only [if_pos] at h3; rw [h3]; exact ⟨h4, h2⟩
    · exact absurd (by rw [h5]; simp) (hc n hn)

theorem IoPump.run_trans {s s1 s2 : IoPump} {as bs : List IoAct} {es fs : List IoEv} (h1 : IoPump.Run s as s1 es) (h2 : IoPump.Run s1 bs s2 fs) : IoPump.Run s (as ++ bs) s2 (es ++ fs) := by
  induction h2 with
  | nil => simpa using h1
  | snoc s2 s3 bs a fs fs' _ hs ih =>
    rw [← List.append_assoc, ← List.append_assoc]
    exact IoPump.Run.snoc _ _ _ _ _ _ _ ih hs

theorem IoPump.exec_run {s s' : IoPump} {as : List IoAct} {es : List IoEv} (h : IoPump.exec s as = some (s', es)) : IoPump.Run s as s' es := by
  induction as generalizing s es with
  | nil => simp [IoPump.exec] at h; obtain ⟨rfl, rfl⟩ := h; exact IoPump.Run.nil _
  | cons a as ih =>
    simp only [IoPump.exec, Option.bind_eq_bind] at h
    rw [Option.bind_eq_some_iff] at h
    obtain ⟨⟨s1, e1⟩, h1, h2⟩ := h
    rw [Option.bind_eq_some_iff] at h2
    obtain ⟨⟨s2, e2⟩, h2, h3⟩ := h2
    simp at h3
    obtain ⟨rfl, rfl⟩ := h3
    have := IoPump.Run.snoc _ _ _ _ _ _ _ (IoPump.Run.nil s) h1
    exact IoPump.run_trans (by simpa using this) (ih h2)

/-- The accounting is wrong if add_service_thread turns a pump with a single io_context into one with several: references taken before were not counted, but giving them back is. Here the first io_context ends up with 2^32 - 1
references although nothing is on it. -/
theorem C37_fails_switch : ∃ (as : List IoAct) (s : IoPump) (es : List IoEv), IoPump.Run (IoPump.init 1 false) as s es ∧ (∀ a ∈ as, a.byObject = true) ∧ heldRefs s.objs 0 = 0 ∧ s.refs = [2 ^ 32 - 1, 0] :=
  ⟨_, _, _, IoPump.exec_run (as := [.create, .addContexts 1, .clearRefs 0]) rfl, by decide, by decide, by decide⟩

/-- A concrete run: three objects on two io_contexts, one of them with additional references, one finished. -/
example : ∃ s es, IoPump.Run (IoPump.init 2 true) [.create, .create, .create, .addRefs 1 3, .clearRefs 2] s es ∧ s.refs = [1, 4] ∧ s.pick = some 0 :=
  ⟨_, _, IoPump.exec_run rfl, by decide, by decide⟩

/-! ### C54 -/

theorem addThreads_len {n : Nat} {t t' : List Nat} (h : addThreads n t = some t') : t'.length = t.length ∧ t'.sum = t.sum + n := by
  induction n generalizing t with
  | zero => simp [addThreads] at h; subst h; simp
  | succ n ih =>
    simp only [addThreads] at h
    split at h
    · rename_i i hi
      obtain ⟨h1, h2⟩ := ih h
      by_cases hne : t = []
      · subst hne; simp [pickLoop] at hi
      obtain ⟨k, m, hk, hm, _⟩ := pickLoop_spec t hne
      rw [hk] at hi
      cases hi
      have hsum : ∀ (l : List Nat) (k m : Nat), l[k]? = some m → (l.modify k (· + 1)).sum = l.sum + 1 := by
        intro l
        induction l with
        | nil => intro k m h; simp at h
        | cons a l ih =>
          intro k m h
          cases k with
          | zero => simp; omega
          | succ k => simp at h; have := ih k m h; simp only [List.modify_succ_cons, List.sum_cons]; omega
      rw [h1, h2, hsum t _ m hm]
      simp; omega
    · cases h

/-- **C54** (threads are balanced): threads distributed over idle io_contexts differ by one at most. -/
theorem C54_balanced {n : Nat} {t t' : List Nat} (h : addThreads n t = some t') (hb : ∀ i j x y : Nat, t[i]? = some x → t[j]? = some y → x ≤ y + 1) : ∀ i j x y : Nat, t'[i]? = some x → t'[j]? = some y → x ≤ y + 1 := by
  induction n generalizing t with
  | zero => simp [addThreads] at h; subst h; exact hb
  | succ n ih =>
    simp only [addThreads] at h
    split at h
    · rename_i k hk
      refine ih h ?_
      by_cases hne : t = []
      · subst hne; simp [pickLoop] at hk
      obtain ⟨k', m, hk', hm, hmin, _⟩ := pickLoop_spec t hne
      rw [hk'] at hk
      cases hk
      intro i j x y hx hy
      rw [List.getElem?_modify] at hx hy
      cases hxi : t[i]? with
      | none => rw [hxi] at hx; cases hx
      | some x0 =>
        cases hyj : t[j]? with
        | none => rw [hyj] at hy; cases hy
        | some y0 =>
          rw [hxi] at hx
          rw [hyj] at hy
          have h1 := hmin i x0 hxi
          have h2 := hmin j y0 hyj
          have h3 := hb i j x0 y0 hxi hyj
          by_cases e1 : k = i <;> by_cases e2 : k = j <;> simp [e1, e2] at hx hy <;> grind
    · cases h

/-- **C54** (no io_context is left without a thread): if at least as many threads are added as there are io_contexts without one, every io_context has a thread afterwards. -/
theorem C54_served {n : Nat} {t t' : List Nat} (h : addThreads n t = some t') (hn : t.count 0 ≤ n) : ∀ x ∈ t', 0 < x := by
  induction n generalizing t with
  | zero =>
    simp [addThreads] at h; subst h
    intro x hx
    apply Nat.pos_of_ne_zero
    rintro rfl
    have := List.count_pos_iff.2 hx
    omega
  | succ n ih =>
    simp only [addThreads] at h
    split at h
    · rename_i k hk
      refine ih h ?_
      by_cases hne : t = []
      · subst hne; simp [pickLoop] at hk
      obtain ⟨k', m, hk', hm, hmin, _⟩ := pickLoop_spec t hne
      rw [hk'] at hk
      cases hk
      have hcount : ∀ (l : List Nat) (k m : Nat), l[k]? = some m → (l.modify k (· + 1)).count 0 + (if m = 0 then 1 else 0) = l.count 0 := by
        intro l
        induction l with
        | nil => intro k m h; simp at h
        | cons a l ih =>
          intro k m h
          cases k with
          | zero => simp at h; subst h; simp [List.count_cons]
          | succ k => simp at h; have := ih k m h; simp only [List.modify_succ_cons, List.count_cons]; omega
      have := hcount t _ m hm
      by_cases hm0 : m = 0
      · rw [if_pos hm0] at this; omega
      · rw [if_neg hm0] at this
        have : t.count 0 = 0 := by
          rw [List.count_eq_zero]
          intro c
          obtain ⟨j, hj⟩ := List.mem_iff_getElem?.1 c
          have := hmin j 0 hj
          omega
        omega
    · cases h

/-- **C54** (start): do_service refuses fewer threads than io_contexts (service_pump.h:382), so after it every io_context has a thread, and the distribution always succeeds. -/
theorem C54_start {contexts threads : Nat} (hc : 0 < contexts) (ht : contexts ≤ threads) : ∃ t', addThreads threads (List.replicate contexts 0) = some t' ∧ t'.length = contexts ∧ t'.sum = threads ∧ ∀ x ∈ t', 0 < x := by
  have hsome : ∀ n (t : List Nat), t ≠ [] → ∃ t', addThreads n t = some t' := by
    intro n
    induction n with
    | zero => intro t _; exact ⟨t, rfl⟩
    | succ n ih =>
      intro t hne
      obtain ⟨k, m, hk, _⟩ := pickLoop_spec t hne
      simp only [addThreads, hk]
      apply ih
      intro c
      have : (t.modify k (· + 1)).length = 0 := by rw [c]; rfl
      rw [List.length_modify] at this
      exact hne (List.length_eq_zero_iff.1 this)
  obtain ⟨t', h⟩ := hsome threads (List.replicate contexts 0) (by simp; omega)
  obtain ⟨h1, h2⟩ := addThreads_len h
  exact ⟨t', h, by simpa using h1, by simpa using h2, C54_served h (by simp; omega)⟩

/-- Five threads on three io_contexts. -/
example : addThreads 5 [0, 0, 0] = some [2, 2, 1] := by decide

end StAsio
