import Verif.Spec.ObjectPool
set_option autoImplicit false
namespace StAsio

/-! ### the map -/

theorem canFind_erase (m : List (Nat × Nat)) (k k' : Nat) : canFind (canErase m k) k' = if k' = k then none else canFind m k' := by
  simp only [canFind, canErase]
  induction m with
  | nil => simp
  | cons p m ih =>
    simp only [List.filter_cons]
    by_cases h : p.1 = k <;> by_cases h' : p.1 = k' <;> grind

theorem any_key (m : List (Nat × Nat)) (k : Nat) : m.any (fun p => p.1 == k) = true ↔ k ∈ m.map (·.1) := by
  simp

theorem canFind_none (m : List (Nat × Nat)) (k : Nat) : canFind m k = none ↔ k ∉ m.map (·.1) := by
  simp only [canFind, Option.map_eq_none_iff, List.find?_eq_none]
  grind

theorem canFind_append (m : List (Nat × Nat)) (k o k' : Nat) (h : k ∉ m.map (·.1)) : canFind (m ++ [(k, o)]) k' = if k' = k then some o else canFind m k' := by
  simp only [canFind]
  induction m with
  | nil => grind
  | cons p m ih =>
    simp only [List.map_cons, List.mem_cons, not_or] at h
    have := ih h.2
    simp only [List.cons_append, List.find?_cons]
    grind

theorem canFind_some {m : List (Nat × Nat)} (hn : (m.map (·.1)).Nodup) (k o : Nat) : canFind m k = some o ↔ (k, o) ∈ m := by
  simp only [canFind]
  induction m with
  | nil => simp
  | cons p m ih =>
    simp only [List.map_cons, List.nodup_cons] at hn
    have := ih hn.2
    simp only [List.find?_cons]
    obtain ⟨k1, o1⟩ := p
    by_cases h : k1 = k
    · subst h
      simp only [beq_self_eq_true, Option.map_some, Option.some.injEq, List.mem_cons, Prod.mk.injEq, true_and]
      constructor
      · intro h; exact Or.inl h.symm
      · rintro (h | h)
        · exact h.symm
        · exact absurd (List.mem_map_of_mem (f := (·.1)) h) hn.1
    · simp only [beq_eq_false_iff_ne.2 h, List.mem_cons, Prod.mk.injEq]
      rw [this]
      constructor
      · intro h; exact Or.inr h
      · rintro (h1 | h1)
        · exact absurd h1.1.symm h
        · exact h1

theorem mem_canErase (m : List (Nat × Nat)) (k : Nat) (p : Nat × Nat) : p ∈ canErase m k ↔ p ∈ m ∧ p.1 ≠ k := by
  simp [canErase]

theorem nodup_canErase {m : List (Nat × Nat)} (hn : (m.map (·.1)).Nodup) (k : Nat) : ((canErase m k).map (·.1)).Nodup :=
  List.Nodup.sublist (List.Sublist.map _ (List.filter_sublist)) hn

theorem canEmplace_cases (m : List (Nat × Nat)) (k o : Nat) : (k ∈ m.map (·.1) ∧ canEmplace m k o = (m, false)) ∨ (k ∉ m.map (·.1) ∧ canEmplace m k o = (m ++ [(k, o)], true)) := by
  unfold canEmplace
  by_cases h : k ∈ m.map (·.1)
  · left; rw [if_pos ((any_key m k).2 h)]; exact ⟨h, rfl⟩
  · right; rw [if_neg (fun c => h ((any_key m k).1 c))]; exact ⟨h, rfl⟩

theorem nodup_append_key {m : List (Nat × Nat)} (hn : (m.map (·.1)).Nodup) {k : Nat} (o : Nat) (h : k ∉ m.map (·.1)) : ((m ++ [(k, o)]).map (·.1)).Nodup := by
  rw [List.map_append, List.nodup_append]
  refine ⟨hn, by simp, ?_⟩
  intro a ha b hb
  simp at hb
  subst hb
  intro c
  exact h (c ▸ ha)

theorem canFind_filter {m : List (Nat × Nat)} (hn : (m.map (·.1)).Nodup) (f : Nat × Nat → Bool) (k : Nat) :
    canFind (m.filter (fun p => !f p)) k = if k ∈ (m.filter f).map (·.1) then none else canFind m k := by
  have hn' : ((m.filter (fun p => !f p)).map (·.1)).Nodup := List.Nodup.sublist (List.Sublist.map _ List.filter_sublist) hn
  split
  · rename_i h
    rw [canFind_none]
    intro h2
    simp only [List.mem_map, List.mem_filter] at h h2
    obtain ⟨p, ⟨hp, hpf⟩, hpk⟩ := h
    obtain ⟨q, ⟨hq, hqf⟩, hqk⟩ := h2
    have e1 := (canFind_some hn k p.2).2 (by rw [← hpk]; exact hp)
    have e2 := (canFind_some hn k q.2).2 (by rw [← hqk]; exact hq)
    have : p = q := by
      have : p.2 = q.2 := by rw [e1] at e2; exact Option.some.inj e2
      exact Prod.ext (hpk.trans hqk.symm) this
    subst this
    simp [hpf] at hqf
  · rename_i h
    cases hx : canFind m k with
    | none =>
      rw [canFind_none] at hx ⊢
      intro h2
      simp only [List.mem_map, List.mem_filter] at h2
      obtain ⟨q, ⟨hq, _⟩, hqk⟩ := h2
      exact hx (List.mem_map.2 ⟨q, hq, hqk⟩)
    | some o =>
      rw [canFind_some hn'] 
      rw [canFind_some hn] at hx
      refine List.mem_filter.2 ⟨hx, ?_⟩
      cases hf : f (k, o) with
      | false => rfl
      | true => exact absurd (List.mem_map.2 ⟨(k, o), List.mem_filter.2 ⟨hx, hf⟩, rfl⟩) h

/-! ### the directory -/

theorem directory_append_kicked (es : List PoolEv) (l : List (Nat × Nat)) (k : Nat) :
    directory (es ++ l.map (fun p => PoolEv.kicked p.2 p.1)) k = if k ∈ l.map (·.1) then none else directory es k := by
  induction l generalizing es with
  | nil => simp
  | cons p l ih =>
    have h := ih (es ++ [PoolEv.kicked p.2 p.1])
    rw [List.append_assoc] at h
    simp only [List.map_cons, List.mem_cons]
    rw [show es ++ PoolEv.kicked p.2 p.1 :: l.map (fun p => PoolEv.kicked p.2 p.1) = es ++ ([PoolEv.kicked p.2 p.1] ++ l.map (fun p => PoolEv.kicked p.2 p.1)) by simp, h]
    have e : directory (es ++ [PoolEv.kicked p.2 p.1]) k = if k = p.1 then none else directory es k := by
      simp only [directory, List.foldl_append, List.foldl_cons, List.foldl_nil, upd]
    rw [e]
    by_cases h1 : k ∈ l.map (·.1) <;> by_cases h2 : k = p.1 <;> simp [h1, h2]

theorem directory_append_neutral (es fs : List PoolEv) (h : ∀ f ∈ fs, (∃ o, f = PoolEv.freed o) ∨ (∃ o, f = PoolEv.reused o) ∨ (∃ o i, f = PoolEv.created o i) ∨ (∃ o, f = PoolEv.popped o) ∨ f = PoolEv.createFailed) :
    directory (es ++ fs) = directory es := by
  induction fs generalizing es with
  | nil => simp
  | cons f fs ih =>
    rw [show es ++ f :: fs = (es ++ [f]) ++ fs by simp, ih _ (fun g hg => h g (by simp [hg]))]
    have := h f (by simp)
    simp only [directory, List.foldl_append, List.foldl_cons, List.foldl_nil]
    rcases this with ⟨o, rfl⟩ | ⟨o, rfl⟩ | ⟨o, i, rfl⟩ | ⟨o, rfl⟩ | rfl <;> rfl

/-! ### free_object -/

theorem freeLoop_spec (s : Pool) (num : Nat) (kept l : List Nat) :
    (∀ o ∈ (freeLoop s num kept l).2, o ∈ kept ++ l) ∧ (∀ o ∈ (freeLoop s num kept l).1, o ∈ l) ∧ List.Sublist (freeLoop s num kept l).2 (kept ++ l) ∧ (freeLoop s num kept l).1.length ≤ num ∧
    (∀ x, (freeLoop s num kept l).1.count x + (freeLoop s num kept l).2.count x = kept.count x + l.count x) := by
  induction l generalizing num kept with
  | nil => cases num <;> simp [freeLoop]
  | cons o l ih =>
    cases num with
    | zero => simp [freeLoop]
    | succ n =>
      simp only [freeLoop]
      split
      · obtain ⟨h1, h2, h3, h4, h5⟩ := ih n kept
        have h6 : List.Sublist (kept ++ l) (kept ++ o :: l) := List.Sublist.append_left (List.sublist_cons_self _ _) _
        refine ⟨fun x hx => h6.subset (h1 x hx), ?_, h3.trans h6, by simp; omega, ?_⟩
        · intro x hx
          rcases List.mem_cons.1 hx with rfl | hx
          · simp
          · exact List.mem_cons_of_mem _ (h2 x hx)
        · intro x
          have := h5 x
          simp only [List.count_cons]
          omega
      · obtain ⟨h1, h2, h3, h4, h5⟩ := ih (n + 1) (kept ++ [o])
        simp only [List.append_assoc, List.singleton_append] at h1 h2 h3 h5
        refine ⟨h1, fun x hx => List.mem_cons_of_mem _ (h2 x hx), h3, h4, ?_⟩
        intro x
        have := h5 x
        simp only [List.count_cons, List.count_append, List.count_nil] at this ⊢
        omega

/-- Every freed object was in the list, unreferenced and obsoleted. -/
theorem freeLoop_dead (s : Pool) (num : Nat) (kept l : List Nat) : ∀ o ∈ (freeLoop s num kept l).1, o ∈ l ∧ s.obs o = true ∧ s.refs o = 0 ∧ o ∉ s.can.map (·.2) ∧ o ∉ s.moving ∧ o ∉ s.changing.map (·.2.2) := by
  induction l generalizing num kept with
  | nil => cases num <;> simp [freeLoop]
  | cons o l ih =>
    cases num with
    | zero => simp [freeLoop]
    | succ n =>
      simp only [freeLoop]
      split
      · rename_i h
        intro x hx
        rcases List.mem_cons.1 hx with rfl | hx
        · simp only [Pool.dead, Pool.count, Bool.and_eq_true, beq_iff_eq, List.count_append, List.count_cons_self] at h
          refine ⟨by simp, h.2, by omega, ?_, ?_, ?_⟩
          · intro c; have := List.count_pos_iff.2 c; omega
          · intro c; have := List.count_pos_iff.2 c; omega
          · intro c; have := List.count_pos_iff.2 c; omega
        · exact ⟨List.mem_cons_of_mem _ (ih n kept x hx).1, (ih n kept x hx).2⟩
      · intro x hx
        exact ⟨List.mem_cons_of_mem _ (ih _ _ x hx).1, (ih _ _ x hx).2⟩

/-! ### taking from the invalid list -/

theorem dead_spec {s : Pool} {o : Nat} (hm : o ∈ s.invalid) (h : s.dead o = true) :
    s.obs o = true ∧ s.refs o = 0 ∧ o ∉ s.can.map (·.2) ∧ o ∉ s.moving ∧ o ∉ s.changing.map (·.2.2) ∧ s.invalid.count o = 1 := by
  simp only [Pool.dead, Pool.count, Bool.and_eq_true, beq_iff_eq] at h
  have h1 := List.count_pos_iff.2 hm
  refine ⟨h.2, by omega, ?_, ?_, ?_, by omega⟩
  · intro c; have := List.count_pos_iff.2 c; omega
  · intro c; have := List.count_pos_iff.2 c; omega
  · intro c; have := List.count_pos_iff.2 c; omega

theorem popAny_spec {s s1 : Pool} {o : Nat} (h : s.popAny = some (o, s1)) : o ∈ s.invalid ∧ s.dead o = true ∧ s1 = { s with invalid := s.invalid.erase o } := by
  unfold Pool.popAny at h
  split at h
  · rename_i x hx
    simp only [Option.some.injEq, Prod.mk.injEq] at h
    obtain ⟨rfl, rfl⟩ := h
    exact ⟨List.mem_of_find?_eq_some hx, List.find?_some hx, rfl⟩
  · cases h

theorem popById_spec {s s1 : Pool} {o i : Nat} (h : s.popById i = some (o, s1)) : o ∈ s.invalid ∧ s.dead o = true ∧ s.id o = i ∧ s1 = { s with invalid := s.invalid.erase o } := by
  unfold Pool.popById at h
  split at h
  · rename_i x hx
    split at h
    · rename_i hd
      simp only [Option.some.injEq, Prod.mk.injEq] at h
      obtain ⟨rfl, rfl⟩ := h
      have := List.find?_some hx
      exact ⟨List.mem_of_find?_eq_some hx, hd, by simpa using this, rfl⟩
    · cases h
  · cases h

/-! ### runs -/

theorem Pool.run_trans {r : Bool} {s s1 s2 : Pool} {as bs : List PoolAct} {es fs : List PoolEv} (h1 : Pool.Run r s as s1 es) (h2 : Pool.Run r s1 bs s2 fs) : Pool.Run r s (as ++ bs) s2 (es ++ fs) := by
  induction h2 with
  | nil => simpa using h1
  | snoc s2 s3 bs a fs fs' _ hs ih =>
    rw [← List.append_assoc, ← List.append_assoc]
    exact Pool.Run.snoc _ _ _ _ _ _ _ ih hs

theorem Pool.run_one {r : Bool} {s s1 : Pool} {a : PoolAct} {es : List PoolEv} (h : s.step r a = some (s1, es)) : Pool.Run r s [a] s1 es := by
  have := Pool.Run.snoc _ _ _ _ _ _ _ (Pool.Run.nil (reuse := r) s) h
  simpa using this

theorem Pool.exec_run {r : Bool} {s s' : Pool} {as : List PoolAct} {es : List PoolEv} (h : Pool.exec r s as = some (s', es)) : Pool.Run r s as s' es := by
  induction as generalizing s es with
  | nil => simp [Pool.exec] at h; obtain ⟨rfl, rfl⟩ := h; exact Pool.Run.nil _
  | cons a as ih =>
    simp only [Pool.exec, Option.bind_eq_bind] at h
    rw [Option.bind_eq_some_iff] at h
    obtain ⟨⟨s1, e1⟩, h1, h2⟩ := h
    rw [Option.bind_eq_some_iff] at h2
    obtain ⟨⟨s2, e2⟩, h2, h3⟩ := h2
    simp at h3
    obtain ⟨rfl, rfl⟩ := h3
    exact Pool.run_trans (Pool.run_one h1) (ih h2)

theorem Pool.GoodRun.run {r : Bool} {P : Pool → PoolAct → Prop} {s s' : Pool} {as : List PoolAct} {es : List PoolEv} (h : Pool.GoodRun r P s as s' es) : Pool.Run r s as s' es := by
  induction h with
  | nil => exact Pool.Run.nil _
  | snoc s1 s2 as a es fs _ _ hs ih => exact Pool.Run.snoc _ _ _ _ _ _ _ ih hs

theorem Pool.GoodRun.mono {r : Bool} {P Q : Pool → PoolAct → Prop} (hpq : ∀ s a, P s a → Q s a) {s s' : Pool} {as : List PoolAct} {es : List PoolEv} (h : Pool.GoodRun r P s as s' es) : Pool.GoodRun r Q s as s' es := by
  induction h with
  | nil => exact Pool.GoodRun.nil _
  | snoc s1 s2 as a es fs _ hp hs ih => exact Pool.GoodRun.snoc _ _ _ _ _ _ _ ih (hpq _ _ hp) hs

/-! ### the basic invariant -/

structure Pool.Base (s : Pool) (es : List PoolEv) : Prop where
  known : ∀ o, s.live o → o < s.next
  held : ∀ o, (s.changing.map (·.1)).count o ≤ s.refs o
  keys : ∀ p ∈ s.can, s.id p.2 = p.1
  nodup : (s.can.map (·.1)).Nodup
  dir : ∀ k, canFind s.can k = directory es k

theorem Pool.initObjectId_cases (s : Pool) (o i : Nat) :
    (s.id o = i ∧ s.initObjectId o i = (s, true)) ∨ (s.id o ≠ i ∧ i ∈ s.can.map (·.1) ∧ s.initObjectId o i = (s, false)) ∨
    (s.id o ≠ i ∧ i ∉ s.can.map (·.1) ∧ s.initObjectId o i = ({ s with can := canErase (s.can ++ [(i, o)]) (s.id o), id := upd s.id o i }, true)) := by
  simp only [Pool.initObjectId]
  by_cases h : s.id o = i
  · left; exact ⟨h, by rw [if_pos h]⟩
  · right
    rw [if_neg h]
    rcases canEmplace_cases s.can i o with ⟨h1, h2⟩ | ⟨h1, h2⟩
    · left; refine ⟨h, h1, ?_⟩; rw [h2]; simp
    · right; refine ⟨h, h1, ?_⟩; rw [h2]; simp

theorem Pool.initObjectId_base {s : Pool} {es : List PoolEv} (hb : s.Base es) (o i : Nat) (ho : 0 < s.refs o) :
    (s.initObjectId o i).1.Base (es ++ [.initCall o (s.id o) i (s.initObjectId o i).2]) := by
  obtain ⟨h1, h2, h3, h4, h5⟩ := hb
  rcases s.initObjectId_cases o i with ⟨h, e⟩ | ⟨h, hi, e⟩ | ⟨h, hi, e⟩
  · rw [e]
    refine ⟨h1, h2, h3, h4, ?_⟩
    intro k
    rw [h5]
    simp only [directory, List.foldl_append, List.foldl_cons, List.foldl_nil, if_pos h]
  · rw [e]
    refine ⟨h1, h2, h3, h4, ?_⟩
    intro k
    rw [h5]
    simp only [directory, List.foldl_append, List.foldl_cons, List.foldl_nil]
  · rw [e]
    refine ⟨?_, h2, ?_, nodup_canErase (nodup_append_key h4 o hi) _, ?_⟩
    · intro x hx
      simp only [Pool.live, List.mem_map, mem_canErase, List.mem_append, List.mem_singleton] at hx
      rcases hx with hx | ⟨p, ⟨hp | rfl, _⟩, rfl⟩ | hx | hx | hx
      · exact h1 x (Or.inl hx)
      · exact h1 _ (Or.inr (Or.inl (List.mem_map.2 ⟨p, hp, rfl⟩)))
      · exact h1 _ (Or.inl ho)
      · exact h1 x (Or.inr (Or.inr (Or.inl hx)))
      · exact h1 x (Or.inr (Or.inr (Or.inr (Or.inl hx))))
      · exact h1 x (Or.inr (Or.inr (Or.inr (Or.inr (List.mem_map.2 hx)))))
    · intro p hp
      simp only [mem_canErase, List.mem_append, List.mem_singleton] at hp
      obtain ⟨hp | rfl, hk⟩ := hp
      · have := h3 p hp
        simp only [upd]
        rw [if_neg, this]
        intro c
        exact hk (by rw [← this, c])
      · simp [upd]
    · intro k
      rw [canFind_erase, canFind_append _ _ _ _ hi, h5]
      simp only [directory, List.foldl_append, List.foldl_cons, List.foldl_nil, if_neg h, upd]

theorem count_eraseIdx_le (l : List Nat) (i x : Nat) : (l.eraseIdx i).count x ≤ l.count x := List.Sublist.count_le _ (List.eraseIdx_sublist l i)

theorem count_eraseIdx {l : List Nat} {i o : Nat} (h : l[i]? = some o) (x : Nat) : (l.eraseIdx i).count x + (if o = x then 1 else 0) = l.count x := by
  induction l generalizing i with
  | nil => simp at h
  | cons a l ih =>
    cases i with
    | zero => simp at h; subst h; simp [List.count_cons]
    | succ i =>
      simp at h
      have := ih h
      simp only [List.eraseIdx_cons_succ, List.count_cons]
      omega

theorem map_eraseIdx' {α β : Type} (f : α → β) (l : List α) (i : Nat) : (l.eraseIdx i).map f = (l.map f).eraseIdx i := by
  induction l generalizing i with
  | nil => simp
  | cons a l ih => cases i <;> simp [ih]

theorem Pool.base_step {r : Bool} {s s' : Pool} {es fs : List PoolEv} {a : PoolAct} (hb : s.Base es) (hs : s.step r a = some (s', fs)) : s'.Base (es ++ fs) := by
  have hb0 := hb
  obtain ⟨h1, h2, h3, h4, h5⟩ := hb
  cases a with
  | create alloc =>
    simp only [Pool.step] at hs
    split at hs
    · rename_i o s1 hp
      cases r with
      | false => simp at hp
      | true =>
        simp only [if_pos] at hp
        obtain ⟨hm, hd, rfl⟩ := popAny_spec hp
        have hd := dead_spec hm hd
        cases hs
        refine ⟨?_, ?_, ?_, h4, ?_⟩
        · intro x hx
          apply h1
          simp only [Pool.initObject, Pool.live, upd] at hx ⊢
          have := List.mem_of_mem_erase (a := x) (b := o) (l := s.invalid)
          by_cases hxo : x = o
          · subst hxo; exact Or.inr (Or.inr (Or.inl hm))
          · grind
        · intro x
          have := h2 x
          simp only [Pool.initObject, upd]
          grind
        · intro p hp
          simp only [Pool.initObject, upd] at hp ⊢
          rw [if_neg]
          · exact h3 p hp
          · intro c
            exact hd.2.2.1 (List.mem_map.2 ⟨p, hp, c⟩)
        · intro k
          rw [directory_append_neutral _ _ (by simp)]
          exact h5 k
    · split at hs
      · cases hs
        refine ⟨?_, ?_, ?_, h4, ?_⟩
        · intro x hx
          simp only [Pool.initObject, Pool.live, upd] at hx ⊢
          have := h1 x
          simp only [Pool.live] at this
          grind
        · intro x
          have := h2 x
          simp only [Pool.initObject, upd]
          grind
        · intro p hp
          simp only [Pool.initObject, upd] at hp ⊢
          rw [if_neg]
          · exact h3 p hp
          · intro c
            have := h1 p.2 (Or.inr (Or.inl (List.mem_map.2 ⟨p, hp, rfl⟩)))
            omega
        · intro k
          rw [directory_append_neutral _ _ (by simp)]
          exact h5 k
      · cases hs
        refine ⟨h1, h2, h3, h4, ?_⟩
        intro k
        rw [directory_append_neutral _ _ (by simp)]
        exact h5 k
  | add o =>
    simp only [Pool.step] at hs
    split at hs
    · cases hs
    · rename_i hr
      split at hs
      · rcases canEmplace_cases s.can (s.id o) o with ⟨hi, e⟩ | ⟨hi, e⟩
        · rw [e] at hs
          cases hs
          refine ⟨h1, h2, h3, h4, ?_⟩
          intro k
          rw [h5]
          simp only [directory, List.foldl_append, List.foldl_cons, List.foldl_nil]
        · rw [e] at hs
          cases hs
          refine ⟨?_, h2, ?_, nodup_append_key h4 o hi, ?_⟩
          · intro x hx
            apply h1
            simp only [Pool.live] at hx ⊢
            simp only [List.map_append, List.mem_append] at hx
            grind
          · intro p hp
            simp only [List.mem_append, List.mem_singleton] at hp
            rcases hp with hp | rfl
            · exact h3 p hp
            · rfl
          · intro k
            simp only
            rw [canFind_append _ _ _ _ hi, h5]
            simp only [directory, List.foldl_append, List.foldl_cons, List.foldl_nil, upd]
      · cases hs
        refine ⟨h1, h2, h3, h4, ?_⟩
        intro k
        rw [h5]
        simp only [directory, List.foldl_append, List.foldl_cons, List.foldl_nil]
  | delObj o =>
    simp only [Pool.step] at hs
    split at hs
    · cases hs
    · rename_i hr
      split at hs
      · cases hs
        refine ⟨?_, h2, ?_, nodup_canErase h4 _, ?_⟩
        · intro x hx
          apply h1
          simp only [Pool.live, List.mem_map, mem_canErase, List.mem_append, List.mem_singleton] at hx ⊢
          grind
        · intro p hp
          simp only [mem_canErase] at hp
          exact h3 p hp.1
        · intro k
          simp only
          rw [canFind_erase, h5]
          simp only [directory, List.foldl_append, List.foldl_cons, List.foldl_nil, upd]
      · cases hs
        refine ⟨h1, h2, h3, h4, ?_⟩
        intro k
        rw [h5]
        simp only [directory, List.foldl_append, List.foldl_cons, List.foldl_nil]
  | delId i =>
    simp only [Pool.step] at hs
    split at hs
    · rename_i o hf
      cases hs
      refine ⟨?_, h2, ?_, nodup_canErase h4 _, ?_⟩
      · intro x hx
        apply h1
        rw [canFind_some h4] at hf
        simp only [Pool.live, List.mem_map, mem_canErase, List.mem_append, List.mem_singleton] at hx ⊢
        grind
      · intro p hp
        simp only [mem_canErase] at hp
        exact h3 p hp.1
      · intro k
        simp only
        rw [canFind_erase, h5]
        simp only [directory, List.foldl_append, List.foldl_cons, List.foldl_nil, upd]
    · cases hs
      refine ⟨h1, h2, h3, h4, ?_⟩
      intro k
      rw [h5]
      simp only [directory, List.foldl_append, List.foldl_cons, List.foldl_nil]
  | bury i hold =>
    simp only [Pool.step] at hs
    split at hs
    · rename_i o hi
      cases hs
      refine ⟨?_, h2, h3, h4, by simpa using h5⟩
      intro x hx
      apply h1
      have hm := List.mem_of_getElem? hi
      have he := (List.eraseIdx_sublist s.moving i).subset (a := x)
      simp only [Pool.live] at hx ⊢
      grind
    · cases hs
  | initId o i =>
    simp only [Pool.step] at hs
    split at hs
    · cases hs
    · rename_i hr
      cases hs
      exact Pool.initObjectId_base hb0 o i (by omega)
  | changeBegin o i =>
    simp only [Pool.step] at hs
    split at hs
    · cases hs
    · rename_i hr
      split at hs
      · rename_i old s1 hp
        obtain ⟨hm, hd, hid, rfl⟩ := popById_spec hp
        cases hs
        refine ⟨?_, ?_, h3, h4, ?_⟩
        · intro x hx
          apply h1
          have := List.mem_of_mem_erase (a := x) (b := old) (l := s.invalid)
          simp only [Pool.live, List.map_append, List.mem_append, upd] at hx ⊢
          grind
        · intro x
          have := h2 x
          simp only [List.map_append, List.count_append, upd, List.map_cons, List.map_nil, List.count_cons, List.count_nil]
          grind
        · intro k
          rw [directory_append_neutral _ _ (by simp)]
          exact h5 k
      · cases hs
        exact ⟨h1, h2, h3, h4, by simpa using h5⟩
  | changeEnd i =>
    simp only [Pool.step] at hs
    split at hs
    · rename_i o j old hi
      have hm := List.mem_of_getElem? hi
      have ho : 0 < s.refs o := by
        have := h2 o
        have : 0 < (s.changing.map (·.1)).count o := List.count_pos_iff.2 (List.mem_map.2 ⟨_, hm, rfl⟩)
        omega
      obtain ⟨g1, g2, g3, g4, g5⟩ := Pool.initObjectId_base hb0 o j ho
      have hfr : (s.initObjectId o j).1.refs = s.refs ∧ (s.initObjectId o j).1.invalid = s.invalid ∧ (s.initObjectId o j).1.moving = s.moving ∧ (s.initObjectId o j).1.changing = s.changing ∧ (s.initObjectId o j).1.next = s.next := by
        rcases s.initObjectId_cases o j with ⟨h, e⟩ | ⟨h, hi, e⟩ | ⟨h, hi, e⟩ <;> rw [e] <;> exact ⟨rfl, rfl, rfl, rfl, rfl⟩
      obtain ⟨f1, f2, f3, f4, f5⟩ := hfr
      have hcnt : ∀ x, ((s.changing.eraseIdx i).map (·.1)).count x + (if o = x then 1 else 0) = (s.changing.map (·.1)).count x := by
        intro x
        rw [map_eraseIdx']
        exact count_eraseIdx (by rw [List.getElem?_map, hi]; rfl) x
      have hheld : ∀ x, ((s.changing.eraseIdx i).map (·.1)).count x ≤ upd s.refs o (s.refs o - 1) x := by
        intro x
        have := h2 x
        have := hcnt x
        simp only [upd]
        grind
      have hsub : ∀ x, x ∈ (s.changing.eraseIdx i).map (·.2.2) → x ∈ s.changing.map (·.2.2) := by
        intro x hx
        exact (List.Sublist.map _ (List.eraseIdx_sublist s.changing i)).subset hx
      have hold : old ∈ s.changing.map (·.2.2) := List.mem_map.2 ⟨_, hm, rfl⟩
      split at hs
      · rename_i hok
        cases hs
        refine ⟨?_, hheld, g3, g4, ?_⟩
        · intro x hx
          simp only [Pool.live, upd] at hx g1 ⊢
          apply g1
          rw [f1, f2, f3, f4]
          rw [f2, f3] at hx
          have := hsub x
          grind
        · intro k
          rw [hok] at g5
          exact g5 k
      · rename_i hok
        cases hs
        refine ⟨?_, hheld, g3, g4, ?_⟩
        · intro x hx
          simp only [Pool.live, upd, List.mem_append, List.mem_singleton] at hx g1 ⊢
          apply g1
          rw [f1, f2, f3, f4]
          rw [f2, f3] at hx
          have := hsub x
          grind
        · intro k
          simp only [Bool.not_eq_true] at hok
          rw [hok] at g5
          exact g5 k
    · cases hs
  | clear =>
    simp only [Pool.step] at hs
    cases hs
    refine ⟨?_, h2, ?_, List.Nodup.sublist (List.Sublist.map _ List.filter_sublist) h4, ?_⟩
    · intro x hx
      apply h1
      simp only [Pool.live, List.mem_map, List.mem_append, List.mem_filter] at hx ⊢
      grind
    · intro p hp
      exact h3 p (List.mem_filter.1 hp).1
    · intro k
      simp only
      rw [canFind_filter h4, directory_append_kicked, h5]
  | free num =>
    simp only [Pool.step] at hs
    cases hs
    have hsp := freeLoop_spec s num [] s.invalid
    refine ⟨?_, h2, h3, h4, ?_⟩
    · intro x hx
      apply h1
      have := hsp.1 x
      simp only [Pool.live] at hx ⊢
      grind
    · intro k
      rw [directory_append_neutral _ _ (by intro f hf; obtain ⟨o, _, rfl⟩ := List.mem_map.1 hf; exact Or.inl ⟨o, rfl⟩)]
      exact h5 k
  | pop =>
    simp only [Pool.step] at hs
    split at hs
    · rename_i o s1 hp
      obtain ⟨hm, hd, rfl⟩ := popAny_spec hp
      cases hs
      refine ⟨?_, ?_, h3, h4, ?_⟩
      · intro x hx
        apply h1
        have := List.mem_of_mem_erase (a := x) (b := o) (l := s.invalid)
        simp only [Pool.live, upd] at hx ⊢
        grind
      · intro x
        have := h2 x
        simp only [upd]
        grind
      · intro k
        rw [directory_append_neutral _ _ (by simp)]
        exact h5 k
    · cases hs
      exact ⟨h1, h2, h3, h4, by simpa using h5⟩
  | popId i =>
    simp only [Pool.step] at hs
    split at hs
    · rename_i o s1 hp
      obtain ⟨hm, hd, _, rfl⟩ := popById_spec hp
      cases hs
      refine ⟨?_, ?_, h3, h4, ?_⟩
      · intro x hx
        apply h1
        have := List.mem_of_mem_erase (a := x) (b := o) (l := s.invalid)
        simp only [Pool.live, upd] at hx ⊢
        grind
      · intro x
        have := h2 x
        simp only [upd]
        grind
      · intro k
        rw [directory_append_neutral _ _ (by simp)]
        exact h5 k
    · cases hs
      exact ⟨h1, h2, h3, h4, by simpa using h5⟩
  | hold o =>
    simp only [Pool.step] at hs
    split at hs
    · cases hs
      refine ⟨?_, ?_, h3, h4, by simpa using h5⟩
      · intro x hx
        apply h1
        simp only [Pool.live, upd] at hx ⊢
        grind
      · intro x
        have := h2 x
        simp only [upd]
        grind
    · cases hs
  | drop o =>
    simp only [Pool.step] at hs
    split at hs
    · cases hs
      refine ⟨?_, ?_, h3, h4, by simpa using h5⟩
      · intro x hx
        apply h1
        simp only [Pool.live, upd] at hx ⊢
        grind
      · intro x
        have := h2 x
        simp only [upd]
        grind
    · cases hs
  | obsolete o b =>
    simp only [Pool.step] at hs
    cases hs
    exact ⟨h1, h2, h3, h4, by simpa using h5⟩
  | setMax n =>
    simp only [Pool.step] at hs
    cases hs
    exact ⟨h1, h2, h3, h4, by simpa using h5⟩
  | finalize =>
    simp only [Pool.step] at hs
    cases hs
    refine ⟨?_, h2, by simp, by simp, ?_⟩
    · intro x hx
      apply h1
      simp only [Pool.live] at hx ⊢
      grind
    · intro k
      simp [canFind, directory, List.foldl_append]

theorem Pool.run_base {r : Bool} {start m : Nat} {as : List PoolAct} {s : Pool} {es : List PoolEv} (hr : Pool.Run r (Pool.init start m) as s es) : s.Base es := by
  generalize h0 : Pool.init start m = s0 at hr
  induction hr with
  | nil => subst h0; exact ⟨by simp [Pool.live, Pool.init], by simp [Pool.init], by simp [Pool.init], by simp [Pool.init], by simp [canFind, directory, Pool.init]⟩
  | snoc s1 s2 as a es fs _ hs ih => exact Pool.base_step ih hs

/-! ### objects inside change_object_id -/

structure Pool.Chg (s : Pool) : Prop where
  chg : ∀ t ∈ s.changing, s.id t.2.2 = t.2.1 ∧ s.refs t.2.2 = 0 ∧ t.2.2 ∉ s.can.map (·.2) ∧ t.2.2 ∉ s.invalid ∧ t.2.2 ∉ s.moving
  one : (s.changing.map (·.2.2)).Nodup

theorem Pool.initObjectId_frame (s : Pool) (o j : Nat) : (s.initObjectId o j).1.refs = s.refs ∧ (s.initObjectId o j).1.invalid = s.invalid ∧ (s.initObjectId o j).1.moving = s.moving ∧ (s.initObjectId o j).1.changing = s.changing ∧
    (s.initObjectId o j).1.next = s.next ∧ (s.initObjectId o j).1.maxSize = s.maxSize ∧ (s.initObjectId o j).1.obs = s.obs ∧ (s.initObjectId o j).1.cur = s.cur ∧ (∀ x, x ≠ o → (s.initObjectId o j).1.id x = s.id x) ∧
    (∀ x, x ∈ (s.initObjectId o j).1.can.map (·.2) → x = o ∨ x ∈ s.can.map (·.2)) := by
  rcases s.initObjectId_cases o j with ⟨h, e⟩ | ⟨h, hi, e⟩ | ⟨h, hi, e⟩
  · rw [e]; simp; grind
  · rw [e]; simp; grind
  · rw [e]
    refine ⟨rfl, rfl, rfl, rfl, rfl, rfl, rfl, rfl, ?_, ?_⟩
    · intro x hx; simp [upd, hx]
    · intro x hx
      simp only [List.mem_map, mem_canErase, List.mem_append, List.mem_singleton] at hx
      obtain ⟨p, ⟨hp | rfl, _⟩, rfl⟩ := hx
      · exact Or.inr (List.mem_map.2 ⟨p, hp, rfl⟩)
      · exact Or.inl rfl

theorem Pool.chg_step {r : Bool} {s s' : Pool} {es fs : List PoolEv} {a : PoolAct} (hb : s.Base es) (hc : s.Chg) (hs : s.step r a = some (s', fs)) : s'.Chg := by
  obtain ⟨h1, h2, h3, h4, h5⟩ := hb
  obtain ⟨c1, c2⟩ := hc
  have hlt : ∀ t ∈ s.changing, t.2.2 < s.next := fun t ht => h1 _ (Or.inr (Or.inr (Or.inr (Or.inr (List.mem_map.2 ⟨t, ht, rfl⟩)))))
  cases a with
  | create alloc =>
    simp only [Pool.step] at hs
    split at hs
    · rename_i o s1 hp
      cases r with
      | false => simp at hp
      | true =>
        simp only [if_pos] at hp
        obtain ⟨hm, hd, rfl⟩ := popAny_spec hp
        have hd := dead_spec hm hd
        cases hs
        refine ⟨?_, c2⟩
        intro t ht
        have := c1 t ht
        have hne : t.2.2 ≠ o := fun c => hd.2.2.2.2.1 (List.mem_map.2 ⟨t, ht, c⟩)
        have := List.mem_of_mem_erase (a := t.2.2) (b := o) (l := s.invalid)
        simp only [Pool.initObject, upd]
        grind
    · split at hs
      · cases hs
        refine ⟨?_, c2⟩
        intro t ht
        have := c1 t ht
        have := hlt t ht
        simp only [Pool.initObject, upd]
        grind
      · cases hs
        exact ⟨c1, c2⟩
  | add o =>
    simp only [Pool.step] at hs
    split at hs
    · cases hs
    · rename_i hr
      split at hs
      · rcases canEmplace_cases s.can (s.id o) o with ⟨hi, e⟩ | ⟨hi, e⟩
        · rw [e] at hs; cases hs; exact ⟨c1, c2⟩
        · rw [e] at hs; cases hs
          refine ⟨?_, c2⟩
          intro t ht
          have := c1 t ht
          simp only [List.map_append, List.mem_append]
          grind
      · cases hs; exact ⟨c1, c2⟩
  | delObj o =>
    simp only [Pool.step] at hs
    split at hs
    · cases hs
    · rename_i hr
      split at hs
      · cases hs
        refine ⟨?_, c2⟩
        intro t ht
        have := c1 t ht
        simp only [List.mem_map, mem_canErase, List.mem_append, List.mem_singleton] at this ⊢
        grind
      · cases hs; exact ⟨c1, c2⟩
  | delId i =>
    simp only [Pool.step] at hs
    split at hs
    · rename_i o hf
      cases hs
      rw [canFind_some h4] at hf
      refine ⟨?_, c2⟩
      intro t ht
      have := c1 t ht
      simp only [List.mem_map, mem_canErase, List.mem_append, List.mem_singleton] at this ⊢
      grind
    · cases hs; exact ⟨c1, c2⟩
  | bury i hold =>
    simp only [Pool.step] at hs
    split at hs
    · rename_i o hi
      cases hs
      refine ⟨?_, c2⟩
      intro t ht
      have := c1 t ht
      have hm := List.mem_of_getElem? hi
      have he := (List.eraseIdx_sublist s.moving i).subset (a := t.2.2)
      grind
    · cases hs
  | initId o i =>
    simp only [Pool.step] at hs
    split at hs
    · cases hs
    · rename_i hr
      cases hs
      obtain ⟨f1, f2, f3, f4, f5, f6, f7, f8, f9, f10⟩ := s.initObjectId_frame o i
      refine ⟨?_, by rw [f4]; exact c2⟩
      rw [f4]
      intro t ht
      have := c1 t ht
      have hne : t.2.2 ≠ o := by intro c; rw [c] at this; exact hr this.2.1
      rw [f1, f2, f3, f9 _ hne]
      have := f10 t.2.2
      grind
  | changeBegin o i =>
    simp only [Pool.step] at hs
    split at hs
    · cases hs
    · rename_i hr
      split at hs
      · rename_i old s1 hp
        obtain ⟨hm, hd, hid, rfl⟩ := popById_spec hp
        have hd := dead_spec hm hd
        cases hs
        refine ⟨?_, ?_⟩
        · intro t ht
          simp only [List.mem_append, List.mem_singleton] at ht
          rcases ht with ht | rfl
          · have := c1 t ht
            have := List.mem_of_mem_erase (a := t.2.2) (b := old) (l := s.invalid)
            simp only [upd]
            grind
          · have hne : old ≠ o := by intro c; rw [c] at hd; exact hr hd.2.1
            refine ⟨hid, by simp only [upd]; rw [if_neg hne]; exact hd.2.1, hd.2.2.1, ?_, hd.2.2.2.1⟩
            intro c
            have h9 : s.invalid.count old = 1 := hd.2.2.2.2.2
            have h8 : 0 < (s.invalid.erase old).count old := List.count_pos_iff.2 c
            rw [List.count_erase_self] at h8
            omega
        · simp only [List.map_append, List.map_cons, List.map_nil, List.nodup_append]
          refine ⟨c2, by simp, ?_⟩
          intro x hx y hy
          simp at hy
          subst hy
          intro c
          exact hd.2.2.2.2.1 (c ▸ hx)
      · cases hs; exact ⟨c1, c2⟩
  | changeEnd i =>
    simp only [Pool.step] at hs
    split at hs
    · rename_i o j old hi
      have hm := List.mem_of_getElem? hi
      have ho : 0 < s.refs o := by
        have := h2 o
        have : 0 < (s.changing.map (·.1)).count o := List.count_pos_iff.2 (List.mem_map.2 ⟨_, hm, rfl⟩)
        omega
      obtain ⟨f1, f2, f3, f4, f5, f6, f7, f8, f9, f10⟩ := s.initObjectId_frame o j
      have hnd : ((s.changing.eraseIdx i).map (·.2.2)).Nodup := List.Nodup.sublist (List.Sublist.map _ (List.eraseIdx_sublist s.changing i)) c2
      have hmem : ∀ t ∈ s.changing.eraseIdx i, t ∈ s.changing ∧ t.2.2 ≠ old := by
        intro t ht
        refine ⟨(List.eraseIdx_sublist s.changing i).subset ht, ?_⟩
        intro c
        have h6 := count_eraseIdx (l := s.changing.map (·.2.2)) (i := i) (o := old) (by rw [List.getElem?_map, hi]; rfl) old
        have h7 : (s.changing.map (·.2.2)).count old ≤ 1 := List.nodup_iff_count.1 c2 old
        have h8 : 0 < ((s.changing.eraseIdx i).map (·.2.2)).count old := List.count_pos_iff.2 (List.mem_map.2 ⟨t, ht, c⟩)
        rw [map_eraseIdx'] at h8
        simp at h6
        omega
      split at hs
      · cases hs
        refine ⟨?_, hnd⟩
        intro t ht
        obtain ⟨ht, hto⟩ := hmem t ht
        have := c1 t ht
        have hne : t.2.2 ≠ o := by intro c; rw [c] at this; omega
        have := f10 t.2.2
        simp only [upd]
        rw [f2, f3, f9 _ hne, if_neg hne]
        grind
      · cases hs
        refine ⟨?_, hnd⟩
        intro t ht
        obtain ⟨ht, hto⟩ := hmem t ht
        have := c1 t ht
        have hne : t.2.2 ≠ o := by intro c; rw [c] at this; omega
        have := f10 t.2.2
        simp only [upd, List.mem_append, List.mem_singleton]
        rw [f2, f3, f9 _ hne, if_neg hne]
        grind
    · cases hs
  | clear =>
    simp only [Pool.step] at hs
    cases hs
    refine ⟨?_, c2⟩
    intro t ht
    have := c1 t ht
    simp only [List.mem_map, List.mem_append, List.mem_filter] at this ⊢
    grind
  | free num =>
    simp only [Pool.step] at hs
    cases hs
    have hsp := freeLoop_spec s num [] s.invalid
    refine ⟨?_, c2⟩
    intro t ht
    have := c1 t ht
    have := hsp.1 t.2.2
    grind
  | pop =>
    simp only [Pool.step] at hs
    split at hs
    · rename_i o s1 hp
      obtain ⟨hm, hd, rfl⟩ := popAny_spec hp
      have hd := dead_spec hm hd
      cases hs
      refine ⟨?_, c2⟩
      intro t ht
      have := c1 t ht
      have := List.mem_of_mem_erase (a := t.2.2) (b := o) (l := s.invalid)
      simp only [upd]
      grind
    · cases hs; exact ⟨c1, c2⟩
  | popId i =>
    simp only [Pool.step] at hs
    split at hs
    · rename_i o s1 hp
      obtain ⟨hm, hd, _, rfl⟩ := popById_spec hp
      have hd := dead_spec hm hd
      cases hs
      refine ⟨?_, c2⟩
      intro t ht
      have := c1 t ht
      have := List.mem_of_mem_erase (a := t.2.2) (b := o) (l := s.invalid)
      simp only [upd]
      grind
    · cases hs; exact ⟨c1, c2⟩
  | hold o =>
    simp only [Pool.step] at hs
    split at hs
    · cases hs
      refine ⟨?_, c2⟩
      intro t ht
      have := c1 t ht
      simp only [upd]
      grind
    · cases hs
  | drop o =>
    simp only [Pool.step] at hs
    split at hs
    · cases hs
      refine ⟨?_, c2⟩
      intro t ht
      have := c1 t ht
      simp only [upd]
      grind
    · cases hs
  | obsolete o b => simp only [Pool.step] at hs; cases hs; exact ⟨c1, c2⟩
  | setMax n => simp only [Pool.step] at hs; cases hs; exact ⟨c1, c2⟩
  | finalize =>
    simp only [Pool.step] at hs; cases hs
    refine ⟨?_, c2⟩
    intro t ht
    have := c1 t ht
    simp only [List.map_nil, List.not_mem_nil, not_false_eq_true, true_and]
    exact ⟨this.1, this.2.1, this.2.2.2.1, this.2.2.2.2⟩

theorem Pool.run_chg {r : Bool} {start m : Nat} {as : List PoolAct} {s : Pool} {es : List PoolEv} (hr : Pool.Run r (Pool.init start m) as s es) : s.Chg := by
  generalize h0 : Pool.init start m = s0 at hr
  induction hr with
  | nil => subst h0; exact ⟨by simp [Pool.init], by simp [Pool.init]⟩
  | snoc s1 s2 as a es fs hr hs ih => subst h0; exact Pool.chg_step (Pool.run_base hr) ih hs

/-! ### ids of live objects -/

def Pool.Uniq (s : Pool) : Prop := ∀ x y, s.live x → s.live y → s.id x = s.id y → x = y

/-- A step that makes nothing live and leaves the ids alone keeps the ids unique. -/
theorem Pool.Uniq.keep {s s' : Pool} (h : s.Uniq) (hl : ∀ x, s'.live x → s.live x) (hi : s'.id = s.id) : s'.Uniq := by
  intro x y hx hy hxy
  rw [hi] at hxy
  exact h x y (hl x hx) (hl y hy) hxy

theorem Pool.uniq_step {r : Bool} {s s' : Pool} {es fs : List PoolEv} {a : PoolAct} (hb : s.Base es) (hc : s.Chg) (hu : s.Uniq) (hn : s.noClash a) (hs : s.step r a = some (s', fs)) : s'.Uniq := by
  obtain ⟨h1, h2, h3, h4, h5⟩ := hb
  obtain ⟨c1, c2⟩ := hc
  cases a with
  | create alloc =>
    simp only [Pool.noClash] at hn
    simp only [Pool.step] at hs
    split at hs
    · rename_i o s1 hp
      cases r with
      | false => simp at hp
      | true =>
        simp only [if_pos] at hp
        obtain ⟨hm, hd, rfl⟩ := popAny_spec hp
        cases hs
        have hlo : s.live o := Or.inr (Or.inr (Or.inl hm))
        have hl : ∀ x, (({ s with invalid := s.invalid.erase o } : Pool).initObject o).live x → s.live x := by
          intro x hx
          by_cases hxo : x = o
          · rw [hxo]; exact hlo
          · have := List.mem_of_mem_erase (a := x) (b := o) (l := s.invalid)
            simp only [Pool.initObject, Pool.live, upd] at hx ⊢
            grind
        intro x y hx hy hxy
        have hx := hl x hx
        have hy := hl y hy
        simp only [Pool.initObject, upd] at hxy
        have := hn x hx
        have := hn y hy
        have := hu x y hx hy
        grind
    · split at hs
      · cases hs
        have hl : ∀ x, (({ s with next := s.next + 1 } : Pool).initObject s.next).live x → x = s.next ∨ s.live x := by
          intro x hx
          by_cases hxo : x = s.next
          · exact Or.inl hxo
          · right
            simp only [Pool.initObject, Pool.live, upd] at hx ⊢
            grind
        intro x y hx hy hxy
        have hx := hl x hx
        have hy := hl y hy
        simp only [Pool.initObject, upd] at hxy
        have := hn x
        have := hn y
        have := hu x y
        grind
      · cases hs; exact hu
  | add o =>
    simp only [Pool.step] at hs
    split at hs
    · cases hs
    · rename_i hr
      split at hs
      · rcases canEmplace_cases s.can (s.id o) o with ⟨hi, e⟩ | ⟨hi, e⟩
        · rw [e] at hs; cases hs; exact hu
        · rw [e] at hs; cases hs
          refine hu.keep ?_ rfl
          intro x hx
          simp only [Pool.live, List.map_append, List.mem_append] at hx ⊢
          grind
      · cases hs; exact hu
  | delObj o =>
    simp only [Pool.step] at hs
    split at hs
    · cases hs
    · rename_i hr
      split at hs
      · cases hs
        refine hu.keep ?_ rfl
        intro x hx
        simp only [Pool.live, List.mem_map, mem_canErase, List.mem_append, List.mem_singleton] at hx ⊢
        grind
      · cases hs; exact hu
  | delId i =>
    simp only [Pool.step] at hs
    split at hs
    · rename_i o hf
      cases hs
      rw [canFind_some h4] at hf
      refine hu.keep ?_ rfl
      intro x hx
      simp only [Pool.live, List.mem_map, mem_canErase, List.mem_append, List.mem_singleton] at hx ⊢
      grind
    · cases hs; exact hu
  | bury i hold =>
    simp only [Pool.step] at hs
    split at hs
    · rename_i o hi
      cases hs
      refine hu.keep ?_ rfl
      intro x hx
      have hm := List.mem_of_getElem? hi
      have he := (List.eraseIdx_sublist s.moving i).subset (a := x)
      simp only [Pool.live] at hx ⊢
      grind
    · cases hs
  | initId o i =>
    simp only [Pool.noClash] at hn
    simp only [Pool.step] at hs
    split at hs
    · cases hs
    · rename_i hr
      cases hs
      have hlo : s.live o := Or.inl (by omega)
      obtain ⟨f1, f2, f3, f4, f5, f6, f7, f8, f9, f10⟩ := s.initObjectId_frame o i
      have hl : ∀ x, (s.initObjectId o i).1.live x → s.live x := by
        intro x hx
        have := f10 x
        simp only [Pool.live] at hx ⊢
        rw [f1, f2, f3, f4] at hx
        grind
      rcases s.initObjectId_cases o i with ⟨h, e⟩ | ⟨h, hi, e⟩ | ⟨h, hi, e⟩
      · rw [e]; exact hu
      · rw [e]; exact hu
      · intro x y hx hy hxy
        have hx := hl x hx
        have hy := hl y hy
        rw [e] at hxy
        simp only [upd] at hxy
        have := hn x hx
        have := hn y hy
        have := hu x y hx hy
        grind
  | changeBegin o i =>
    simp only [Pool.step] at hs
    split at hs
    · cases hs
    · rename_i hr
      split at hs
      · rename_i old s1 hp
        obtain ⟨hm, hd, hid, rfl⟩ := popById_spec hp
        cases hs
        refine hu.keep ?_ rfl
        intro x hx
        have := List.mem_of_mem_erase (a := x) (b := old) (l := s.invalid)
        simp only [Pool.live, List.map_append, List.mem_append, upd] at hx ⊢
        grind
      · cases hs; exact hu
  | changeEnd i =>
    simp only [Pool.step] at hs
    split at hs
    · rename_i o j old hi
      have hm := List.mem_of_getElem? hi
      have ho : 0 < s.refs o := by
        have := h2 o
        have : 0 < (s.changing.map (·.1)).count o := List.count_pos_iff.2 (List.mem_map.2 ⟨_, hm, rfl⟩)
        omega
      have hlo : s.live o := Or.inl ho
      have hold : old ∈ s.changing.map (·.2.2) := List.mem_map.2 ⟨_, hm, rfl⟩
      obtain ⟨d1, d2, d3, d4, d5⟩ := c1 _ hm
      have d2 : s.refs old = 0 := d2
      have hne : old ≠ o := by intro c; rw [c] at d2; omega
      obtain ⟨f1, f2, f3, f4, f5, f6, f7, f8, f9, f10⟩ := s.initObjectId_frame o j
      have hcnt := count_eraseIdx (l := s.changing.map (·.2.2)) (i := i) (o := old) (by rw [List.getElem?_map, hi]; rfl)
      have hgone : old ∉ (s.changing.eraseIdx i).map (·.2.2) := by
        intro c
        have h6 := hcnt old
        have h7 : (s.changing.map (·.2.2)).count old ≤ 1 := List.nodup_iff_count.1 c2 old
        have h8 : 0 < ((s.changing.eraseIdx i).map (·.2.2)).count old := List.count_pos_iff.2 c
        rw [map_eraseIdx'] at h8
        simp at h6
        omega
      have hsub : ∀ x, x ∈ (s.changing.eraseIdx i).map (·.2.2) → x ∈ s.changing.map (·.2.2) := by
        intro x hx
        exact (List.Sublist.map _ (List.eraseIdx_sublist s.changing i)).subset hx
      split at hs
      · cases hs
        have hl : ∀ x, ({ (s.initObjectId o j).1 with changing := s.changing.eraseIdx i, refs := upd s.refs o (s.refs o - 1) } : Pool).live x → s.live x ∧ x ≠ old := by
          intro x hx
          have := f10 x
          have := hsub x
          simp only [Pool.live, upd] at hx ⊢
          rw [f2, f3] at hx
          refine ⟨by grind, ?_⟩
          intro c
          subst c
          grind
        intro x y hx hy hxy
        obtain ⟨hx, hxo⟩ := hl x hx
        obtain ⟨hy, hyo⟩ := hl y hy
        rcases s.initObjectId_cases o j with ⟨h, e⟩ | ⟨h, hi, e⟩ | ⟨h, hi, e⟩
        · rw [e] at hxy; exact hu x y hx hy hxy
        · rw [e] at hxy; exact hu x y hx hy hxy
        · rw [e] at hxy
          simp only [upd] at hxy
          have hlold : s.live old := Or.inr (Or.inr (Or.inr (Or.inr hold)))
          have := hu x old hx hlold
          have := hu y old hy hlold
          have := hu x y hx hy
          simp only at d1
          grind
      · rename_i hok
        cases hs
        refine hu.keep ?_ ?_
        · intro x hx
          have := f10 x
          have := hsub x
          simp only [Pool.live, upd, List.mem_append, List.mem_singleton] at hx ⊢
          rw [f2, f3] at hx
          grind
        · rcases s.initObjectId_cases o j with ⟨h, e⟩ | ⟨h, hi, e⟩ | ⟨h, hi, e⟩
          · rw [e] at hok; simp at hok
          · rw [e]
          · rw [e] at hok; simp at hok
    · cases hs
  | clear =>
    simp only [Pool.step] at hs
    cases hs
    refine hu.keep ?_ rfl
    intro x hx
    simp only [Pool.live, List.mem_map, List.mem_append, List.mem_filter] at hx ⊢
    grind
  | free num =>
    simp only [Pool.step] at hs
    cases hs
    have hsp := freeLoop_spec s num [] s.invalid
    refine hu.keep ?_ rfl
    intro x hx
    have := hsp.1 x
    simp only [Pool.live] at hx ⊢
    grind
  | pop =>
    simp only [Pool.step] at hs
    split at hs
    · rename_i o s1 hp
      obtain ⟨hm, hd, rfl⟩ := popAny_spec hp
      cases hs
      refine hu.keep ?_ rfl
      intro x hx
      have := List.mem_of_mem_erase (a := x) (b := o) (l := s.invalid)
      simp only [Pool.live, upd] at hx ⊢
      grind
    · cases hs; exact hu
  | popId i =>
    simp only [Pool.step] at hs
    split at hs
    · rename_i o s1 hp
      obtain ⟨hm, hd, _, rfl⟩ := popById_spec hp
      cases hs
      refine hu.keep ?_ rfl
      intro x hx
      have := List.mem_of_mem_erase (a := x) (b := o) (l := s.invalid)
      simp only [Pool.live, upd] at hx ⊢
      grind
    · cases hs; exact hu
  | hold o =>
    simp only [Pool.step] at hs
    split at hs
    · cases hs
      refine hu.keep ?_ rfl
      intro x hx
      simp only [Pool.live, upd] at hx ⊢
      grind
    · cases hs
  | drop o =>
    simp only [Pool.step] at hs
    split at hs
    · cases hs
      refine hu.keep ?_ rfl
      intro x hx
      simp only [Pool.live, upd] at hx ⊢
      grind
    · cases hs
  | obsolete o b => simp only [Pool.step] at hs; cases hs; exact hu
  | setMax n => simp only [Pool.step] at hs; cases hs; exact hu
  | finalize =>
    simp only [Pool.step] at hs; cases hs
    refine hu.keep ?_ rfl
    intro x hx
    simp only [Pool.live] at hx ⊢
    grind

theorem Pool.run_uniq {r : Bool} {start m : Nat} {as : List PoolAct} {s : Pool} {es : List PoolEv} (hr : Pool.GoodRun r Pool.noClash (Pool.init start m) as s es) : s.Uniq := by
  generalize h0 : Pool.init start m = s0 at hr
  induction hr with
  | nil => subst h0; intro x y hx; simp [Pool.live, Pool.init] at hx
  | snoc s1 s2 as a es fs hr hn hs ih => subst h0; exact Pool.uniq_step (Pool.run_base hr.run) (Pool.run_chg hr.run) ih hn hs

end StAsio
