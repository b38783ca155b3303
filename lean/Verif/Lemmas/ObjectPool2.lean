import Verif.Lemmas.ObjectPool
set_option autoImplicit false
namespace StAsio

theorem canErase_absent {m : List (Nat × Nat)} {k : Nat} (h : k ∉ m.map (·.1)) : canErase m k = m := by
  simp only [canErase]
  rw [List.filter_eq_self]
  intro p hp
  simp only [bne_iff_ne, ne_eq]
  intro c
  exact h (List.mem_map.2 ⟨p, hp, c⟩)

theorem count_canErase {m : List (Nat × Nat)} (hn : (m.map (·.1)).Nodup) {k o : Nat} (h : (k, o) ∈ m) (x : Nat) :
    ((canErase m k).map (·.2)).count x + (if o = x then 1 else 0) = (m.map (·.2)).count x := by
  induction m with
  | nil => simp at h
  | cons p m ih =>
    simp only [List.map_cons, List.nodup_cons] at hn
    rcases List.mem_cons.1 h with rfl | h
    · have e : canErase ((k, o) :: m) k = m := by
        simp only [canErase, List.filter_cons, bne_self_eq_false, Bool.false_eq_true, if_false]
        exact canErase_absent hn.1
      rw [e]
      simp [List.count_cons]
    · have hne : p.1 ≠ k := by
        intro c
        exact hn.1 (List.mem_map.2 ⟨(k, o), h, c.symm⟩)
      have := ih hn.2 h
      have e : canErase (p :: m) k = p :: canErase m k := by simp [canErase, List.filter_cons, hne]
      rw [e]
      simp only [List.map_cons, List.count_cons]
      omega

theorem count_filter_split (m : List (Nat × Nat)) (f : Nat × Nat → Bool) (x : Nat) :
    ((m.filter f).map (·.2)).count x + ((m.filter (fun p => !f p)).map (·.2)).count x = (m.map (·.2)).count x := by
  induction m with
  | nil => simp
  | cons p m ih =>
    simp only [List.filter_cons]
    cases h : f p <;> simp [List.count_cons] <;> omega

/-- How often an object is in the pool's hands. -/
def Pool.places (s : Pool) (o : Nat) : Nat := (s.can.map (·.2)).count o + s.invalid.count o + s.moving.count o + (s.changing.map (·.2.2)).count o

theorem Pool.places_zero {s : Pool} {o : Nat} (h : s.outside o) : s.places o = 0 := by
  obtain ⟨h1, h2, h3, h4⟩ := h
  have := List.count_eq_zero.2 h1
  have := List.count_eq_zero.2 h2
  have := List.count_eq_zero.2 h3
  have := List.count_eq_zero.2 h4
  simp only [Pool.places]
  omega

theorem count_erase' (l : List Nat) (a x : Nat) (h : a ∈ l) : (l.erase a).count x + (if a = x then 1 else 0) = l.count x := by
  have hp := List.count_pos_iff.2 h
  rw [List.count_erase]
  by_cases hx : a = x
  · subst hx; simp; omega
  · have : (a == x) = false := by simp [hx]
    simp [this, hx]

theorem Pool.initObjectId_places {s : Pool} {es : List PoolEv} (hb : s.Base es) {o : Nat} (ho : o ∈ s.can.map (·.2)) (i x : Nat) : ((s.initObjectId o i).1.can.map (·.2)).count x = (s.can.map (·.2)).count x := by
  rcases s.initObjectId_cases o i with ⟨h, e⟩ | ⟨h, hi, e⟩ | ⟨h, hi, e⟩
  · rw [e]
  · rw [e]
  · rw [e]
    simp only [List.mem_map] at ho
    obtain ⟨p, hp, rfl⟩ := ho
    have hk := hb.keys p hp
    have hm : (s.id p.2, p.2) ∈ s.can ++ [(i, p.2)] := List.mem_append_left _ (by rw [hk]; exact hp)
    have := count_canErase (nodup_append_key hb.nodup p.2 hi) hm x
    simp only [List.map_append, List.count_append, List.map_cons, List.map_nil, List.count_cons, List.count_nil, beq_iff_eq] at this
    simp only
    split at this <;> omega

theorem Pool.places_step {r : Bool} {s s' : Pool} {es fs : List PoolEv} {a : PoolAct} (hb : s.Base es) (hu : s.Uniq) (hd : ∀ o, s.places o ≤ 1) (hn : s.proper a) (hs : s.step r a = some (s', fs)) : ∀ o, s'.places o ≤ 1 := by
  have hb0 := hb
  obtain ⟨h1, h2, h3, h4, h5⟩ := hb
  intro x
  have hx := hd x
  cases a with
  | create alloc =>
    simp only [Pool.step] at hs
    split at hs
    · rename_i o s1 hp
      cases r with
      | false => simp at hp
      | true =>
        simp only [if_pos] at hp
        obtain ⟨hm, _, rfl⟩ := popAny_spec hp
        cases hs
        have := count_erase' s.invalid o x hm
        simp only [Pool.places, Pool.initObject] at hx ⊢
        omega
    · split at hs
      · cases hs; exact hx
      · cases hs; exact hx
  | add o =>
    simp only [Pool.step] at hs
    split at hs
    · cases hs
    · split at hs
      · rcases canEmplace_cases s.can (s.id o) o with ⟨hi, e⟩ | ⟨hi, e⟩
        · rw [e] at hs; cases hs; exact hx
        · rw [e] at hs; cases hs
          have := Pool.places_zero hn
          simp only [Pool.places, List.map_append, List.count_append, List.map_cons, List.map_nil, List.count_cons, List.count_nil, beq_iff_eq] at hx this ⊢
          by_cases c : o = x
          · subst c; simp; omega
          · simp [c]; omega
      · cases hs; exact hx
  | delObj o =>
    simp only [Pool.step] at hs
    split at hs
    · cases hs
    · rename_i hr
      split at hs
      · rename_i ha
        cases hs
        rw [any_key, List.mem_map] at ha
        obtain ⟨p, hp, hk⟩ := ha
        have hpo : p.2 = o := hu p.2 o (Or.inr (Or.inl (List.mem_map.2 ⟨p, hp, rfl⟩))) (Or.inl (by omega)) (by rw [h3 p hp, hk])
        have hm : (s.id o, o) ∈ s.can := by rw [← hk, ← hpo]; exact hp
        have := count_canErase h4 hm x
        simp only [Pool.places, List.count_append, List.count_cons, List.count_nil, beq_iff_eq] at hx ⊢
        omega
      · cases hs; exact hx
  | delId i =>
    simp only [Pool.step] at hs
    split at hs
    · rename_i o hf
      cases hs
      rw [canFind_some h4] at hf
      have := count_canErase h4 hf x
      simp only [Pool.places, List.count_append, List.count_cons, List.count_nil, beq_iff_eq] at hx ⊢
      omega
    · cases hs; exact hx
  | bury i hold =>
    simp only [Pool.step] at hs
    split at hs
    · rename_i o hi
      cases hs
      have := count_eraseIdx hi x
      cases hold
      · simp only [Pool.places] at hx ⊢
        simp only [Bool.false_eq_true, if_false]
        omega
      · simp only [Pool.places] at hx ⊢
        simp only [if_pos, List.count_append, List.count_cons, List.count_nil, beq_iff_eq]
        omega
    · cases hs
  | initId o i =>
    simp only [Pool.step] at hs
    split at hs
    · cases hs
    · cases hs
      obtain ⟨f1, f2, f3, f4, f5, f6, f7, f8, f9, f10⟩ := s.initObjectId_frame o i
      simp only [Pool.places] at hx ⊢
      rw [Pool.initObjectId_places hb0 hn, f2, f3, f4]
      exact hx
  | changeBegin o i =>
    simp only [Pool.step] at hs
    split at hs
    · cases hs
    · split at hs
      · rename_i old s1 hp
        obtain ⟨hm, _, hid, rfl⟩ := popById_spec hp
        cases hs
        have := count_erase' s.invalid old x hm
        simp only [Pool.places, List.map_append, List.count_append, List.map_cons, List.map_nil, List.count_cons, List.count_nil, beq_iff_eq] at hx ⊢
        omega
      · cases hs; exact hx
  | changeEnd i =>
    simp only [Pool.step] at hs
    split at hs
    · rename_i o j old hi
      have hn := hn _ hi
      obtain ⟨f1, f2, f3, f4, f5, f6, f7, f8, f9, f10⟩ := s.initObjectId_frame o j
      have hcnt := count_eraseIdx (l := s.changing.map (·.2.2)) (i := i) (o := old) (by rw [List.getElem?_map, hi]; rfl) x
      have hpl := Pool.initObjectId_places hb0 hn j x
      rw [← map_eraseIdx'] at hcnt
      split at hs
      · cases hs
        simp only [Pool.places] at hx ⊢
        rw [hpl, f2, f3]
        omega
      · cases hs
        simp only [Pool.places, List.count_append, List.count_cons, List.count_nil, beq_iff_eq] at hx ⊢
        rw [hpl, f2, f3]
        omega
    · cases hs
  | clear =>
    simp only [Pool.step] at hs
    cases hs
    have := count_filter_split s.can (fun p => s.obs p.2) x
    simp only [Pool.places, List.count_append] at hx ⊢
    omega
  | free num =>
    simp only [Pool.step] at hs
    cases hs
    have hsp := (freeLoop_spec s num [] s.invalid).2.2.2.2 x
    simp only [Pool.places, List.count_nil] at hx hsp ⊢
    omega
  | pop =>
    simp only [Pool.step] at hs
    split at hs
    · rename_i o s1 hp
      obtain ⟨hm, _, rfl⟩ := popAny_spec hp
      cases hs
      have := count_erase' s.invalid o x hm
      simp only [Pool.places] at hx ⊢
      omega
    · cases hs; exact hx
  | popId i =>
    simp only [Pool.step] at hs
    split at hs
    · rename_i o s1 hp
      obtain ⟨hm, _, _, rfl⟩ := popById_spec hp
      cases hs
      have := count_erase' s.invalid o x hm
      simp only [Pool.places] at hx ⊢
      omega
    · cases hs; exact hx
  | hold o =>
    simp only [Pool.step] at hs
    split at hs
    · cases hs; exact hx
    · cases hs
  | drop o =>
    simp only [Pool.step] at hs
    split at hs
    · cases hs; exact hx
    · cases hs
  | obsolete o b => simp only [Pool.step] at hs; cases hs; exact hx
  | setMax n => simp only [Pool.step] at hs; cases hs; exact hx
  | finalize =>
    simp only [Pool.step] at hs; cases hs
    simp only [Pool.places] at hx ⊢
    simp only [List.map_nil, List.count_nil]
    omega

theorem Pool.run_places {r : Bool} {start m : Nat} {as : List PoolAct} {s : Pool} {es : List PoolEv} (hr : Pool.GoodRun r (fun s a => s.noClash a ∧ s.proper a) (Pool.init start m) as s es) : ∀ o, s.places o ≤ 1 := by
  generalize h0 : Pool.init start m = s0 at hr
  induction hr with
  | nil => subst h0; intro o; simp [Pool.places, Pool.init]
  | snoc s1 s2 as a es fs hr hn hs ih =>
    subst h0
    exact Pool.places_step (Pool.run_base hr.run) (Pool.run_uniq (hr.mono (fun _ _ h => h.1))) ih hn.2 hs

/-! ### the size -/

theorem length_canErase {m : List (Nat × Nat)} (hn : (m.map (·.1)).Nodup) {k o : Nat} (h : (k, o) ∈ m) : (canErase m k).length + 1 = m.length := by
  induction m with
  | nil => simp at h
  | cons p m ih =>
    simp only [List.map_cons, List.nodup_cons] at hn
    rcases List.mem_cons.1 h with rfl | h
    · have e : canErase ((k, o) :: m) k = m := by
        simp only [canErase, List.filter_cons, bne_self_eq_false, Bool.false_eq_true, if_false]
        exact canErase_absent hn.1
      rw [e]; simp
    · have hne : p.1 ≠ k := by
        intro c
        exact hn.1 (List.mem_map.2 ⟨(k, o), h, c.symm⟩)
      have := ih hn.2 h
      have e : canErase (p :: m) k = p :: canErase m k := by simp [canErase, List.filter_cons, hne]
      rw [e]; simp; omega

theorem Pool.initObjectId_length {s : Pool} {es : List PoolEv} (hb : s.Base es) {o : Nat} (ho : o ∈ s.can.map (·.2)) (i : Nat) : (s.initObjectId o i).1.can.length = s.can.length := by
  rcases s.initObjectId_cases o i with ⟨h, e⟩ | ⟨h, hi, e⟩ | ⟨h, hi, e⟩
  · rw [e]
  · rw [e]
  · rw [e]
    simp only [List.mem_map] at ho
    obtain ⟨p, hp, rfl⟩ := ho
    have hk := hb.keys p hp
    have hm : (s.id p.2, p.2) ∈ s.can ++ [(i, p.2)] := List.mem_append_left _ (by rw [hk]; exact hp)
    have := length_canErase (nodup_append_key hb.nodup p.2 hi) hm
    simp at this ⊢
    omega

theorem Pool.size_step {r : Bool} {s s' : Pool} {es fs : List PoolEv} {a : PoolAct} {B : Nat} (hb : s.Base es) (hd : s.can.length ≤ B ∧ s.maxSize ≤ B) (hn : s.proper a) (hm : ∀ n, a = .setMax n → n ≤ B)
    (hs : s.step r a = some (s', fs)) : s'.can.length ≤ B ∧ s'.maxSize ≤ B := by
  cases a with
  | create alloc =>
    simp only [Pool.step] at hs
    split at hs
    · rename_i o s1 hp
      cases r with
      | false => simp at hp
      | true =>
        simp only [if_pos] at hp
        obtain ⟨hm, _, rfl⟩ := popAny_spec hp
        cases hs; exact hd
    · split at hs <;> cases hs <;> exact hd
  | add o =>
    simp only [Pool.step] at hs
    split at hs
    · cases hs
    · split at hs
      · rename_i hl
        rcases canEmplace_cases s.can (s.id o) o with ⟨hi, e⟩ | ⟨hi, e⟩
        · rw [e] at hs; cases hs; exact hd
        · rw [e] at hs; cases hs
          simp; omega
      · cases hs; exact hd
  | delObj o =>
    simp only [Pool.step] at hs
    split at hs
    · cases hs
    · split at hs
      · cases hs
        have := (List.filter_sublist (p := fun p : Nat × Nat => p.1 != s.id o) (l := s.can)).length_le
        simp only [canErase]; omega
      · cases hs; exact hd
  | delId i =>
    simp only [Pool.step] at hs
    split at hs
    · cases hs
      have := (List.filter_sublist (p := fun p : Nat × Nat => p.1 != i) (l := s.can)).length_le
      simp only [canErase]; omega
    · cases hs; exact hd
  | bury i hold =>
    simp only [Pool.step] at hs
    split at hs <;> cases hs
    exact hd
  | initId o i =>
    simp only [Pool.step] at hs
    split at hs
    · cases hs
    · cases hs
      obtain ⟨f1, f2, f3, f4, f5, f6, f7, f8, f9, f10⟩ := s.initObjectId_frame o i
      rw [Pool.initObjectId_length hb hn, f6]
      exact hd
  | changeBegin o i =>
    simp only [Pool.step] at hs
    split at hs
    · cases hs
    · split at hs
      · rename_i old s1 hp
        obtain ⟨_, _, hid, rfl⟩ := popById_spec hp
        cases hs; exact hd
      · cases hs; exact hd
  | changeEnd i =>
    simp only [Pool.step] at hs
    split at hs
    · rename_i o j old hi
      have hn := hn _ hi
      obtain ⟨f1, f2, f3, f4, f5, f6, f7, f8, f9, f10⟩ := s.initObjectId_frame o j
      have hl := Pool.initObjectId_length hb hn j
      split at hs <;> cases hs <;> simp only [hl, f6] <;> exact hd
    · cases hs
  | clear =>
    simp only [Pool.step] at hs
    cases hs
    have := (List.filter_sublist (p := fun p : Nat × Nat => !s.obs p.2) (l := s.can)).length_le
    simp only; omega
  | free num => simp only [Pool.step] at hs; cases hs; exact hd
  | pop =>
    simp only [Pool.step] at hs
    split at hs
    · rename_i o s1 hp
      obtain ⟨hm, _, rfl⟩ := popAny_spec hp
      cases hs; exact hd
    · cases hs; exact hd
  | popId i =>
    simp only [Pool.step] at hs
    split at hs
    · rename_i o s1 hp
      obtain ⟨hm, _, _, rfl⟩ := popById_spec hp
      cases hs; exact hd
    · cases hs; exact hd
  | hold o => simp only [Pool.step] at hs; split at hs <;> cases hs; exact hd
  | drop o => simp only [Pool.step] at hs; split at hs <;> cases hs; exact hd
  | obsolete o b => simp only [Pool.step] at hs; cases hs; exact hd
  | setMax n =>
    simp only [Pool.step] at hs; cases hs
    exact ⟨hd.1, hm n rfl⟩
  | finalize => simp only [Pool.step] at hs; cases hs; simp; exact hd.2

/-! ### the ids given out -/

theorem givenIds_append (es fs : List PoolEv) : givenIds (es ++ fs) = givenIds es ++ givenIds fs := by simp [givenIds]

theorem Pool.cur_step {r : Bool} {s s' : Pool} {fs : List PoolEv} {a : PoolAct} (hs : s.step r a = some (s', fs)) :
    (s'.cur = s.cur ∧ givenIds fs = []) ∨ (s'.cur = s.cur + 1 ∧ givenIds fs = [(1 + s.cur) % 2 ^ 64]) := by
  cases a with
  | create alloc =>
    simp only [Pool.step] at hs
    split at hs
    · rename_i o s1 hp
      cases r with
      | false => simp at hp
      | true =>
        simp only [if_pos] at hp
        obtain ⟨hm, _, rfl⟩ := popAny_spec hp
        cases hs; exact Or.inr ⟨rfl, rfl⟩
    · split at hs <;> cases hs
      · exact Or.inr ⟨rfl, rfl⟩
      · exact Or.inl ⟨rfl, rfl⟩
  | add o =>
    simp only [Pool.step] at hs
    split at hs
    · cases hs
    · split at hs <;> cases hs <;> exact Or.inl ⟨rfl, rfl⟩
  | delObj o =>
    simp only [Pool.step] at hs
    split at hs
    · cases hs
    · split at hs <;> cases hs <;> exact Or.inl ⟨rfl, rfl⟩
  | delId i => simp only [Pool.step] at hs; split at hs <;> cases hs <;> exact Or.inl ⟨rfl, rfl⟩
  | bury i hold => simp only [Pool.step] at hs; split at hs <;> cases hs; exact Or.inl ⟨rfl, rfl⟩
  | initId o i =>
    simp only [Pool.step] at hs
    split at hs
    · cases hs
    · cases hs; exact Or.inl ⟨(s.initObjectId_frame o i).2.2.2.2.2.2.2.1, rfl⟩
  | changeBegin o i =>
    simp only [Pool.step] at hs
    split at hs
    · cases hs
    · split at hs
      · rename_i old s1 hp
        obtain ⟨_, _, hid, rfl⟩ := popById_spec hp
        cases hs; exact Or.inl ⟨rfl, rfl⟩
      · cases hs; exact Or.inl ⟨rfl, rfl⟩
  | changeEnd i =>
    simp only [Pool.step] at hs
    split at hs
    · rename_i o j old hi
      have := (s.initObjectId_frame o j).2.2.2.2.2.2.2.1
      split at hs <;> cases hs <;> exact Or.inl ⟨this, rfl⟩
    · cases hs
  | clear =>
    simp only [Pool.step] at hs
    cases hs
    refine Or.inl ⟨rfl, ?_⟩
    simp only [givenIds, List.filterMap_map]
    rw [List.filterMap_eq_nil_iff]
    intro p _; rfl
  | free num =>
    simp only [Pool.step] at hs; cases hs
    refine Or.inl ⟨rfl, ?_⟩
    simp only [givenIds, List.filterMap_map]
    rw [List.filterMap_eq_nil_iff]
    intro p _; rfl
  | pop =>
    simp only [Pool.step] at hs
    split at hs
    · rename_i o s1 hp
      obtain ⟨hm, _, rfl⟩ := popAny_spec hp
      cases hs; exact Or.inl ⟨rfl, rfl⟩
    · cases hs; exact Or.inl ⟨rfl, rfl⟩
  | popId i =>
    simp only [Pool.step] at hs
    split at hs
    · rename_i o s1 hp
      obtain ⟨hm, _, _, rfl⟩ := popById_spec hp
      cases hs; exact Or.inl ⟨rfl, rfl⟩
    · cases hs; exact Or.inl ⟨rfl, rfl⟩
  | hold o => simp only [Pool.step] at hs; split at hs <;> cases hs; exact Or.inl ⟨rfl, rfl⟩
  | drop o => simp only [Pool.step] at hs; split at hs <;> cases hs; exact Or.inl ⟨rfl, rfl⟩
  | obsolete o b => simp only [Pool.step] at hs; cases hs; exact Or.inl ⟨rfl, rfl⟩
  | setMax n => simp only [Pool.step] at hs; cases hs; exact Or.inl ⟨rfl, rfl⟩
  | finalize => simp only [Pool.step] at hs; cases hs; exact Or.inl ⟨rfl, rfl⟩

theorem Pool.run_given {r : Bool} {start m : Nat} {as : List PoolAct} {s : Pool} {es : List PoolEv} (hr : Pool.Run r (Pool.init start m) as s es) :
    s.cur = start + (givenIds es).length ∧ givenIds es = (List.range (givenIds es).length).map (fun k => (start + 1 + k) % 2 ^ 64) := by
  generalize h0 : Pool.init start m = s0 at hr
  induction hr with
  | nil => subst h0; simp [givenIds, Pool.init]
  | snoc s1 s2 as a es fs hr hs ih =>
    obtain ⟨h1, h2⟩ := ih
    rw [givenIds_append]
    rcases Pool.cur_step hs with ⟨e1, e2⟩ | ⟨e1, e2⟩
    · rw [e1, e2, List.append_nil]
      exact ⟨h1, h2⟩
    · rw [e1, e2]
      simp only [List.length_append, List.length_singleton, List.range_succ, List.map_append, List.map_cons, List.map_nil]
      refine ⟨by omega, ?_⟩
      rw [← h2, h1]
      congr 3
      omega

end StAsio
