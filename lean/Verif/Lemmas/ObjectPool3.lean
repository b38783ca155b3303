import Verif.Lemmas.ObjectPool2
set_option autoImplicit false
namespace StAsio

theorem range_mod_nodup (start n : Nat) (h : n ≤ 2 ^ 64) : ((List.range n).map (fun k => (start + 1 + k) % 2 ^ 64)).Nodup := by
  rw [List.Nodup, List.pairwise_map]
  refine List.Pairwise.imp_of_mem ?_ List.nodup_range
  intro a b ha hb hab c
  simp only [List.mem_range] at ha hb
  omega

/-- The ids of all objects were given out by create_object. -/
theorem Pool.run_ids {r : Bool} {start m : Nat} {as : List PoolAct} {s : Pool} {es : List PoolEv} (hr : Pool.Run r (Pool.init start m) as s es) (hi : ∀ o i, PoolAct.initId o i ∉ as) : ∀ x, x < s.next → s.id x ∈ givenIds es := by
  generalize h0 : Pool.init start m = s0 at hr
  induction hr with
  | nil => subst h0; simp [Pool.init]
  | snoc s1 s2 as a es fs hr hs ih =>
    subst h0
    have ih := ih (fun o i c => hi o i (List.mem_append_left _ c))
    have hb := Pool.run_base hr
    have hc := Pool.run_chg hr
    have key : ∀ x, s2.id x = s1.id x → x < s1.next → s2.id x ∈ givenIds (es ++ fs) := by
      intro x h1 h2
      rw [h1, givenIds_append]
      exact List.mem_append_left _ (ih x h2)
    intro x hx
    cases a with
    | create alloc =>
      simp only [Pool.step] at hs
      split at hs
      · rename_i o s1 hp
        cases r with
        | false => simp at hp
        | true =>
          simp only [if_pos] at hp
          obtain ⟨hm, _, rfl⟩ := popAny_spec hp
          cases hs
          by_cases hxo : x = o
          · subst hxo
            rw [givenIds_append]
            apply List.mem_append_right
            simp [Pool.initObject, upd, givenIds]
          · exact key x (by simp [Pool.initObject, upd, hxo]) hx
      · split at hs
        · cases hs
          by_cases hxo : x = s1.next
          · rw [givenIds_append]
            apply List.mem_append_right
            simp [Pool.initObject, upd, givenIds, hxo]
          · refine key x (by simp [Pool.initObject, upd, hxo]) ?_
            simp only [Pool.initObject] at hx
            omega
        · cases hs; exact key x rfl hx
    | add o =>
      simp only [Pool.step] at hs
      split at hs
      · cases hs
      · split at hs <;> cases hs <;> exact key x rfl hx
    | delObj o =>
      simp only [Pool.step] at hs
      split at hs
      · cases hs
      · split at hs <;> cases hs <;> exact key x rfl hx
    | delId i => simp only [Pool.step] at hs; split at hs <;> cases hs <;> exact key x rfl hx
    | bury i hold => simp only [Pool.step] at hs; split at hs <;> cases hs; exact key x rfl hx
    | initId o i => exact absurd (List.mem_append_right _ (List.mem_singleton.2 rfl)) (hi o i)
    | changeBegin o i =>
      simp only [Pool.step] at hs
      split at hs
      · cases hs
      · split at hs
        · rename_i old s1 hp
          obtain ⟨_, _, hid, rfl⟩ := popById_spec hp
          cases hs; exact key x rfl hx
        · cases hs; exact key x rfl hx
    | changeEnd i =>
      simp only [Pool.step] at hs
      split at hs
      · rename_i o j old hi'
        have hm := List.mem_of_getElem? hi'
        obtain ⟨d1, _⟩ := hc.chg _ hm
        have d1 : s1.id old = j := d1
        have hold : old < s1.next := hb.known _ (Or.inr (Or.inr (Or.inr (Or.inr (List.mem_map.2 ⟨_, hm, rfl⟩)))))
        obtain ⟨f1, f2, f3, f4, f5, f6, f7, f8, f9, f10⟩ := s1.initObjectId_frame o j
        have hid : ∀ x, (s1.initObjectId o j).1.id x = s1.id x ∨ (s1.initObjectId o j).1.id x = s1.id old := by
          intro x
          by_cases hxo : x = o
          · subst hxo
            rcases s1.initObjectId_cases x j with ⟨h, e⟩ | ⟨h, hi, e⟩ | ⟨h, hi, e⟩
            · rw [e]; exact Or.inl rfl
            · rw [e]; exact Or.inl rfl
            · rw [e]; right; simp [upd, d1]
          · exact Or.inl (f9 x hxo)
        have hx' : x < s1.next := by
          split at hs <;> cases hs <;> (simp only [f5] at hx; exact hx)
        have hfin : s2.id x = (s1.initObjectId o j).1.id x := by split at hs <;> cases hs <;> rfl
        rw [hfin, givenIds_append]
        apply List.mem_append_left
        rcases hid x with e | e
        · rw [e]; exact ih x hx'
        · rw [e]; exact ih old hold
      · cases hs
    | clear => simp only [Pool.step] at hs; cases hs; exact key x rfl hx
    | free num => simp only [Pool.step] at hs; cases hs; exact key x rfl hx
    | pop =>
      simp only [Pool.step] at hs
      split at hs
      · rename_i o s1 hp
        obtain ⟨hm, _, rfl⟩ := popAny_spec hp
        cases hs; exact key x rfl hx
      · cases hs; exact key x rfl hx
    | popId i =>
      simp only [Pool.step] at hs
      split at hs
      · rename_i o s1 hp
        obtain ⟨hm, _, _, rfl⟩ := popById_spec hp
        cases hs; exact key x rfl hx
      · cases hs; exact key x rfl hx
    | hold o => simp only [Pool.step] at hs; split at hs <;> cases hs; exact key x rfl hx
    | drop o => simp only [Pool.step] at hs; split at hs <;> cases hs; exact key x rfl hx
    | obsolete o b => simp only [Pool.step] at hs; cases hs; exact key x rfl hx
    | setMax n => simp only [Pool.step] at hs; cases hs; exact key x rfl hx
    | finalize => simp only [Pool.step] at hs; cases hs; exact key x rfl hx

/-- Without restore_socket(..., true), and with at most 2^64 - 1 objects created, no id is given twice. -/
theorem Pool.run_noClash {r : Bool} {start m : Nat} {as : List PoolAct} {s : Pool} {es : List PoolEv} (hr : Pool.Run r (Pool.init start m) as s es) (hi : ∀ o i, PoolAct.initId o i ∉ as) (hl : (givenIds es).length < 2 ^ 64) :
    Pool.GoodRun r Pool.noClash (Pool.init start m) as s es := by
  generalize h0 : Pool.init start m = s0 at hr ⊢
  induction hr with
  | nil => exact Pool.GoodRun.nil _
  | snoc s1 s2 as a es fs hr hs ih =>
    subst h0
    have hi' : ∀ o i, PoolAct.initId o i ∉ as := fun o i c => hi o i (List.mem_append_left _ c)
    have hl' : (givenIds es).length < 2 ^ 64 := by
      rw [givenIds_append, List.length_append] at hl
      omega
    refine Pool.GoodRun.snoc _ _ _ _ _ _ _ (ih hi' hl') ?_ hs
    cases a with
    | create alloc =>
      intro x hx c
      have h1 := Pool.run_ids hr hi' x ((Pool.run_base hr).known x hx)
      obtain ⟨g1, g2⟩ := Pool.run_given hr
      rw [c, g2, List.mem_map] at h1
      obtain ⟨k, hk, he⟩ := h1
      rw [List.mem_range] at hk
      rw [g1] at he
      omega
    | initId o i => exact absurd (List.mem_append_right _ (List.mem_singleton.2 rfl)) (hi o i)
    | _ => trivial

/-! ### deletion comes first -/

theorem deletedSince_append {es fs : List PoolEv} {o : Nat} (h : deletedSince es o) (hf : ∀ i, PoolEv.created o i ∉ fs) : deletedSince (es ++ fs) o := by
  obtain ⟨pre, e, post, rfl, he, hp⟩ := h
  refine ⟨pre, e, post ++ fs, by simp, he, ?_⟩
  intro i c
  rcases List.mem_append.1 c with c | c
  · exact hp i c
  · exact hf i c

/-- The object is in the invalid list, on its way there, or being replaced. -/
def Pool.buried (s : Pool) (o : Nat) : Prop := o ∈ s.invalid ∨ o ∈ s.moving ∨ o ∈ s.changing.map (·.2.2)

theorem Pool.buried_step {r : Bool} {s s' : Pool} {es fs : List PoolEv} {a : PoolAct} (hb : s.Base es) (hd : ∀ o, s.buried o → deletedSince es o) (hs : s.step r a = some (s', fs)) : ∀ o, s'.buried o → deletedSince (es ++ fs) o := by
  have hb0 := hb
  obtain ⟨h1, h2, h3, h4, h5⟩ := hb
  intro x hx
  have key : s.buried x → (∀ i, PoolEv.created x i ∉ fs) → deletedSince (es ++ fs) x := fun h h' => deletedSince_append (hd x h) h'
  cases a with
  | create alloc =>
    simp only [Pool.step] at hs
    split at hs
    · rename_i o s1 hp
      cases r with
      | false => simp at hp
      | true =>
        simp only [if_pos] at hp
        obtain ⟨hm, hdd, rfl⟩ := popAny_spec hp
        have hdd := dead_spec hm hdd
        cases hs
        simp only [Pool.buried, Pool.initObject] at hx
        have hne : x ≠ o := by
          rintro rfl
          rcases hx with hx | hx | hx
          · have := List.count_pos_iff.2 hx
            rw [List.count_erase_self] at this
            omega
          · exact hdd.2.2.2.1 hx
          · exact hdd.2.2.2.2.1 hx
        apply key
        · have := List.mem_of_mem_erase (a := x) (b := o) (l := s.invalid)
          simp only [Pool.buried]
          grind
        · intro i c
          simp at c
          exact hne c.1
    · split at hs
      · cases hs
        have hb' : s.buried x := hx
        apply key hb'
        intro i c
        simp at c
        have := h1 x (by simp only [Pool.buried] at hb'; simp only [Pool.live]; grind)
        omega
      · cases hs; exact key hx (by simp)
  | add o =>
    simp only [Pool.step] at hs
    split at hs
    · cases hs
    · split at hs <;> cases hs <;> exact key hx (by simp)
  | delObj o =>
    simp only [Pool.step] at hs
    split at hs
    · cases hs
    · split at hs
      · cases hs
        by_cases hxo : x = o
        · subst hxo
          exact ⟨es, _, [], rfl, Or.inl ⟨_, rfl⟩, by simp⟩
        · apply key _ (by simp)
          simp only [Pool.buried, List.mem_append, List.mem_singleton] at hx ⊢
          grind
      · cases hs; exact key hx (by simp)
  | delId i =>
    simp only [Pool.step] at hs
    split at hs
    · rename_i o hf
      cases hs
      by_cases hxo : x = o
      · subst hxo
        refine ⟨es, _, [], rfl, Or.inr (Or.inr ⟨i, rfl, ?_⟩), by simp⟩
        rw [← h5]; exact hf
      · apply key _ (by simp)
        simp only [Pool.buried, List.mem_append, List.mem_singleton] at hx ⊢
        grind
    · cases hs; exact key hx (by simp)
  | bury i hold =>
    simp only [Pool.step] at hs
    split at hs
    · rename_i o hi
      cases hs
      apply key _ (by simp)
      have hm := List.mem_of_getElem? hi
      have he := (List.eraseIdx_sublist s.moving i).subset (a := x)
      simp only [Pool.buried] at hx ⊢
      grind
    · cases hs
  | initId o i =>
    simp only [Pool.step] at hs
    split at hs
    · cases hs
    · cases hs
      obtain ⟨f1, f2, f3, f4, f5, f6, f7, f8, f9, f10⟩ := s.initObjectId_frame o i
      apply key _ (by simp)
      simp only [Pool.buried] at hx ⊢
      rw [f2, f3, f4] at hx
      exact hx
  | changeBegin o i =>
    simp only [Pool.step] at hs
    split at hs
    · cases hs
    · split at hs
      · rename_i old s1 hp
        obtain ⟨hm, _, hid, rfl⟩ := popById_spec hp
        cases hs
        apply key _ (by simp)
        have := List.mem_of_mem_erase (a := x) (b := old) (l := s.invalid)
        simp only [Pool.buried, List.map_append, List.mem_append] at hx ⊢
        grind
      · cases hs; exact key hx (by simp)
  | changeEnd i =>
    simp only [Pool.step] at hs
    split at hs
    · rename_i o j old hi
      have hm := List.mem_of_getElem? hi
      have hold : old ∈ s.changing.map (·.2.2) := List.mem_map.2 ⟨_, hm, rfl⟩
      obtain ⟨f1, f2, f3, f4, f5, f6, f7, f8, f9, f10⟩ := s.initObjectId_frame o j
      have hsub : x ∈ (s.changing.eraseIdx i).map (·.2.2) → x ∈ s.changing.map (·.2.2) := by
        intro hx
        exact (List.Sublist.map _ (List.eraseIdx_sublist s.changing i)).subset hx
      split at hs
      · cases hs
        apply key _ (by simp)
        simp only [Pool.buried] at hx ⊢
        rw [f2, f3] at hx
        grind
      · cases hs
        apply key _ (by simp)
        simp only [Pool.buried, List.mem_append, List.mem_singleton] at hx ⊢
        rw [f2, f3] at hx
        grind
    · cases hs
  | clear =>
    simp only [Pool.step] at hs
    cases hs
    simp only [Pool.buried, List.mem_append] at hx
    by_cases hg : x ∈ (s.can.filter (fun p => s.obs p.2)).map (·.2)
    · obtain ⟨p, hp, hpx⟩ := List.mem_map.1 hg
      obtain ⟨l1, l2, e⟩ := List.append_of_mem hp
      rw [e]
      refine ⟨es ++ l1.map (fun p => PoolEv.kicked p.2 p.1), PoolEv.kicked p.2 p.1, l2.map (fun p => PoolEv.kicked p.2 p.1), by simp, Or.inr (Or.inl ⟨p.1, by rw [hpx]⟩), ?_⟩
      intro i c
      simp at c
    · apply key
      · simp only [Pool.buried]; grind
      · intro i c; simp at c
  | free num =>
    simp only [Pool.step] at hs
    cases hs
    have hsp := (freeLoop_spec s num [] s.invalid).1 x
    apply key
    · simp only [Pool.buried] at hx ⊢; grind
    · intro i c; simp at c
  | pop =>
    simp only [Pool.step] at hs
    split at hs
    · rename_i o s1 hp
      obtain ⟨hm, _, rfl⟩ := popAny_spec hp
      cases hs
      apply key _ (by simp)
      have := List.mem_of_mem_erase (a := x) (b := o) (l := s.invalid)
      simp only [Pool.buried] at hx ⊢
      grind
    · cases hs; exact key hx (by simp)
  | popId i =>
    simp only [Pool.step] at hs
    split at hs
    · rename_i o s1 hp
      obtain ⟨hm, _, _, rfl⟩ := popById_spec hp
      cases hs
      apply key _ (by simp)
      have := List.mem_of_mem_erase (a := x) (b := o) (l := s.invalid)
      simp only [Pool.buried] at hx ⊢
      grind
    · cases hs; exact key hx (by simp)
  | hold o => simp only [Pool.step] at hs; split at hs <;> cases hs; exact key hx (by simp)
  | drop o => simp only [Pool.step] at hs; split at hs <;> cases hs; exact key hx (by simp)
  | obsolete o b => simp only [Pool.step] at hs; cases hs; exact key hx (by simp)
  | setMax n => simp only [Pool.step] at hs; cases hs; exact key hx (by simp)
  | finalize => simp only [Pool.step] at hs; cases hs; exact key hx (by simp)

theorem Pool.run_buried {r : Bool} {start m : Nat} {as : List PoolAct} {s : Pool} {es : List PoolEv} (hr : Pool.Run r (Pool.init start m) as s es) : ∀ o, s.buried o → deletedSince es o := by
  generalize h0 : Pool.init start m = s0 at hr
  induction hr with
  | nil => subst h0; simp [Pool.init, Pool.buried]
  | snoc s1 s2 as a es fs hr hs ih => subst h0; exact Pool.buried_step (Pool.run_base hr) ih hs

/-- free_object frees everything it may free if the number allows. -/
theorem freeLoop_complete (s : Pool) (num : Nat) (kept l : List Nat) (hn : l.length ≤ num) (hk : ∀ o ∈ kept, ({ s with invalid := kept ++ l } : Pool).dead o = false) :
    ∀ o ∈ (freeLoop s num kept l).2, ({ s with invalid := (freeLoop s num kept l).2 } : Pool).dead o = false := by
  induction l generalizing num kept with
  | nil => cases num <;> simpa [freeLoop] using hk
  | cons o l ih =>
    cases num with
    | zero => simp at hn
    | succ n =>
      simp only [freeLoop]
      simp only [List.length_cons] at hn
      split
      · rename_i hdead
        apply ih n kept (by omega)
        intro x hx
        have h1 := hk x hx
        have hne : o ≠ x := by rintro rfl; rw [h1] at hdead; cases hdead
        have : ({ s with invalid := kept ++ l } : Pool).count x = ({ s with invalid := kept ++ o :: l } : Pool).count x := by
          simp [Pool.count, List.count_append, List.count_cons, hne]
        simp only [Pool.dead] at h1 ⊢
        rw [this]
        exact h1
      · rename_i hdead
        apply ih (n + 1) (kept ++ [o]) (by omega)
        intro x hx
        rw [List.append_assoc, List.singleton_append]
        rcases List.mem_append.1 hx with hx | hx
        · exact hk x hx
        · rw [List.mem_singleton.1 hx]; simpa using hdead

theorem Pool.GoodRun.cons {r : Bool} {P : Pool → PoolAct → Prop} {s s1 s2 : Pool} {a : PoolAct} {as : List PoolAct} {fs es : List PoolEv} (hp : P s a) (hs : s.step r a = some (s1, fs)) (h : Pool.GoodRun r P s1 as s2 es) :
    Pool.GoodRun r P s (a :: as) s2 (fs ++ es) := by
  induction h with
  | nil => simpa using Pool.GoodRun.snoc _ _ _ [] _ [] _ (Pool.GoodRun.nil (reuse := r) (P := P) s) hp hs
  | snoc t1 t2 as b es gs _ hq ht ih =>
    rw [← List.append_assoc]
    exact Pool.GoodRun.snoc _ _ _ (a :: as) _ _ _ ih hq ht

/-- The result of a run is determined by its actions. -/
theorem Pool.run_fun {r : Bool} {s s1 s2 : Pool} {as : List PoolAct} {es fs : List PoolEv} (h1 : Pool.Run r s as s1 es) (h2 : Pool.Run r s as s2 fs) : s1 = s2 ∧ es = fs := by
  induction h1 generalizing s2 fs with
  | nil =>
    generalize h0 : ([] : List PoolAct) = l at h2
    cases h2 with
    | nil => exact ⟨rfl, rfl⟩
    | snoc => simp at h0
  | snoc t1 t2 as a es gs _ hs ih =>
    generalize h0 : as ++ [a] = l at h2
    cases h2 with
    | nil => simp at h0
    | snoc u1 u2 bs b es' gs' hr' hs' =>
      have h3 : as = bs ∧ [a] = [b] := List.append_inj' h0 rfl
      obtain ⟨rfl, h3⟩ := h3
      simp only [List.cons.injEq, and_true] at h3
      subst h3
      obtain ⟨rfl, rfl⟩ := ih hr'
      rw [hs] at hs'
      cases hs'
      exact ⟨rfl, rfl⟩

theorem Pool.GoodRun.and {r : Bool} {P Q : Pool → PoolAct → Prop} {s s' : Pool} {as : List PoolAct} {es : List PoolEv} (h1 : Pool.GoodRun r P s as s' es) (h2 : Pool.GoodRun r Q s as s' es) :
    Pool.GoodRun r (fun s a => P s a ∧ Q s a) s as s' es := by
  suffices h : ∀ {s' s'' : Pool} {es es'}, Pool.GoodRun r P s as s' es → Pool.GoodRun r Q s as s'' es' → Pool.GoodRun r (fun s a => P s a ∧ Q s a) s as s' es from h h1 h2
  intro s' s'' es es' h1 h2
  rename_i h10 h20; clear h10 h20
  induction h1 generalizing s'' es' with
  | nil => exact Pool.GoodRun.nil _
  | snoc t1 t2 as a es gs hr hp hs ih =>
    generalize h0 : as ++ [a] = l at h2
    cases h2 with
    | nil => simp at h0
    | snoc u1 u2 bs b es' gs' hr' hq' hs' =>
      have h3 : as = bs ∧ [a] = [b] := List.append_inj' h0 rfl
      obtain ⟨rfl, h3⟩ := h3
      simp only [List.cons.injEq, and_true] at h3
      subst h3
      obtain ⟨rfl, rfl⟩ := Pool.run_fun hr.run hr'.run
      exact Pool.GoodRun.snoc _ _ _ _ _ _ _ (ih hr') ⟨hp, hq'⟩ hs

end StAsio
