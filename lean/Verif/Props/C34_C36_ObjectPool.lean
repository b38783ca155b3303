import Verif.Lemmas.ObjectPool3
/-!
C34, C35 and C36: the object pool.
-/
set_option autoImplicit false
namespace StAsio

/-! ### C34 -/

/-- **C34** (faithful lookup): find(id) returns exactly what the successful calls say, for every sequence of calls by any threads. -/
theorem C34_find {r : Bool} {start m : Nat} {as : List PoolAct} {s : Pool} {es : List PoolEv} (hr : Pool.Run r (Pool.init start m) as s es) (id : Nat) : canFind s.can id = directory es id :=
  (Pool.run_base hr).dir id

/-- **C34** (unique ids): what find(id) returns has this id, so an object is found under one id only. -/
theorem C34_ids {r : Bool} {start m : Nat} {as : List PoolAct} {s : Pool} {es : List PoolEv} (hr : Pool.Run r (Pool.init start m) as s es) {id o : Nat} (hf : directory es id = some o) :
    s.id o = id ∧ ∀ id', directory es id' = some o → id' = id := by
  have hb := Pool.run_base hr
  have key : ∀ i, directory es i = some o → s.id o = i := by
    intro i hi
    rw [← hb.dir, canFind_some hb.nodup] at hi
    exact hb.keys _ hi
  exact ⟨key id hf, fun i hi => (key i hi).symm.trans (key id hf)⟩

/-- **C34** (iteration): do_something_to_all visits every object that can be found, and each once. -/
theorem C34_visit {r : Bool} {start m : Nat} {as : List PoolAct} {s : Pool} {es : List PoolEv} (hr : Pool.Run r (Pool.init start m) as s es) :
    (s.can.map (·.2)).Nodup ∧ ∀ o, o ∈ s.can.map (·.2) ↔ ∃ id, directory es id = some o := by
  have hb := Pool.run_base hr
  refine ⟨?_, ?_⟩
  · have h1 := hb.nodup
    have h2 := hb.keys
    revert h1 h2
    generalize s.can = m
    intro h1 h2
    rw [List.Nodup, List.pairwise_map] at h1 ⊢
    refine List.Pairwise.imp_of_mem ?_ h1
    intro a b ha hb hab c
    apply hab
    rw [← h2 a ha, ← h2 b hb, c]
  · intro o
    rw [List.mem_map]
    constructor
    · rintro ⟨p, hp, rfl⟩
      exact ⟨p.1, by rw [← hb.dir, canFind_some hb.nodup]; exact hp⟩
    · rintro ⟨i, hi⟩
      rw [← hb.dir, canFind_some hb.nodup] at hi
      exact ⟨_, hi, rfl⟩

/-- **C34** (bounded size): the number of pooled objects never exceeds the largest max_size in force so far. -/
theorem C34_bound {r : Bool} {start m B : Nat} {as : List PoolAct} {s : Pool} {es : List PoolEv} (hr : Pool.GoodRun r Pool.proper (Pool.init start m) as s es) (hm : m ≤ B) (hs : ∀ n, PoolAct.setMax n ∈ as → n ≤ B) : s.can.length ≤ B := by
  suffices h : s.can.length ≤ B ∧ s.maxSize ≤ B from h.1
  generalize h0 : Pool.init start m = s0 at hr
  induction hr with
  | nil => subst h0; simpa [Pool.init] using hm
  | snoc s1 s2 as a es fs hr hn hst ih =>
    subst h0
    exact Pool.size_step (Pool.run_base hr.run) (ih (fun n hn => hs n (List.mem_append_left _ hn))) hn (fun n hn => hs n (List.mem_append_right _ (by rw [hn]; simp))) hst

/-- **C34** (a full pool refuses): whatever happened before, add_object on a full pool fails and changes nothing. -/
theorem C34_full {r : Bool} {s s' : Pool} {o : Nat} {fs : List PoolEv} (hf : s.maxSize ≤ s.can.length) (hs : s.step r (.add o) = some (s', fs)) : s' = s ∧ fs = [.addCall o (s.id o) false] := by
  simp only [Pool.step] at hs
  split at hs
  · cases hs
  · rw [if_neg (by omega)] at hs
    cases hs
    exact ⟨rfl, rfl⟩

/-- **C34** (in one place only): an object is in the pool or in the invalid list (or on the way), never in both and never twice. -/
theorem C34_one_place {r : Bool} {start m : Nat} {as : List PoolAct} {s : Pool} {es : List PoolEv} (hr : Pool.GoodRun r (fun s a => s.noClash a ∧ s.proper a) (Pool.init start m) as s es) (o : Nat) :
    (s.can.map (·.2)).count o + s.invalid.count o + s.moving.count o ≤ 1 := by
  have := Pool.run_places hr o
  simp only [Pool.places] at this
  omega

/-- C34_one_place needs sensible use. restore_socket(s, id, false) is not atomic: if the socket is deleted by another thread in the middle, it ends up in the pool and in the invalid list. -/
theorem C34_fails_restore_race : ∃ (as : List PoolAct) (s : Pool) (es : List PoolEv), Pool.Run false (Pool.init 0 10) as s es ∧ (∀ o i, PoolAct.initId o i ∉ as) ∧ 1 ∈ s.can.map (·.2) ∧ 1 ∈ s.invalid :=
  -- object 0 was deleted and waits in the invalid list; object 1 is being restored to its id while it is deleted
  ⟨_, _, _, Pool.exec_run (as := [.create true, .add 0, .create true, .add 1, .delObj 0, .bury 0 true, .obsolete 0 true, .drop 0, .changeBegin 1 1, .delObj 1, .bury 0 true, .changeEnd 0]) rfl, by simp, by decide +kernel, by decide +kernel⟩

/-! ### C35 -/

/-- **C35** (only dead objects are reused, freed or replaced): an object is taken out of the invalid list only if it declares itself obsoleted, nobody else refers to it, it is not in the pool, and it was deleted since it was last created. -/
theorem C35_only_dead {r : Bool} {start m : Nat} {as : List PoolAct} {s s' : Pool} {es fs : List PoolEv} {a : PoolAct} (hr : Pool.Run r (Pool.init start m) as s es) (hs : s.step r a = some (s', fs)) {o : Nat}
    (he : PoolEv.reused o ∈ fs ∨ PoolEv.freed o ∈ fs ∨ PoolEv.popped o ∈ fs) :
    s.obs o = true ∧ s.refs o = 0 ∧ o ∉ s.can.map (·.2) ∧ (∀ id, directory es id ≠ some o) ∧ deletedSince es o := by
  have hb := Pool.run_base hr
  have hbur := Pool.run_buried hr
  have fin : o ∈ s.invalid → s.obs o = true → s.refs o = 0 → o ∉ s.can.map (·.2) → s.obs o = true ∧ s.refs o = 0 ∧ o ∉ s.can.map (·.2) ∧ (∀ id, directory es id ≠ some o) ∧ deletedSince es o := by
    intro h1 h2 h3 h4
    refine ⟨h2, h3, h4, ?_, hbur o (Or.inl h1)⟩
    intro i hi
    rw [← hb.dir, canFind_some hb.nodup] at hi
    exact h4 (List.mem_map.2 ⟨_, hi, rfl⟩)
  have fin' : o ∈ s.invalid → s.dead o = true → s.obs o = true ∧ s.refs o = 0 ∧ o ∉ s.can.map (·.2) ∧ (∀ id, directory es id ≠ some o) ∧ deletedSince es o := by
    intro h1 h2
    have h := dead_spec h1 h2
    exact fin h1 h.1 h.2.1 h.2.2.1
  cases a with
  | create alloc =>
    simp only [Pool.step] at hs
    split at hs
    · rename_i x s1 hp
      cases r with
      | false => simp at hp
      | true =>
        simp only [if_pos] at hp
        obtain ⟨hm, hd, rfl⟩ := popAny_spec hp
        cases hs
        simp at he
        subst he
        exact fin' hm hd
    · split at hs <;> cases hs <;> simp at he
  | add x =>
    simp only [Pool.step] at hs
    split at hs
    · cases hs
    · split at hs <;> cases hs <;> simp at he
  | delObj x =>
    simp only [Pool.step] at hs
    split at hs
    · cases hs
    · split at hs <;> cases hs <;> simp at he
  | delId i => simp only [Pool.step] at hs; split at hs <;> cases hs <;> simp at he
  | bury i hold => simp only [Pool.step] at hs; split at hs <;> cases hs; simp at he
  | initId x i =>
    simp only [Pool.step] at hs
    split at hs <;> cases hs
    simp at he
  | changeBegin x i =>
    simp only [Pool.step] at hs
    split at hs
    · cases hs
    · split at hs
      · rename_i old s1 hp
        obtain ⟨hm, hd, hid, rfl⟩ := popById_spec hp
        cases hs
        simp at he
        subst he
        exact fin' hm hd
      · cases hs; simp at he
  | changeEnd i =>
    simp only [Pool.step] at hs
    split at hs
    · split at hs <;> cases hs <;> simp at he
    · cases hs
  | clear => simp only [Pool.step] at hs; cases hs; simp at he
  | free num =>
    simp only [Pool.step] at hs
    cases hs
    simp at he
    have h := freeLoop_dead s num [] s.invalid o he
    exact fin h.1 h.2.1 h.2.2.1 h.2.2.2.1
  | pop =>
    simp only [Pool.step] at hs
    split at hs
    · rename_i x s1 hp
      obtain ⟨hm, hd, rfl⟩ := popAny_spec hp
      cases hs
      simp at he
      subst he
      exact fin' hm hd
    · cases hs; simp at he
  | popId i =>
    simp only [Pool.step] at hs
    split at hs
    · rename_i x s1 hp
      obtain ⟨hm, hd, _, rfl⟩ := popById_spec hp
      cases hs
      simp at he
      subst he
      exact fin' hm hd
    · cases hs; simp at he
  | hold x => simp only [Pool.step] at hs; split at hs <;> cases hs; simp at he
  | drop x => simp only [Pool.step] at hs; split at hs <;> cases hs; simp at he
  | obsolete x b => simp only [Pool.step] at hs; cases hs; simp at he
  | setMax n => simp only [Pool.step] at hs; cases hs; simp at he
  | finalize => simp only [Pool.step] at hs; cases hs; simp at he

/-- **C35** (fresh ids): the ids given out by create_object, to new and reused objects, are pairwise different (up to 2^64 of them). -/
theorem C35_fresh_ids {r : Bool} {start m : Nat} {as : List PoolAct} {s : Pool} {es : List PoolEv} (hr : Pool.Run r (Pool.init start m) as s es) (hl : (givenIds es).length ≤ 2 ^ 64) : (givenIds es).Nodup := by
  rw [(Pool.run_given hr).2]
  exact range_mod_nodup start _ hl

/-- **C35** (nothing dead stays): free_object() (without a limit below the size of the list) leaves no object that could have been freed. -/
theorem C35_free_complete {r : Bool} {s s' : Pool} {fs : List PoolEv} {num : Nat} (hn : s.invalid.length ≤ num) (hs : s.step r (.free num) = some (s', fs)) : ∀ o ∈ s'.invalid, s'.dead o = false := by
  simp only [Pool.step] at hs
  cases hs
  exact freeLoop_complete s num [] s.invalid hn (by simp)

/-- **C35** (limit): free_object(num) frees at most num objects, and loses none: what was in the list is freed or still in it. -/
theorem C35_free_exact {r : Bool} {s s' : Pool} {fs : List PoolEv} {num : Nat} (hs : s.step r (.free num) = some (s', fs)) :
    ∃ gone : List Nat, fs = gone.map PoolEv.freed ∧ gone.length ≤ num ∧ ∀ x, gone.count x + s'.invalid.count x = s.invalid.count x := by
  simp only [Pool.step] at hs
  cases hs
  have h := freeLoop_spec s num [] s.invalid
  exact ⟨_, rfl, h.2.2.2.1, by simpa using h.2.2.2.2⟩

/-- **C35** (reuse comes first): with ST_ASIO_REUSE_OBJECT no memory is allocated while a dead object waits in the invalid list. -/
theorem C35_reuse_first {s s' : Pool} {fs : List PoolEv} {alloc : Bool} {o : Nat} (ho : o ∈ s.invalid) (hd : s.dead o = true) (hs : s.step true (.create alloc) = some (s', fs)) :
    s'.next = s.next ∧ ∃ x, x ∈ s.invalid ∧ s.dead x = true ∧ fs = [.reused x, .created x ((1 + s.cur) % 2 ^ 64)] := by
  simp only [Pool.step, if_pos] at hs
  split at hs
  · rename_i x s1 hp
    obtain ⟨hm, hd, rfl⟩ := popAny_spec hp
    cases hs
    exact ⟨rfl, x, hm, hd, rfl⟩
  · rename_i hp
    simp only [Pool.popAny] at hp
    split at hp
    · cases hp
    · rename_i hf
      rw [List.find?_eq_none] at hf
      exact absurd hd (hf o ho)

/-! ### C36 -/

/-- **C36** (partial): as long as no id is given to two objects, del_object(object_ptr) removes exactly this object, and reports whether it was in the pool. Missing: ids set with restore_socket(..., true) may clash. -/
theorem C36_very_object_partial {r : Bool} {start m : Nat} {as : List PoolAct} {s s' : Pool} {es fs : List PoolEv} {o : Nat} (hr : Pool.GoodRun r Pool.noClash (Pool.init start m) as s es)
    (hs : s.step r (.delObj o) = some (s', fs)) :
    (∀ p, p ∈ s'.can ↔ p ∈ s.can ∧ p.2 ≠ o) ∧ ∃ ok, fs = [.delCall o (s.id o) ok] ∧ (ok = true ↔ o ∈ s.can.map (·.2)) := by
  have hb := Pool.run_base hr.run
  have hu := Pool.run_uniq hr
  simp only [Pool.step] at hs
  split at hs
  · cases hs
  · rename_i hr
    have hlo : s.live o := Or.inl (by omega)
    have hsame : ∀ p ∈ s.can, p.1 = s.id o ↔ p.2 = o := by
      intro p hp
      have hk := hb.keys p hp
      constructor
      · intro h
        exact hu p.2 o (Or.inr (Or.inl (List.mem_map.2 ⟨p, hp, rfl⟩))) hlo (hk.trans h)
      · intro h
        rw [← hk, h]
    split at hs
    · rename_i ha
      cases hs
      refine ⟨?_, true, rfl, ?_⟩
      · intro p
        rw [mem_canErase]
        constructor
        · rintro ⟨hp, hk⟩; exact ⟨hp, fun c => hk ((hsame p hp).2 c)⟩
        · rintro ⟨hp, hk⟩; exact ⟨hp, fun c => hk ((hsame p hp).1 c)⟩
      · rw [any_key, List.mem_map] at ha
        obtain ⟨p, hp, hk⟩ := ha
        simp only [true_iff]
        exact List.mem_map.2 ⟨p, hp, (hsame p hp).1 hk⟩
    · rename_i ha
      cases hs
      have hno : ∀ p ∈ s.can, p.2 ≠ o := by
        intro p hp c
        exact ha ((any_key _ _).2 (List.mem_map.2 ⟨p, hp, (hsame p hp).2 c⟩))
      refine ⟨?_, false, rfl, ?_⟩
      · intro p
        exact ⟨fun hp => ⟨hp, hno p hp⟩, fun hp => hp.1⟩
      · constructor
        · intro h; cases h
        · intro h
          obtain ⟨p, hp, hpo⟩ := List.mem_map.1 h
          exact absurd hpo (hno p hp)

/-- **C36** holds without further conditions if restore_socket(..., true) is not used and fewer than 2^64 objects are created. -/
theorem C36_without_init {r : Bool} {start m : Nat} {as : List PoolAct} {s s' : Pool} {es fs : List PoolEv} {o : Nat} (hr : Pool.Run r (Pool.init start m) as s es) (hi : ∀ o i, PoolAct.initId o i ∉ as)
    (hl : (givenIds es).length < 2 ^ 64) (hs : s.step r (.delObj o) = some (s', fs)) :
    (∀ p, p ∈ s'.can ↔ p ∈ s.can ∧ p.2 ≠ o) ∧ ∃ ok, fs = [.delCall o (s.id o) ok] ∧ (ok = true ↔ o ∈ s.can.map (·.2)) :=
  C36_very_object_partial (Pool.run_noClash hr hi hl) hs

/-- C36 fails in general: an object restored (init = true) to the id of a deleted one is removed from the pool when the deleted one is deleted again; it is not even put into the invalid list. -/
theorem C36_fails_init : ∃ (as : List PoolAct) (s s' : Pool) (es : List PoolEv), Pool.GoodRun false Pool.proper (Pool.init 0 10) as s es ∧ 1 ∈ s.can.map (·.2) ∧ 0 ∉ s.can.map (·.2) ∧
    s.step false (.delObj 0) = some (s', [.delCall 0 1 true]) ∧ s'.can = [] ∧ 1 ∉ s'.invalid ∧ 1 ∉ s'.moving := by
  have h : ∃ s es, Pool.GoodRun false Pool.proper (Pool.init 0 10) [.create true, .add 0, .create true, .add 1, .delObj 0, .bury 0 true, .initId 1 1] s es ∧ Pool.exec false (Pool.init 0 10) [.create true, .add 0, .create true, .add 1, .delObj 0, .bury 0 true, .initId 1 1] = some (s, es) :=
    ⟨_, _, .cons trivial rfl <| .cons (by unfold Pool.proper Pool.outside; decide +kernel) rfl <| .cons trivial rfl <| .cons (by unfold Pool.proper Pool.outside; decide +kernel) rfl <| .cons trivial rfl <|
      .cons trivial rfl <| .cons (by unfold Pool.proper; decide +kernel) rfl <| .nil _, rfl⟩
  obtain ⟨s, es, h, he⟩ := h
  have e : some (s, es) = some _ := he.symm.trans rfl
  cases e
  exact ⟨_, _, _, _, h, by decide +kernel, by decide +kernel, rfl, rfl, by decide +kernel, by decide +kernel⟩

/-- The pool holds a reference to the object: it is in the pool, in the invalid list, or on the way between them. -/
def Pool.holds (s : Pool) (o : Nat) : Prop := o ∈ s.can.map (·.2) ∨ o ∈ s.invalid ∨ o ∈ s.moving ∨ o ∈ s.changing.map (·.2.2)

/-- **C36** (no object is lost): what the pool holds it keeps holding, whatever is called, until the object is reused or freed, given to the caller by invalid_object_pop, replaced by a successful
restore_socket, dropped by finalize, or memory is exhausted. -/
theorem C36_not_lost {r : Bool} {start m : Nat} {as : List PoolAct} {s s' : Pool} {es fs : List PoolEv} {a : PoolAct} (hr : Pool.GoodRun r Pool.noClash (Pool.init start m) as s es)
    (hp : s.proper a) (hs : s.step r a = some (s', fs)) {o : Nat} (ho : s.holds o) :
    s'.holds o ∨ PoolEv.reused o ∈ fs ∨ PoolEv.freed o ∈ fs ∨ (PoolEv.popped o ∈ fs ∧ (a = .pop ∨ ∃ id, a = .popId id)) ∨
      (∃ i x id, a = .changeEnd i ∧ s.changing[i]? = some (x, id, o) ∧ fs = [.initCall x (s.id x) id true]) ∨ a = .finalize ∨ ∃ i, a = .bury i false := by
  have hb := Pool.run_base hr.run
  have herase : ∀ {l : List Nat} {x : Nat}, o ∈ l → o ∈ l.erase x ∨ o = x := by
    intro l x h
    by_cases hx : o = x
    · exact Or.inr hx
    · exact Or.inl ((List.mem_erase_of_ne hx).2 h)
  have hidx : ∀ {l : List Nat} {i x : Nat}, l[i]? = some x → o ∈ l → o ∈ l.eraseIdx i ∨ o = x := by
    intro l i x hx h
    by_cases hox : o = x
    · exact Or.inr hox
    · left
      have := count_eraseIdx hx o
      rw [if_neg (fun h => hox h.symm)] at this
      have h2 := List.count_pos_iff.2 h
      exact List.count_pos_iff.1 (by omega)
  have hinit : ∀ x i, x ∈ s.can.map (·.2) → o ∈ s.can.map (·.2) → o ∈ (s.initObjectId x i).1.can.map (·.2) := by
    intro x i hx ho
    rcases s.initObjectId_cases x i with ⟨_, e⟩ | ⟨_, _, e⟩ | ⟨hne, _, e⟩
    · rw [e]; exact ho
    · rw [e]; exact ho
    · rw [e]
      simp only [List.mem_map] at hx ho ⊢
      obtain ⟨p, hp1, hp2⟩ := ho
      by_cases hpx : p.2 = x
      · exact ⟨(i, x), (mem_canErase _ _ _).2 ⟨by simp, fun h => hne h.symm⟩, by rw [← hp2, hpx]⟩
      · refine ⟨p, (mem_canErase _ _ _).2 ⟨by simp [hp1], ?_⟩, hp2⟩
        intro hk
        obtain ⟨q, hq1, hq2⟩ := hx
        have hkq := hb.keys q hq1
        rw [hq2] at hkq
        apply hpx
        have h1 := (canFind_some hb.nodup p.1 p.2).2 hp1
        have h2 := (canFind_some hb.nodup q.1 q.2).2 hq1
        rw [hk, hkq, h2] at h1
        rw [← hq2]
        exact (Option.some.inj h1).symm
  have hsame : ∀ x i, (s.initObjectId x i).1.invalid = s.invalid ∧ (s.initObjectId x i).1.moving = s.moving ∧ (s.initObjectId x i).1.changing = s.changing := by
    intro x i
    rcases s.initObjectId_cases x i with ⟨_, e⟩ | ⟨_, _, e⟩ | ⟨_, _, e⟩ <;> (rw [e]; exact ⟨rfl, rfl, rfl⟩)
  cases a with
  | create alloc =>
    simp only [Pool.step] at hs
    split at hs
    · rename_i x s1 hx
      have hx : s.popAny = some (x, s1) := by
        cases r
        · simp at hx
        · simpa using hx
      obtain ⟨_, _, rfl⟩ := popAny_spec hx
      cases hs
      rcases ho with h | h | h | h
      · exact Or.inl (Or.inl h)
      · rcases herase (x := x) h with h | rfl
        · exact Or.inl (Or.inr (Or.inl h))
        · exact Or.inr (Or.inl (by simp))
      · exact Or.inl (Or.inr (Or.inr (Or.inl h)))
      · exact Or.inl (Or.inr (Or.inr (Or.inr h)))
    · split at hs <;> (cases hs; exact Or.inl ho)
  | add x =>
    simp only [Pool.step] at hs
    split at hs
    · cases hs
    · split at hs
      · cases hs
        left
        rcases ho with h | h
        · left
          rcases canEmplace_cases s.can (s.id x) x with ⟨_, e⟩ | ⟨_, e⟩
          · rw [e]; exact h
          · rw [e]; simp only [List.map_append, List.mem_append]; exact Or.inl h
        · exact Or.inr h
      · cases hs; exact Or.inl ho
  | delObj x =>
    obtain ⟨h1, ok, h2, h3⟩ := C36_very_object_partial hr hs
    simp only [Pool.step] at hs
    split at hs
    · cases hs
    · split at hs
      · cases hs
        left
        rcases ho with h | h | h | h
        · by_cases hx : o = x
          · subst hx; exact Or.inr (Or.inr (Or.inl (by simp)))
          · left
            rw [List.mem_map] at h ⊢
            obtain ⟨p, hp1, hp2⟩ := h
            exact ⟨p, (h1 p).2 ⟨hp1, by rw [hp2]; exact hx⟩, hp2⟩
        · exact Or.inr (Or.inl h)
        · exact Or.inr (Or.inr (Or.inl (by simp [h])))
        · exact Or.inr (Or.inr (Or.inr h))
      · cases hs; exact Or.inl ho
  | delId id =>
    simp only [Pool.step] at hs
    split at hs
    · rename_i x hx
      cases hs
      left
      rcases ho with h | h | h | h
      · by_cases hox : o = x
        · subst hox; exact Or.inr (Or.inr (Or.inl (by simp)))
        · left
          rw [List.mem_map] at h ⊢
          obtain ⟨p, hp1, hp2⟩ := h
          refine ⟨p, (mem_canErase _ _ _).2 ⟨hp1, ?_⟩, hp2⟩
          intro hk
          have h1 := (canFind_some hb.nodup p.1 p.2).2 hp1
          rw [hk, hx, hp2] at h1
          exact hox (Option.some.inj h1).symm
      · exact Or.inr (Or.inl h)
      · exact Or.inr (Or.inr (Or.inl (by simp [h])))
      · exact Or.inr (Or.inr (Or.inr h))
    · cases hs; exact Or.inl ho
  | bury i hold =>
    cases hold
    · exact Or.inr (Or.inr (Or.inr (Or.inr (Or.inr (Or.inr ⟨i, rfl⟩)))))
    · simp only [Pool.step] at hs
      split at hs
      · rename_i x hx
        cases hs
        left
        rcases ho with h | h | h | h
        · exact Or.inl h
        · exact Or.inr (Or.inl (by simp [h]))
        · rcases hidx hx h with h | rfl
          · exact Or.inr (Or.inr (Or.inl h))
          · exact Or.inr (Or.inl (by simp))
        · exact Or.inr (Or.inr (Or.inr h))
      · cases hs
  | initId x i =>
    simp only [Pool.step] at hs
    split at hs
    · cases hs
    · cases hs
      obtain ⟨e1, e2, e3⟩ := hsame x i
      left
      rcases ho with h | h | h | h
      · exact Or.inl (hinit x i hp h)
      · exact Or.inr (Or.inl (by rw [e1]; exact h))
      · exact Or.inr (Or.inr (Or.inl (by rw [e2]; exact h)))
      · exact Or.inr (Or.inr (Or.inr (by rw [e3]; exact h)))
  | changeBegin x i =>
    simp only [Pool.step] at hs
    split at hs
    · cases hs
    · split at hs
      · rename_i old s1 hx
        obtain ⟨_, _, _, rfl⟩ := popById_spec hx
        cases hs
        left
        rcases ho with h | h | h | h
        · exact Or.inl h
        · rcases herase (x := old) h with h | rfl
          · exact Or.inr (Or.inl h)
          · exact Or.inr (Or.inr (Or.inr (by simp)))
        · exact Or.inr (Or.inr (Or.inl h))
        · exact Or.inr (Or.inr (Or.inr (by simp only [List.map_append, List.mem_append]; exact Or.inl h)))
      · cases hs; exact Or.inl ho
  | changeEnd i =>
    simp only [Pool.step] at hs
    split at hs
    · rename_i x id old hx
      have hxc := hp (x, id, old) hx
      obtain ⟨e1, e2, e3⟩ := hsame x id
      have hch : o ∈ s.changing.map (·.2.2) → o ∈ (s.changing.eraseIdx i).map (·.2.2) ∨ o = old := by
        intro h
        by_cases hoo : o = old
        · exact Or.inr hoo
        · left
          rw [List.mem_map] at h ⊢
          obtain ⟨t, ht1, ht2⟩ := h
          refine ⟨t, ?_, ht2⟩
          obtain ⟨j, hj⟩ := List.mem_iff_getElem?.1 ht1
          rw [List.mem_eraseIdx_iff_getElem?]
          refine ⟨j, ?_, hj⟩
          intro hji
          subst hji
          rw [hx] at hj
          cases hj
          exact hoo ht2.symm
      split at hs
      · cases hs
        rcases ho with h | h | h | h
        · exact Or.inl (Or.inl (hinit x id hxc h))
        · exact Or.inl (Or.inr (Or.inl (by simp only [e1]; exact h)))
        · exact Or.inl (Or.inr (Or.inr (Or.inl (by simp only [e2]; exact h))))
        · rcases hch h with h | rfl
          · exact Or.inl (Or.inr (Or.inr (Or.inr h)))
          · exact Or.inr (Or.inr (Or.inr (Or.inr (Or.inl ⟨i, x, id, rfl, hx, rfl⟩))))
      · cases hs
        left
        rcases ho with h | h | h | h
        · exact Or.inl (hinit x id hxc h)
        · exact Or.inr (Or.inl (by simp [e1, h]))
        · exact Or.inr (Or.inr (Or.inl (by simp only [e2]; exact h)))
        · rcases hch h with h | rfl
          · exact Or.inr (Or.inr (Or.inr h))
          · exact Or.inr (Or.inl (by simp))
    · cases hs
  | clear =>
    simp only [Pool.step] at hs
    cases hs
    left
    rcases ho with h | h | h | h
    · rw [List.mem_map] at h
      obtain ⟨p, hp1, hp2⟩ := h
      cases hob : s.obs p.2
      · exact Or.inl (List.mem_map.2 ⟨p, List.mem_filter.2 ⟨hp1, by simp [hob]⟩, hp2⟩)
      · exact Or.inr (Or.inr (Or.inl (List.mem_append_right _ (List.mem_map.2 ⟨p, List.mem_filter.2 ⟨hp1, hob⟩, hp2⟩))))
    · exact Or.inr (Or.inl h)
    · exact Or.inr (Or.inr (Or.inl (List.mem_append_left _ h)))
    · exact Or.inr (Or.inr (Or.inr h))
  | free num =>
    simp only [Pool.step] at hs
    cases hs
    have h5 := (freeLoop_spec s num [] s.invalid).2.2.2.2 o
    rcases ho with h | h | h | h
    · exact Or.inl (Or.inl h)
    · have h6 := List.count_pos_iff.2 h
      simp only [List.count_nil, Nat.zero_add] at h5
      by_cases hz : (freeLoop s num [] s.invalid).2.count o = 0
      · exact Or.inr (Or.inr (Or.inl (List.mem_map.2 ⟨o, List.count_pos_iff.1 (by omega), rfl⟩)))
      · have h7 : o ∈ (freeLoop s num [] s.invalid).2 := List.count_pos_iff.1 (by omega)
        exact Or.inl (Or.inr (Or.inl h7))
    · exact Or.inl (Or.inr (Or.inr (Or.inl h)))
    · exact Or.inl (Or.inr (Or.inr (Or.inr h)))
  | pop =>
    simp only [Pool.step] at hs
    split at hs
    · rename_i x s1 hx
      obtain ⟨_, _, rfl⟩ := popAny_spec hx
      cases hs
      rcases ho with h | h | h | h
      · exact Or.inl (Or.inl h)
      · rcases herase (x := x) h with h | rfl
        · exact Or.inl (Or.inr (Or.inl h))
        · exact Or.inr (Or.inr (Or.inr (Or.inl ⟨by simp, Or.inl rfl⟩)))
      · exact Or.inl (Or.inr (Or.inr (Or.inl h)))
      · exact Or.inl (Or.inr (Or.inr (Or.inr h)))
    · cases hs; exact Or.inl ho
  | popId id =>
    simp only [Pool.step] at hs
    split at hs
    · rename_i x s1 hx
      obtain ⟨_, _, _, rfl⟩ := popById_spec hx
      cases hs
      rcases ho with h | h | h | h
      · exact Or.inl (Or.inl h)
      · rcases herase (x := x) h with h | rfl
        · exact Or.inl (Or.inr (Or.inl h))
        · exact Or.inr (Or.inr (Or.inr (Or.inl ⟨by simp, Or.inr ⟨id, rfl⟩⟩)))
      · exact Or.inl (Or.inr (Or.inr (Or.inl h)))
      · exact Or.inl (Or.inr (Or.inr (Or.inr h)))
    · cases hs; exact Or.inl ho
  | hold x => simp only [Pool.step] at hs; split at hs <;> cases hs; exact Or.inl ho
  | drop x => simp only [Pool.step] at hs; split at hs <;> cases hs; exact Or.inl ho
  | obsolete x b => simp only [Pool.step] at hs; cases hs; exact Or.inl ho
  | setMax n => simp only [Pool.step] at hs; cases hs; exact Or.inl ho
  | finalize => exact Or.inr (Or.inr (Or.inr (Or.inr (Or.inr (Or.inl rfl)))))

/-- **C36** (a deleted object waits in the invalid list): the object that a successful del_object or clear_obsoleted_object erases is on its way to the invalid list, and the second critical section puts
it there. -/
theorem C36_deleted_to_invalid {r : Bool} {s s' : Pool} {fs : List PoolEv} {i o : Nat} (ho : s.moving[i]? = some o) (hs : s.step r (.bury i true) = some (s', fs)) : o ∈ s'.invalid := by
  simp only [Pool.step, ho] at hs
  cases hs
  simp

/-! ### the hypotheses can be met -/

/-- A proper run: two objects are created and added, the first is deleted and becomes obsoleted, the second takes over its id. Object 1 is then found under id 1. -/
theorem C34_example : ∃ s es, Pool.GoodRun false (fun s a => s.noClash a ∧ s.proper a) (Pool.init 0 10)
    [.create true, .add 0, .create true, .add 1, .delObj 0, .bury 0 true, .obsolete 0 true, .drop 0, .changeBegin 1 1, .changeEnd 0] s es ∧ directory es 1 = some 1 ∧ directory es 2 = none := by
  have h : ∃ s es, Pool.GoodRun false Pool.proper (Pool.init 0 10) [.create true, .add 0, .create true, .add 1, .delObj 0, .bury 0 true, .obsolete 0 true, .drop 0, .changeBegin 1 1, .changeEnd 0] s es ∧
      givenIds es = [1, 2] ∧ directory es 1 = some 1 ∧ directory es 2 = none :=
    ⟨_, _, .cons trivial rfl <| .cons (by unfold Pool.proper Pool.outside; decide +kernel) rfl <| .cons trivial rfl <| .cons (by unfold Pool.proper Pool.outside; decide +kernel) rfl <| .cons trivial rfl <|
      .cons trivial rfl <| .cons trivial rfl <| .cons trivial rfl <| .cons trivial rfl <| .cons (by intro t ht; cases ht; decide +kernel) rfl <| .nil _, by decide +kernel, by decide +kernel, by decide +kernel⟩
  obtain ⟨s, es, h, h1, h2, h3⟩ := h
  exact ⟨s, es, (Pool.run_noClash h.run (by simp) (by rw [h1]; decide)).and h, h2, h3⟩

/-- The freed object of a concrete run: created, added, deleted, obsoleted, released. -/
example : ∃ s s' es, Pool.Run true (Pool.init 0 10) [.create true, .add 0, .delObj 0, .bury 0 true, .obsolete 0 true, .drop 0] s es ∧ s.step true (.free 100) = some (s', [.freed 0]) :=
  ⟨_, _, _, Pool.exec_run rfl, rfl⟩

/-- Reuse in a concrete run: the object comes back with id 2. -/
example : ∃ s s' es, Pool.Run true (Pool.init 0 10) [.create true, .add 0, .delObj 0, .bury 0 true, .obsolete 0 true, .drop 0] s es ∧ s.step true (.create true) = some (s', [.reused 0, .created 0 2]) :=
  ⟨_, _, _, Pool.exec_run rfl, rfl⟩

end StAsio
