import Verif.Props.C34_C36_ObjectPool
/-!
**C35**, second part: an object that create_object, invalid_object_pop, find, ... handed out stays alive as long as it is held.
-/
set_option autoImplicit false
namespace StAsio

/-- Somebody other than the pool's own functions holds `o`. -/
def Pool.heldOut (s : Pool) (o : Nat) : Prop := (s.changing.map (·.1)).count o < s.refs o

private theorem upd_same (f : Nat → Nat) (o v : Nat) : upd f o v o = v := by simp [upd]
private theorem upd_le (f : Nat → Nat) (o x : Nat) : f o ≤ upd f x (f x + 1) o := by unfold upd; split <;> simp_all

theorem Pool.heldOut_step {r : Bool} {s s' : Pool} {fs : List PoolEv} {a : PoolAct} {o : Nat} (h : s.heldOut o) (ha : a ≠ .drop o) (hs : s.step r a = some (s', fs)) : s'.heldOut o := by
  unfold Pool.heldOut at h ⊢
  cases a with
  | create alloc =>
    simp only [Pool.step] at hs
    split at hs
    · rename_i x s1 hp
      cases r with
      | false => simp at hp
      | true =>
        simp only [if_pos] at hp
        obtain ⟨hm, hd, rfl⟩ := popAny_spec hp
        cases hs
        exact Nat.lt_of_lt_of_le h (upd_le s.refs o x)
    · split at hs <;> cases hs
      · exact Nat.lt_of_lt_of_le h (upd_le s.refs o s.next)
      · exact h
  | add x =>
    simp only [Pool.step] at hs
    split at hs
    · cases hs
    · split at hs <;> cases hs <;> exact h
  | delObj x =>
    simp only [Pool.step] at hs
    split at hs
    · cases hs
    · split at hs <;> cases hs <;> exact h
  | delId i => simp only [Pool.step] at hs; split at hs <;> cases hs <;> exact h
  | bury i hold => simp only [Pool.step] at hs; split at hs <;> cases hs; exact h
  | initId x i =>
    simp only [Pool.step] at hs
    split at hs <;> cases hs
    have hf := s.initObjectId_frame x i
    rw [hf.1, hf.2.2.2.1]; exact h
  | changeBegin x i =>
    simp only [Pool.step] at hs
    split at hs
    · cases hs
    · split at hs
      · rename_i old s1 hp
        obtain ⟨hm, hd, hid, rfl⟩ := popById_spec hp
        cases hs
        simp only [List.map_append, List.count_append, List.map_cons, List.map_nil, List.count_cons, List.count_nil, upd]
        by_cases e : o = x <;> grind
      · cases hs; exact h
  | changeEnd i =>
    simp only [Pool.step] at hs
    split at hs
    · rename_i x j old hx
      have hm : (s.changing.map (·.1))[i]? = some x := by simp [hx]
      have hc := count_eraseIdx hm o
      rw [← map_eraseIdx'] at hc
      have : ((s.changing.eraseIdx i).map (·.1)).count o < upd s.refs x (s.refs x - 1) o := by
        unfold upd
        by_cases e : o = x
        · subst e; simp only [if_true] at hc ⊢; omega
        · rw [if_neg e]; rw [if_neg (fun q => e q.symm)] at hc; omega
      split at hs <;> cases hs <;> exact this
    · cases hs
  | clear => simp only [Pool.step] at hs; cases hs; exact h
  | free num => simp only [Pool.step] at hs; cases hs; exact h
  | pop =>
    simp only [Pool.step] at hs
    split at hs
    · rename_i x s1 hp
      obtain ⟨hm, hd, rfl⟩ := popAny_spec hp
      cases hs
      exact Nat.lt_of_lt_of_le h (upd_le s.refs o x)
    · cases hs; exact h
  | popId i =>
    simp only [Pool.step] at hs
    split at hs
    · rename_i x s1 hp
      obtain ⟨hm, hd, _, rfl⟩ := popById_spec hp
      cases hs
      exact Nat.lt_of_lt_of_le h (upd_le s.refs o x)
    · cases hs; exact h
  | hold x =>
    simp only [Pool.step] at hs; split at hs <;> cases hs
    exact Nat.lt_of_lt_of_le h (upd_le s.refs o x)
  | drop x =>
    simp only [Pool.step] at hs; split at hs <;> cases hs
    have : o ≠ x := fun e => ha (by rw [e])
    simp only [upd, if_neg this]; exact h
  | obsolete x b => simp only [Pool.step] at hs; cases hs; exact h
  | setMax n => simp only [Pool.step] at hs; cases hs; exact h
  | finalize => simp only [Pool.step] at hs; cases hs; exact h

/-- `a` hands `o` to its caller: a new or reused object, an invalid one that was taken out, or one that was looked up. -/
def handsOut (a : PoolAct) (fs : List PoolEv) (o : Nat) : Prop :=
  (∃ i, PoolEv.created o i ∈ fs) ∨ (PoolEv.popped o ∈ fs ∧ (a = .pop ∨ ∃ i, a = .popId i)) ∨ a = .hold o

theorem Pool.handsOut_held {r : Bool} {start m : Nat} {as : List PoolAct} {s s' : Pool} {es fs : List PoolEv} {a : PoolAct} {o : Nat} (hr : Pool.Run r (Pool.init start m) as s es)
    (hs : s.step r a = some (s', fs)) (hh : handsOut a fs o) : s'.heldOut o := by
  have hle := (Pool.run_base hr).held o
  unfold Pool.heldOut
  rcases hh with ⟨i, hi⟩ | ⟨hp, ha⟩ | rfl
  · cases a with
    | create alloc =>
      simp only [Pool.step] at hs
      split at hs
      · rename_i x s1 hp
        cases r with
        | false => simp at hp
        | true =>
          simp only [if_pos] at hp
          obtain ⟨hm, hd, rfl⟩ := popAny_spec hp
          cases hs
          simp at hi
          obtain ⟨rfl, _⟩ := hi
          simp only [Pool.initObject, upd_same]; omega
      · split at hs <;> cases hs
        · simp at hi
          obtain ⟨rfl, _⟩ := hi
          simp only [Pool.initObject, upd_same]; omega
        · simp at hi
    | add x =>
      simp only [Pool.step] at hs
      split at hs
      · cases hs
      · split at hs <;> cases hs <;> simp at hi
    | delObj x =>
      simp only [Pool.step] at hs
      split at hs
      · cases hs
      · split at hs <;> cases hs <;> simp at hi
    | delId j => simp only [Pool.step] at hs; split at hs <;> cases hs <;> simp at hi
    | bury j hold => simp only [Pool.step] at hs; split at hs <;> cases hs; simp at hi
    | initId x j =>
      simp only [Pool.step] at hs
      split at hs <;> cases hs
      simp at hi
    | changeBegin x j =>
      simp only [Pool.step] at hs
      split at hs
      · cases hs
      · split at hs <;> cases hs <;> simp at hi
    | changeEnd j =>
      simp only [Pool.step] at hs
      split at hs
      · split at hs <;> cases hs <;> simp at hi
      · cases hs
    | clear => simp only [Pool.step] at hs; cases hs; simp at hi
    | free num => simp only [Pool.step] at hs; cases hs; simp at hi
    | pop => simp only [Pool.step] at hs; split at hs <;> cases hs <;> simp at hi
    | popId j => simp only [Pool.step] at hs; split at hs <;> cases hs <;> simp at hi
    | hold x => simp only [Pool.step] at hs; split at hs <;> cases hs; simp at hi
    | drop x => simp only [Pool.step] at hs; split at hs <;> cases hs; simp at hi
    | obsolete x b => simp only [Pool.step] at hs; cases hs; simp at hi
    | setMax n => simp only [Pool.step] at hs; cases hs; simp at hi
    | finalize => simp only [Pool.step] at hs; cases hs; simp at hi
  · rcases ha with rfl | ⟨j, rfl⟩ <;> simp only [Pool.step] at hs <;> split at hs
    · rename_i x s1 hq
      obtain ⟨hm, hd, rfl⟩ := popAny_spec hq
      cases hs
      simp at hp
      subst hp
      simp only [upd_same]; omega
    · cases hs; simp at hp
    · rename_i x s1 hq
      obtain ⟨hm, hd, _, rfl⟩ := popById_spec hq
      cases hs
      simp at hp
      subst hp
      simp only [upd_same]; omega
    · cases hs; simp at hp
  · simp only [Pool.step] at hs
    split at hs <;> cases hs
    simp only [upd_same]; omega

/-- **C35** (an object in use stays): whoever got an object from the pool, a new one, a reused one, one taken out of the invalid objects or one looked up, keeps it:
whatever other threads do, it is not freed, not reused and not taken out for somebody else until a reference to it is given up. -/
theorem C35_held {r : Bool} {start m : Nat} {as bs : List PoolAct} {s s1 s2 : Pool} {es fs gs : List PoolEv} {a : PoolAct} {o : Nat} (hr : Pool.Run r (Pool.init start m) as s es)
    (hs : s.step r a = some (s1, fs)) (hh : handsOut a fs o) (hb : Pool.Run r s1 bs s2 gs) (hd : PoolAct.drop o ∉ bs) :
    PoolEv.freed o ∉ gs ∧ PoolEv.reused o ∉ gs ∧ PoolEv.popped o ∉ gs := by
  have h1 := Pool.handsOut_held hr hs hh
  have hr1 : Pool.Run r (Pool.init start m) (as ++ [a]) s1 (es ++ fs) := Pool.Run.snoc _ _ _ _ _ _ _ hr hs
  have key : s2.heldOut o ∧ PoolEv.freed o ∉ gs ∧ PoolEv.reused o ∉ gs ∧ PoolEv.popped o ∉ gs := by
    induction hb with
    | nil => exact ⟨h1, by simp, by simp, by simp⟩
    | snoc t u bs b gs hs' hb' hst ih =>
      obtain ⟨i1, i2, i3, i4⟩ := ih (fun h => hd (List.mem_append_left _ h))
      have hne : b ≠ .drop o := fun e => hd (by rw [e]; simp)
      have hno : ∀ x, x = PoolEv.reused o ∨ x = PoolEv.freed o ∨ x = PoolEv.popped o → x ∉ hs' := by
        intro x hx hm
        have hdead := C35_only_dead (Pool.run_trans hr1 hb') hst (o := o) (by rcases hx with rfl | rfl | rfl <;> simp [hm])
        have := hdead.2.1
        unfold Pool.heldOut at i1
        omega
      refine ⟨Pool.heldOut_step i1 hne hst, ?_, ?_, ?_⟩ <;> rw [List.mem_append] <;> intro h <;> rcases h with h | h
      · exact i2 h
      · exact hno _ (by simp) h
      · exact i3 h
      · exact hno _ (by simp) h
      · exact i4 h
      · exact hno _ (by simp) h
  exact key.2

/-- Non-vacuity: an invalid object is taken out of the pool by its id, goes back to the invalid objects by a detour, is declared obsoleted, and is not freed before the reference is given up. -/
theorem C35_held_demo : ∃ (as bs : List PoolAct) (s s1 s2 s3 : Pool) (es fs gs hs : List PoolEv), Pool.Run false (Pool.init 0 10) as s es ∧ s.step false (.popId 1) = some (s1, fs) ∧ handsOut (.popId 1) fs 0 ∧
    Pool.Run false s1 bs s2 gs ∧ PoolAct.drop 0 ∉ bs ∧ PoolAct.free 5 ∈ bs ∧ 0 ∈ s2.invalid ∧ s2.obs 0 = true ∧ Pool.Run false s2 [.drop 0, .free 5] s3 hs ∧ PoolEv.freed 0 ∈ hs :=
  ⟨[.create true, .add 0, .delObj 0, .bury 0 true, .drop 0, .obsolete 0 true], [.add 0, .delObj 0, .bury 0 true, .free 5], _, _, _, _, _, _, _, _,
    Pool.exec_run rfl, rfl, Or.inr (Or.inl ⟨by decide, Or.inr ⟨1, rfl⟩⟩), Pool.exec_run rfl, by decide, by decide, by decide, by decide, Pool.exec_run rfl, by decide⟩

end StAsio
