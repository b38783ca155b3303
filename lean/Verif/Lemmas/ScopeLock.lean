import Verif.Model.ScopeLock
/-!
Invariants of the lock objects and of the threads that call start() and close().
-/
set_option autoImplicit false
namespace StAsio

/-! ### lock objects -/

theorem Lks.run_trans {s1 s2 s3 : Lks} {as bs : List SlAct} {es fs : List LkEv} (h1 : Lks.Run s1 as s2 es) (h2 : Lks.Run s2 bs s3 fs) : Lks.Run s1 (as ++ bs) s3 (es ++ fs) := by
  induction h2 with
  | nil => simpa using h1
  | snoc t1 t2 bs b fs gs _ hs ih =>
    rw [← List.append_assoc, ← List.append_assoc]
    exact .snoc _ _ _ _ _ _ _ ih hs

theorem Lks.run_one {s s' : Lks} {a : SlAct} {es : List LkEv} (h : s.step a = some (s', es)) : Lks.Run s [a] s' es := by
  simpa using Lks.Run.snoc s s s' [] a [] es (.nil s) h

theorem Lks.exec_run {as : List SlAct} : ∀ {s s' : Lks} {es : List LkEv}, s.exec as = some (s', es) → Lks.Run s as s' es := by
  induction as with
  | nil => intro s s' es h; cases h; exact .nil _
  | cons a as ih =>
    intro s s' es h
    simp only [Lks.exec, Option.bind_eq_bind, Option.bind_eq_some_iff] at h
    obtain ⟨⟨s1, e1⟩, h1, ⟨s2, e2⟩, h2, h3⟩ := h
    cases h3
    exact Lks.run_trans (Lks.run_one h1) (ih h2)

/-- The flag is set on behalf of this object. -/
def LkObj.owns (o : LkObj) : Bool := match o.ph with
  | .got ok => ok
  | .rest => o.locked
  | .locking => o.locked
  | .unlocking _ => o.locked
  | _ => false

/-- lock() succeeded and unlock() was not called since then. -/
def LkObj.holds (o : LkObj) : Bool := match o.ph with
  | .rest => o.locked
  | .locking => o.locked
  | _ => false

/-- _locked is assigned after test_and_set, and an object is not destroyed with it. -/
def LkObj.fine (o : LkObj) : Bool := match o.ph with
  | .got _ => !o.locked
  | .gone => !o.locked
  | _ => true

/-- `o`: the object on whose behalf the flag is set -/
structure Lks.Own (s : Lks) (o : Option Nat) : Prop where
  owns : ∀ i, (s.obj i).owns = true ↔ o = some i
  flag : s.flag = if o.isSome then 1 else 0
  fine : ∀ i, (s.obj i).fine = true

theorem LkObj.holds_owns {o : LkObj} (h : o.holds = true) : o.owns = true := by
  cases o with | mk l p => cases p <;> simp_all [LkObj.holds, LkObj.owns]

theorem lkHolder_snoc (es : List LkEv) (ev : LkEv) : lkHolder (es ++ [ev]) = match ev with
    | .locks i true => some i
    | .locks _ false => lkHolder es
    | .unlocks i => if lkHolder es = some i then none else lkHolder es := by
  simp only [lkHolder, List.foldl_append, List.foldl_cons, List.foldl_nil]
  cases ev with
  | locks i ok => cases ok <;> rfl
  | unlocks i => rfl

theorem LkExclusive.snoc {es : List LkEv} {ev : LkEv} (h : LkExclusive es) (h1 : match ev with
    | .locks i true => lkHolder es = none ∨ lkHolder es = some i
    | .locks i false => lkHolder es ≠ some i
    | .unlocks _ => True) : LkExclusive (es ++ [ev]) := by
  intro fs ev' gs hs
  rcases List.eq_nil_or_concat gs with rfl | ⟨gs', x, rfl⟩
  · obtain ⟨rfl, h3⟩ := List.append_inj' hs rfl
    cases h3
    exact h1
  · rw [List.concat_eq_append, ← List.cons_append, ← List.append_assoc] at hs
    obtain ⟨h2, _⟩ := List.append_inj' hs rfl
    exact h fs ev' gs' h2

theorem Lks.own_init : Lks.init.Own none := ⟨by intro i; simp [Lks.init, LkObj.owns], rfl, by intro i; simp [Lks.init, LkObj.fine]⟩

theorem Lks.own_same {s : Lks} {o : Option Nat} {i : Nat} {x : LkObj} (h : s.Own o) (h1 : x.owns = (s.obj i).owns) (h2 : x.fine = true) : (s.set i x).Own o := by
  refine ⟨fun j => ?_, h.flag, fun j => ?_⟩
  · simp only [Lks.set]
    split
    · next hj => subst hj; rw [h1]; exact h.owns j
    · exact h.owns j
  · simp only [Lks.set]
    split
    · exact h2
    · exact h.fine j

theorem Lks.own_step {s s' : Lks} {a : SlAct} {fs : List LkEv} {o : Option Nat} (h : s.Own o) (hs : s.step a = some (s', fs)) : ∃ o', s'.Own o' := by
  cases a with
  | go i =>
    simp only [Lks.step, Lks.go] at hs
    have hf := h.fine i
    have ho := h.owns i
    cases hp : (s.obj i).ph with
    | gone => simp [hp] at hs
    | rest => simp [hp] at hs
    | locking =>
      simp only [hp] at hs
      split at hs
      · next hl => cases hs; exact ⟨o, Lks.own_same h (by simp [LkObj.owns, hp, hl]) rfl⟩
      · next hl =>
        simp only [Bool.not_eq_true] at hl
        cases hs
        cases o with
        | none =>
          refine ⟨some i, fun j => ?_, rfl, fun j => ?_⟩
          · have := h.owns j
            have hfl := h.flag
            simp only [Lks.set]
            split
            · next hj => simp [LkObj.owns, flagSet, hfl, hj]
            · next hj => simp only [this]; simp [Ne.symm hj]
          · simp only [Lks.set]
            split
            · simp [LkObj.fine, hl]
            · exact h.fine j
        | some k =>
          have hfl : s.flag = 1 := h.flag
          refine ⟨some k, fun j => ?_, rfl, fun j => ?_⟩
          · simp only [Lks.set]
            split
            · next hj =>
              subst hj
              rw [← h.owns j]
              simp [LkObj.owns, flagSet, hfl, hp, hl]
            · exact h.owns j
          · simp only [Lks.set]
            split
            · simp [LkObj.fine, hl]
            · exact h.fine j
    | got ok =>
      simp only [hp, Option.some.injEq, Prod.mk.injEq] at hs
      obtain ⟨rfl, rfl⟩ := hs
      exact ⟨o, Lks.own_same h (by simp [LkObj.owns, hp]) rfl⟩
    | unlocking d =>
      simp only [hp, Option.some.injEq, Prod.mk.injEq] at hs
      obtain ⟨rfl, rfl⟩ := hs
      cases hl : (s.obj i).locked with
      | false =>
        simp only [Bool.false_eq_true, if_false]
        exact ⟨o, Lks.own_same h (by simp [LkObj.owns, hp, hl]) rfl⟩
      | true =>
        have hi : o = some i := ho.1 (by simp [LkObj.owns, hp, hl])
        subst hi
        refine ⟨none, fun j => ?_, rfl, fun j => ?_⟩
        · simp only [Lks.set]
          split
          · simp [LkObj.owns]
          · next hj =>
            rw [h.owns j]
            simp [Ne.symm hj]
        · simp only [Lks.set]
          split
          · rfl
          · exact h.fine j
    | cleared d =>
      simp only [hp, Option.some.injEq, Prod.mk.injEq] at hs
      obtain ⟨rfl, rfl⟩ := hs
      exact ⟨o, Lks.own_same h (by cases d <;> simp [LkObj.owns, hp]) (by cases d <;> rfl)⟩
  | ctor i =>
    simp only [Lks.step] at hs
    split at hs
    · next hp => cases hs; exact ⟨o, Lks.own_same h (by simp [LkObj.owns, hp]) rfl⟩
    · cases hs
  | lock i =>
    simp only [Lks.step] at hs
    split at hs
    · next hp => cases hs; exact ⟨o, Lks.own_same h (by simp [LkObj.owns, hp]) rfl⟩
    · cases hs
  | unlock i =>
    simp only [Lks.step] at hs
    split at hs
    · next hp => cases hs; exact ⟨o, Lks.own_same h (by simp [LkObj.owns, hp]) rfl⟩
    · cases hs
  | dtor i =>
    simp only [Lks.step] at hs
    split at hs
    · next hp => cases hs; exact ⟨o, Lks.own_same h (by simp [LkObj.owns, hp]) rfl⟩
    · cases hs

/-- The events tell who has the lock. -/
structure Lks.Seen (s : Lks) (es : List LkEv) : Prop where
  holds : ∀ i, (s.obj i).holds = true ↔ lkHolder es = some i
  excl : LkExclusive es

theorem Lks.seen_step {s s' : Lks} {a : SlAct} {es fs : List LkEv} {o : Option Nat} (h : s.Own o) (hh : s.Seen es) (hs : s.step a = some (s', fs)) : s'.Seen (es ++ fs) := by
  have same : ∀ {i : Nat} {x : LkObj} {f : Nat}, x.holds = (s.obj i).holds → (({ s with flag := f } : Lks).set i x).Seen (es ++ []) := by
    intro i x f hx
    rw [List.append_nil]
    refine ⟨fun j => ?_, hh.excl⟩
    simp only [Lks.set]
    split
    · next hj => subst hj; rw [hx]; exact hh.holds j
    · exact hh.holds j
  have lets : ∀ {i : Nat} {d : Bool}, (s.obj i).ph = .rest → (s.set i ⟨(s.obj i).locked, .unlocking d⟩).Seen (es ++ [.unlocks i]) := by
    intro i d hp
    refine ⟨fun j => ?_, hh.excl.snoc trivial⟩
    rw [lkHolder_snoc]
    simp only [Lks.set]
    split
    · next hj =>
      subst hj
      simp only [LkObj.holds]
      constructor
      · intro hc; cases hc
      · intro hc
        split at hc
        · cases hc
        · next hne => exact absurd hc hne
    · next hj =>
      rw [hh.holds j]
      split
      · next he => rw [he]; simp [Ne.symm hj]
      · exact Iff.rfl
  cases a with
  | go i =>
    simp only [Lks.step, Lks.go] at hs
    have hf := h.fine i
    have ho := h.owns i
    have hi := hh.holds i
    cases hp : (s.obj i).ph with
    | gone => simp [hp] at hs
    | rest => simp [hp] at hs
    | locking =>
      simp only [hp] at hs
      split at hs
      · next hl =>
        cases hs
        have h1 : lkHolder es = some i := hi.1 (by simp [LkObj.holds, hp, hl])
        refine ⟨fun j => ?_, hh.excl.snoc (.inr h1)⟩
        rw [lkHolder_snoc]
        simp only [Lks.set]
        split
        · next hj => subst hj; simp [LkObj.holds]
        · next hj => rw [hh.holds j, h1]
      · next hl =>
        simp only [Bool.not_eq_true] at hl
        cases hs
        exact same (by simp [LkObj.holds, hp, hl])
    | got ok =>
      simp only [hp, Option.some.injEq, Prod.mk.injEq] at hs
      obtain ⟨rfl, rfl⟩ := hs
      have h1 : lkHolder es ≠ some i := fun hc => by have := hi.2 hc; simp [LkObj.holds, hp] at this
      cases ok with
      | false =>
        refine ⟨fun j => ?_, hh.excl.snoc h1⟩
        rw [lkHolder_snoc]
        simp only [Lks.set]
        split
        · next hj =>
          subst hj
          simp [LkObj.holds, h1]
        · exact hh.holds j
      | true =>
        have h2 : o = some i := ho.1 (by simp [LkObj.owns, hp])
        have h3 : lkHolder es = none := by
          cases hk : lkHolder es with
          | none => rfl
          | some k =>
            have h4 := (h.owns k).1 (LkObj.holds_owns ((hh.holds k).2 hk))
            rw [h2] at h4
            cases h4
            exact absurd hk h1
        refine ⟨fun j => ?_, hh.excl.snoc (.inl h3)⟩
        rw [lkHolder_snoc]
        simp only [Lks.set]
        split
        · next hj => subst hj; simp [LkObj.holds]
        · next hj => rw [hh.holds j, h3]; simp [Ne.symm hj]
    | unlocking d =>
      simp only [hp, Option.some.injEq, Prod.mk.injEq] at hs
      obtain ⟨rfl, rfl⟩ := hs
      exact same (by simp [LkObj.holds, hp])
    | cleared d =>
      simp only [hp, Option.some.injEq, Prod.mk.injEq] at hs
      obtain ⟨rfl, rfl⟩ := hs
      exact same (f := s.flag) (by cases d <;> simp [LkObj.holds, hp])
  | ctor i =>
    simp only [Lks.step] at hs
    split at hs
    · next hp => cases hs; exact same (f := s.flag) (by simp [LkObj.holds, hp])
    · cases hs
  | lock i =>
    simp only [Lks.step] at hs
    split at hs
    · next hp => cases hs; exact same (f := s.flag) (by simp [LkObj.holds, hp])
    · cases hs
  | unlock i =>
    simp only [Lks.step] at hs
    split at hs
    · next hp => cases hs; exact lets hp
    · cases hs
  | dtor i =>
    simp only [Lks.step] at hs
    split at hs
    · next hp => cases hs; exact lets hp
    · cases hs

theorem Lks.run_inv {s : Lks} {as : List SlAct} {es : List LkEv} (h : Lks.Run Lks.init as s es) : (∃ o, s.Own o) ∧ s.Seen es := by
  generalize h0 : Lks.init = s0 at h
  induction h with
  | nil =>
    subst h0
    exact ⟨⟨none, Lks.own_init⟩, fun i => by simp [Lks.init, LkObj.holds, lkHolder], fun fs ev gs hc => by simp at hc⟩
  | snoc s1 s2 as a es fs _ hs ih =>
    obtain ⟨⟨o, ho⟩, h2⟩ := ih
    exact ⟨Lks.own_step ho hs, Lks.seen_step ho h2 hs⟩

/-! ### start() and close() -/

theorem Scs.run_trans {s1 s2 s3 : Scs} {as bs : List ScAct} {es fs : List ScEv} (h1 : Scs.Run s1 as s2 es) (h2 : Scs.Run s2 bs s3 fs) : Scs.Run s1 (as ++ bs) s3 (es ++ fs) := by
  induction h2 with
  | nil => simpa using h1
  | snoc t1 t2 bs b fs gs _ hs ih =>
    rw [← List.append_assoc, ← List.append_assoc]
    exact .snoc _ _ _ _ _ _ _ ih hs

theorem Scs.run_one {s s' : Scs} {a : ScAct} {es : List ScEv} (h : s.step a = some (s', es)) : Scs.Run s [a] s' es := by
  simpa using Scs.Run.snoc s s s' [] a [] es (.nil s) h

theorem Scs.exec_run {as : List ScAct} : ∀ {s s' : Scs} {es : List ScEv}, s.exec as = some (s', es) → Scs.Run s as s' es := by
  induction as with
  | nil => intro s s' es h; cases h; exact .nil _
  | cons a as ih =>
    intro s s' es h
    simp only [Scs.exec, Option.bind_eq_bind, Option.bind_eq_some_iff] at h
    obtain ⟨⟨s1, e1⟩, h1, ⟨s2, e2⟩, h2, h3⟩ := h
    cases h3
    exact Scs.run_trans (Scs.run_one h1) (ih h2)

/-- The thread that acts. -/
def ScAct.who : ScAct → Nat
  | .start i => i
  | .close i => i
  | .refuse i => i
  | .started i _ => i
  | .go i => i

/-- What the lock object of a thread is like, depending on where the thread is. -/
def ScPc.fits (p : ScPc) (o : LkObj) : Prop := match p with
  | .idle => o = ⟨false, .gone⟩
  | .sOut => o = ⟨false, .gone⟩
  | .sCtor => o = ⟨false, .locking⟩ ∨ (∃ ok, o = ⟨false, .got ok⟩) ∨ o.ph = .rest
  | .cCtor => o = ⟨false, .locking⟩ ∨ (∃ ok, o = ⟨false, .got ok⟩) ∨ o.ph = .rest
  | .cLock => o = ⟨false, .locking⟩ ∨ (∃ ok, o = ⟨false, .got ok⟩) ∨ o.ph = .rest
  | .sTest => o.ph = .rest
  | .cTest => o.ph = .rest
  | .cSleep => o = ⟨false, .rest⟩
  | .sDtor => o.ph = .unlocking true ∨ o.ph = .cleared true ∨ o = ⟨false, .gone⟩
  | .cDtor _ => o.ph = .unlocking true ∨ o.ph = .cleared true ∨ o = ⟨false, .gone⟩
  | _ => o = ⟨true, .rest⟩

/-- The thread starts or closes the socket. -/
def ScPc.crit : ScPc → Bool
  | .sBody => true
  | .sStore _ => true
  | .cStore => true
  | .cBody => true
  | _ => false

/-- The thread is in the constructor of its lock object or in lock(); then it goes on to the second place. -/
inductive ScPc.Gets : ScPc → ScPc → Prop where
  | s : Gets .sCtor .sTest
  | c : Gets .cCtor .cTest
  | l : Gets .cLock .cTest

/-- The thread is in the destructor of its lock object; what is seen when it is left. -/
inductive ScPc.Lets (i : Nat) : ScPc → List ScEv → Prop where
  | s : Lets i .sDtor [.startRet i]
  | c (b : Bool) : Lets i (.cDtor b) [.closeRet i b]

/-- One step of thread `i`: started_, the flag, where the thread is and its lock object, before and after, and what is seen. -/
inductive ScTs (i : Nat) : Bool → Nat → ScPc → LkObj → ScAct → ScPc → LkObj → Nat → Bool → List ScEv → Prop where
  | start (st : Bool) (f : Nat) : ScTs i st f .idle ⟨false, .gone⟩ (.start i) .sOut ⟨false, .gone⟩ f st []
  | close (st : Bool) (f : Nat) : ScTs i st f .idle ⟨false, .gone⟩ (.close i) .cCtor ⟨false, .locking⟩ f st []
  | refuse (st : Bool) (f : Nat) : ScTs i st f .sOut ⟨false, .gone⟩ (.refuse i) .idle ⟨false, .gone⟩ f st [.startRet i]
  | sIn (f : Nat) : ScTs i false f .sOut ⟨false, .gone⟩ (.go i) .sCtor ⟨false, .locking⟩ f false []
  | sNo (f : Nat) : ScTs i true f .sOut ⟨false, .gone⟩ (.go i) .idle ⟨false, .gone⟩ f true [.startRet i]
  | tas (st : Bool) (f : Nat) (p q : ScPc) (h : p.Gets q) : ScTs i st f p ⟨false, .locking⟩ (.go i) p ⟨false, .got (!(f == 1))⟩ 1 st []
  | got (st : Bool) (f : Nat) (p q : ScPc) (h : p.Gets q) (ok : Bool) : ScTs i st f p ⟨false, .got ok⟩ (.go i) p ⟨ok, .rest⟩ f st []
  | gets (st : Bool) (f : Nat) (p q : ScPc) (h : p.Gets q) (l : Bool) : ScTs i st f p ⟨l, .rest⟩ (.go i) q ⟨l, .rest⟩ f st []
  | sYes (f : Nat) : ScTs i false f .sTest ⟨true, .rest⟩ (.go i) .sBody ⟨true, .rest⟩ f false [.starting i]
  | sLate (st : Bool) (f : Nat) (l : Bool) (h : ¬(st = false ∧ l = true)) : ScTs i st f .sTest ⟨l, .rest⟩ (.go i) .sDtor ⟨l, .unlocking true⟩ f st []
  | sBody (st : Bool) (f : Nat) (ok : Bool) : ScTs i st f .sBody ⟨true, .rest⟩ (.started i ok) (.sStore ok) ⟨true, .rest⟩ f st []
  | sStore (st : Bool) (f : Nat) (ok : Bool) : ScTs i st f (.sStore ok) ⟨true, .rest⟩ (.go i) .sDtor ⟨true, .unlocking true⟩ f ok [.up i ok]
  | clear (st : Bool) (f : Nat) (p : ScPc) (es : List ScEv) (h : p.Lets i es) (l : Bool) : ScTs i st f p ⟨l, .unlocking true⟩ (.go i) p ⟨l, .cleared true⟩ (if l then 0 else f) st []
  | drop (st : Bool) (f : Nat) (p : ScPc) (es : List ScEv) (h : p.Lets i es) (l : Bool) : ScTs i st f p ⟨l, .cleared true⟩ (.go i) p ⟨false, .gone⟩ f st []
  | ret (st : Bool) (f : Nat) (p : ScPc) (es : List ScEv) (h : p.Lets i es) : ScTs i st f p ⟨false, .gone⟩ (.go i) .idle ⟨false, .gone⟩ f st es
  | cYes (st : Bool) (f : Nat) : ScTs i st f .cTest ⟨true, .rest⟩ (.go i) .cRead ⟨true, .rest⟩ f st []
  | cNo (st : Bool) (f : Nat) : ScTs i st f .cTest ⟨false, .rest⟩ (.go i) .cSleep ⟨false, .rest⟩ f st []
  | cSleep (st : Bool) (f : Nat) : ScTs i st f .cSleep ⟨false, .rest⟩ (.go i) .cLock ⟨false, .locking⟩ f st []
  | cUp (f : Nat) : ScTs i true f .cRead ⟨true, .rest⟩ (.go i) .cStore ⟨true, .rest⟩ f true [.closing i]
  | cDown (f : Nat) : ScTs i false f .cRead ⟨true, .rest⟩ (.go i) (.cDtor false) ⟨true, .unlocking true⟩ f false [.found i]
  | cStore (st : Bool) (f : Nat) : ScTs i st f .cStore ⟨true, .rest⟩ (.go i) .cBody ⟨true, .rest⟩ f false []
  | cBody (st : Bool) (f : Nat) : ScTs i st f .cBody ⟨true, .rest⟩ (.go i) (.cDtor true) ⟨true, .unlocking true⟩ f st [.closed i]

def Scs.put (s : Scs) (i : Nat) (p : ScPc) (o : LkObj) (f : Nat) (st : Bool) : Scs :=
  { lk := { flag := f, obj := fun j => if j = i then o else s.lk.obj j }, started := st, pc := fun j => if j = i then p else s.pc j }

theorem Scs.at_put (s : Scs) (i : Nat) (p : ScPc) : s.at i p = s.put i p (s.lk.obj i) s.lk.flag s.started := by
  have : (fun j => if j = i then s.lk.obj i else s.lk.obj j) = s.lk.obj := by
    funext j
    split
    · next h => rw [h]
    · rfl
  simp only [Scs.put, this, Scs.at]

theorem Scs.ts {s s' : Scs} {a : ScAct} {fs : List ScEv} (hs : s.step a = some (s', fs)) (hfit : (s.pc a.who).fits (s.lk.obj a.who)) :
    ∃ p o f st, ScTs a.who s.started s.lk.flag (s.pc a.who) (s.lk.obj a.who) a p o f st fs ∧ s' = s.put a.who p o f st := by
  have stay : ∀ {i : Nat} {p : ScPc}, ScTs i s.started s.lk.flag (s.pc i) (s.lk.obj i) a p (s.lk.obj i) s.lk.flag s.started fs → s' = s.at i p →
      ∃ p o f st, ScTs i s.started s.lk.flag (s.pc i) (s.lk.obj i) a p o f st fs ∧ s' = s.put i p o f st := fun h1 h2 => ⟨_, _, _, _, h1, by rw [h2, Scs.at_put]⟩
  cases a with
  | start i =>
    simp only [Scs.step] at hs
    split at hs
    · next hp =>
      cases hs
      simp only [ScAct.who, hp, ScPc.fits] at hfit
      exact stay (p := .sOut) (by simp only [hp, hfit, ScAct.who]; exact .start _ _) rfl
    · cases hs
  | refuse i =>
    simp only [Scs.step] at hs
    split at hs
    · next hp =>
      cases hs
      simp only [ScAct.who, hp, ScPc.fits] at hfit
      exact stay (p := .idle) (by simp only [hp, hfit, ScAct.who]; exact .refuse _ _) rfl
    · cases hs
  | started i ok =>
    simp only [Scs.step] at hs
    split at hs
    · next hp =>
      cases hs
      simp only [ScAct.who, hp, ScPc.fits] at hfit
      exact stay (p := .sStore ok) (by simp only [hp, hfit, ScAct.who]; exact .sBody _ _ _) rfl
    · cases hs
  | close i =>
    simp only [Scs.step] at hs
    split at hs
    · next hp =>
      simp only [ScAct.who, hp, ScPc.fits] at hfit
      simp only [Scs.use, Lks.step, hfit, if_pos, Option.map_some, Option.some.injEq, Prod.mk.injEq] at hs
      obtain ⟨rfl, rfl⟩ := hs
      exact ⟨.cCtor, ⟨false, .locking⟩, s.lk.flag, s.started, by simp only [hp, hfit, ScAct.who]; exact .close _ _, rfl⟩
    · cases hs
  | go i =>
    simp only [ScAct.who] at hfit ⊢
    simp only [Scs.step] at hs
    have gets : ∀ {q : ScPc}, (s.pc i).Gets q → s.busy i q [] = some (s', fs) → (s.lk.obj i = ⟨false, .locking⟩ ∨ (∃ ok, s.lk.obj i = ⟨false, .got ok⟩) ∨ (s.lk.obj i).ph = .rest) →
        ∃ p o f st, ScTs i s.started s.lk.flag (s.pc i) (s.lk.obj i) (.go i) p o f st fs ∧ s' = s.put i p o f st := by
      intro q hq h hf
      rcases hf with hf | ⟨ok, hf⟩ | hf
      · simp only [Scs.busy, hf, Scs.use, Lks.step, Lks.go, reduceCtorEq, or_self, if_false, Bool.false_eq_true, Option.map_some, Option.some.injEq, Prod.mk.injEq] at h
        obtain ⟨rfl, rfl⟩ := h
        exact ⟨_, _, _, _, by rw [hf]; exact .tas _ _ _ q hq, rfl⟩
      · simp only [Scs.busy, hf, Scs.use, Lks.step, Lks.go, reduceCtorEq, or_self, if_false, Option.map_some, Option.some.injEq, Prod.mk.injEq] at h
        obtain ⟨rfl, rfl⟩ := h
        exact ⟨_, _, _, _, by rw [hf]; exact .got _ _ _ q hq ok, rfl⟩
      · simp only [Scs.busy, hf, true_or, if_true, Option.some.injEq, Prod.mk.injEq] at h
        obtain ⟨rfl, rfl⟩ := h
        obtain ⟨l, hl⟩ : ∃ l, s.lk.obj i = ⟨l, .rest⟩ := ⟨(s.lk.obj i).locked, by cases ho : s.lk.obj i; simp_all⟩
        exact stay (p := q) (by rw [hl]; exact .gets _ _ _ q hq l) rfl
    have lets : ∀ {es : List ScEv}, (s.pc i).Lets i es → s.busy i .idle es = some (s', fs) → ((s.lk.obj i).ph = .unlocking true ∨ (s.lk.obj i).ph = .cleared true ∨ s.lk.obj i = ⟨false, .gone⟩) →
        ∃ p o f st, ScTs i s.started s.lk.flag (s.pc i) (s.lk.obj i) (.go i) p o f st fs ∧ s' = s.put i p o f st := by
      intro es hq h hf
      rcases hf with hf | hf | hf
      · obtain ⟨l, hl⟩ : ∃ l, s.lk.obj i = ⟨l, .unlocking true⟩ := ⟨(s.lk.obj i).locked, by cases ho : s.lk.obj i; simp_all⟩
        simp only [Scs.busy, hl, Scs.use, Lks.step, Lks.go, reduceCtorEq, or_self, if_false, Option.map_some, Option.some.injEq, Prod.mk.injEq] at h
        obtain ⟨rfl, rfl⟩ := h
        exact ⟨_, _, _, _, by rw [hl]; exact .clear _ _ _ es hq l, rfl⟩
      · obtain ⟨l, hl⟩ : ∃ l, s.lk.obj i = ⟨l, .cleared true⟩ := ⟨(s.lk.obj i).locked, by cases ho : s.lk.obj i; simp_all⟩
        simp only [Scs.busy, hl, Scs.use, Lks.step, Lks.go, reduceCtorEq, or_self, if_false, if_true, Option.map_some, Option.some.injEq, Prod.mk.injEq] at h
        obtain ⟨rfl, rfl⟩ := h
        exact ⟨_, _, _, _, by rw [hl]; exact .drop _ _ _ es hq l, rfl⟩
      · simp only [Scs.busy, hf, or_true, if_true, Option.some.injEq, Prod.mk.injEq] at h
        obtain ⟨rfl, rfl⟩ := h
        exact stay (p := .idle) (by rw [hf]; exact .ret _ _ _ _ hq) rfl
    have ends : ∀ {q : ScPc} {es : List ScEv} {l st : Bool}, s.lk.obj i = ⟨l, .rest⟩ → (⟨s.lk, st, s.pc⟩ : Scs).use i (.dtor i) q es = some (s', fs) → fs = es ∧ s' = s.put i q ⟨l, .unlocking true⟩ s.lk.flag st := by
      intro q es l st hl h
      simp only [hl, Scs.use, Lks.step, if_true, Option.map_some, Option.some.injEq, Prod.mk.injEq] at h
      obtain ⟨rfl, rfl⟩ := h
      exact ⟨rfl, rfl⟩
    unfold Scs.go at hs
    cases hp : s.pc i with
    | idle => simp [hp] at hs
    | sBody => simp [hp] at hs
    | sOut =>
      simp only [hp, ScPc.fits] at hs hfit
      split at hs
      · next h1 => cases hs; rw [← hp]; exact stay (p := .idle) (by rw [hp, hfit, h1]; exact .sNo _) rfl
      · next h1 =>
        simp only [Bool.not_eq_true] at h1
        simp only [hfit, Scs.use, Lks.step, if_true, Option.map_some, Option.some.injEq, Prod.mk.injEq] at hs
        obtain ⟨rfl, rfl⟩ := hs
        exact ⟨.sCtor, ⟨false, .locking⟩, s.lk.flag, false, by rw [hfit, h1]; exact .sIn _, by rw [← h1]; rfl⟩
    | sCtor => simp only [hp, ScPc.fits] at hs hfit; rw [← hp]; exact gets (by rw [hp]; exact .s) hs hfit
    | cCtor => simp only [hp, ScPc.fits] at hs hfit; rw [← hp]; exact gets (by rw [hp]; exact .c) hs hfit
    | cLock => simp only [hp, ScPc.fits] at hs hfit; rw [← hp]; exact gets (by rw [hp]; exact .l) hs hfit
    | sDtor => simp only [hp, ScPc.fits] at hs hfit; rw [← hp]; exact lets (by rw [hp]; exact .s) hs hfit
    | cDtor b => simp only [hp, ScPc.fits] at hs hfit; rw [← hp]; exact lets (by rw [hp]; exact .c b) hs hfit
    | sTest =>
      simp only [hp, ScPc.fits] at hs hfit
      obtain ⟨l, hl⟩ : ∃ l, s.lk.obj i = ⟨l, .rest⟩ := ⟨(s.lk.obj i).locked, by cases ho : s.lk.obj i; simp_all⟩
      split at hs
      · next h1 =>
        rw [hl] at h1
        obtain ⟨h1, h2⟩ := h1
        simp only at h2
        subst h2
        cases hs
        rw [← hp]
        exact stay (p := .sBody) (by rw [hp, hl, h1]; exact .sYes _) rfl
      · next h1 =>
        rw [hl] at h1
        obtain ⟨rfl, rfl⟩ := ends hl hs
        exact ⟨_, _, _, _, by rw [hl]; exact .sLate _ _ _ h1, rfl⟩
    | sStore ok =>
      simp only [hp, ScPc.fits] at hs hfit
      obtain ⟨rfl, rfl⟩ := ends hfit hs
      exact ⟨_, _, _, _, by rw [hfit]; exact .sStore _ _ ok, rfl⟩
    | cTest =>
      simp only [hp, ScPc.fits] at hs hfit
      obtain ⟨l, hl⟩ : ∃ l, s.lk.obj i = ⟨l, .rest⟩ := ⟨(s.lk.obj i).locked, by cases ho : s.lk.obj i; simp_all⟩
      split at hs
      · next h1 =>
        rw [hl] at h1
        simp only at h1
        subst h1
        cases hs
        rw [← hp]
        exact stay (p := .cRead) (by rw [hp, hl]; exact .cYes _ _) rfl
      · next h1 =>
        rw [hl] at h1
        simp only [Bool.not_eq_true] at h1
        subst h1
        cases hs
        rw [← hp]
        exact stay (p := .cSleep) (by rw [hp, hl]; exact .cNo _ _) rfl
    | cSleep =>
      simp only [hp, ScPc.fits] at hs hfit
      simp only [hfit, Scs.use, Lks.step, if_true, Option.map_some, Option.some.injEq, Prod.mk.injEq] at hs
      obtain ⟨rfl, rfl⟩ := hs
      exact ⟨.cLock, ⟨false, .locking⟩, s.lk.flag, s.started, by rw [hfit]; exact .cSleep _ _, rfl⟩
    | cRead =>
      simp only [hp, ScPc.fits] at hs hfit
      split at hs
      · next h1 => cases hs; rw [← hp]; exact stay (p := .cStore) (by rw [hp, hfit, h1]; exact .cUp _) rfl
      · next h1 =>
        simp only [Bool.not_eq_true] at h1
        obtain ⟨rfl, rfl⟩ := ends (st := s.started) hfit hs
        exact ⟨_, _, _, _, by rw [hfit, h1]; exact .cDown _, by rw [← h1]⟩
    | cStore =>
      simp only [hp, ScPc.fits] at hs hfit
      cases hs
      refine ⟨.cBody, s.lk.obj i, s.lk.flag, false, by rw [hfit]; exact .cStore _ _, ?_⟩
      rw [Scs.at_put]
      rfl
    | cBody =>
      simp only [hp, ScPc.fits] at hs hfit
      obtain ⟨rfl, rfl⟩ := ends (st := s.started) hfit hs
      exact ⟨_, _, _, _, by rw [hfit]; exact .cBody _ _, rfl⟩

theorem ScTs.fits {i : Nat} {st st' : Bool} {f f' : Nat} {p p' : ScPc} {o o' : LkObj} {a : ScAct} {es : List ScEv} (h : ScTs i st f p o a p' o' f' st' es) : p'.fits o' := by
  cases h with
  | tas _ _ _ q h => cases h <;> exact .inr (.inl ⟨_, rfl⟩)
  | got _ _ _ q h => cases h <;> exact .inr (.inr rfl)
  | gets _ _ _ q h => cases h <;> rfl
  | clear _ _ _ es h => cases h <;> exact .inr (.inl rfl)
  | drop _ _ _ es h => cases h <;> exact .inr (.inr rfl)
  | close => exact .inl rfl
  | sIn => exact .inl rfl
  | cSleep => exact .inl rfl
  | sLate => exact .inl rfl
  | sStore => exact .inl rfl
  | cDown => exact .inl rfl
  | cBody => exact .inl rfl
  | _ => rfl

theorem Lks.own_put {l : Lks} {o : Option Nat} {i : Nat} {x : LkObj} (h : l.Own o) (h1 : x.owns = (l.obj i).owns) (h2 : x.fine = true) :
    (⟨l.flag, fun j => if j = i then x else l.obj j⟩ : Lks).Own o := Lks.own_same h h1 h2

/-- Who has the flag, after a step. -/
theorem Scs.own_step {s s' : Scs} {a : ScAct} {fs : List ScEv} {o : Option Nat} (h : s.lk.Own o) (hs : s.step a = some (s', fs)) (hfit : (s.pc a.who).fits (s.lk.obj a.who)) :
    ∃ o', s'.lk.Own o' ∧ (o' = o ∨ (o = none ∧ o' = some a.who) ∨ (o = some a.who ∧ o' = none)) := by
  obtain ⟨p, x, f, st, ht, rfl⟩ := Scs.ts hs hfit
  generalize a.who = i at *
  generalize hob : s.lk.obj i = ob at ht
  generalize hfl : s.lk.flag = fl at ht
  generalize s.pc i = pc at ht
  generalize s.started = st0 at ht
  have same : x.owns = ob.owns → x.fine = true → f = fl → ∃ o', (s.put i p x f st).lk.Own o' ∧ (o' = o ∨ (o = none ∧ o' = some i) ∨ (o = some i ∧ o' = none)) := by
    intro h1 h2 h3
    subst h3 hob hfl
    exact ⟨o, Lks.own_put h h1 h2, .inl rfl⟩
  have ho := h.owns i
  have hf := h.flag
  rw [hob] at ho
  rw [hfl] at hf
  cases ht with
  | tas _ _ _ q hq =>
    cases o with
    | none =>
      simp only [Option.isSome_none, Bool.false_eq_true, if_false] at hf
      subst hf
      refine ⟨some i, ⟨fun j => ?_, rfl, fun j => ?_⟩, .inr (.inl ⟨rfl, rfl⟩)⟩
      · simp only [Scs.put]
        split
        · next hj => subst hj; simp [LkObj.owns]
        · next hj => rw [h.owns j]; simp [Ne.symm hj]
      · simp only [Scs.put]
        split
        · rfl
        · exact h.fine j
    | some k =>
      simp only [Option.isSome_some, if_true] at hf
      subst hf
      exact same rfl rfl rfl
  | clear _ _ _ _ _ l =>
    cases l with
    | false => exact same rfl rfl rfl
    | true =>
      have : o = some i := ho.1 rfl
      subst this
      refine ⟨none, ⟨fun j => ?_, rfl, fun j => ?_⟩, .inr (.inr ⟨rfl, rfl⟩)⟩
      · simp only [Scs.put]
        split
        · next hj => simp [LkObj.owns]
        · next hj => rw [h.owns j]; simp [Ne.symm hj]
      · simp only [Scs.put]
        split
        · rfl
        · exact h.fine j
  | got => exact same (by simp [LkObj.owns]) rfl rfl
  | _ => exact same rfl rfl rfl

/-- What an ideal socket would be like. -/
def Scs.Abs (s : Scs) : ScState → Prop
  | .off => s.started = false ∧ ∀ j, (s.pc j).crit = false
  | .turningOn i => s.started = false ∧ (s.pc i = .sBody ∨ ∃ ok, s.pc i = .sStore ok) ∧ ∀ j, j ≠ i → (s.pc j).crit = false
  | .on => s.started = true ∧ ∀ j, (s.pc j).crit = false
  | .turningOff i => (s.pc i = .cStore ∧ s.started = true ∨ s.pc i = .cBody ∧ s.started = false) ∧ ∀ j, j ≠ i → (s.pc j).crit = false

theorem ScPc.crit_owns {p : ScPc} {o : LkObj} (h : p.fits o) (hc : p.crit = true) : o.owns = true := by
  cases p <;> simp_all [ScPc.fits, ScPc.crit, LkObj.owns]

/-- The thread that has the flag is the only one that may be starting or closing. -/
theorem Scs.abs_own {s : Scs} {t : ScState} {o : Option Nat} (h : s.Abs t) (ho : s.lk.Own o) (hfit : ∀ j, (s.pc j).fits (s.lk.obj j)) {i : Nat} (hi : (s.lk.obj i).owns = true) (hc : (s.pc i).crit = false) :
    t = (if s.started then .on else .off) ∧ ∀ j, (s.pc j).crit = false := by
  have hall : ∀ j, (s.pc j).crit = false := by
    intro j
    cases hj : (s.pc j).crit with
    | false => rfl
    | true =>
      have h1 := (ho.owns j).1 (ScPc.crit_owns (hfit j) hj)
      have h2 := (ho.owns i).1 hi
      rw [h1] at h2
      cases h2
      rw [hc] at hj
      cases hj
  refine ⟨?_, hall⟩
  cases t with
  | off => rw [h.1]; rfl
  | on => rw [h.1]; rfl
  | turningOn k =>
    have := hall k
    rcases h.2.1 with h1 | ⟨ok, h1⟩ <;> simp [h1, ScPc.crit] at this
  | turningOff k =>
    have := hall k
    rcases h.1 with ⟨h1, _⟩ | ⟨h1, _⟩ <;> simp [h1, ScPc.crit] at this

theorem Scs.abs_step {s s' : Scs} {a : ScAct} {es fs : List ScEv} {o : Option Nat} {t : ScState} (h : s.lk.Own o) (hfit : ∀ j, (s.pc j).fits (s.lk.obj j)) (ht : s.Abs t) (hh : ScHistory es t) (hs : s.step a = some (s', fs)) :
    ∃ t', ScHistory (es ++ fs) t' ∧ s'.Abs t' := by
  obtain ⟨p, x, f, st, ht', rfl⟩ := Scs.ts hs (hfit _)
  generalize a.who = i at *
  generalize hob : s.lk.obj i = ob at ht'
  generalize hfl : s.lk.flag = fl at ht'
  generalize hpc : s.pc i = pc at ht'
  generalize hst : s.started = st0 at ht'
  have keep : p.crit = false → pc.crit = false → st = st0 → s.Abs t → (s.put i p x f st).Abs t := by
    intro h1 h2 h3 h4
    subst h3 hst hpc
    have hall : ∀ j, (s.pc j).crit = false → ((s.put i p x f s.started).pc j).crit = false := by
      intro j hj
      simp only [Scs.put]
      split
      · exact h1
      · exact hj
    cases t with
    | off => exact ⟨h4.1, fun j => hall j (h4.2 j)⟩
    | on => exact ⟨h4.1, fun j => hall j (h4.2 j)⟩
    | turningOn k =>
      have hk : k ≠ i := by
        rintro rfl
        rcases h4.2.1 with h5 | ⟨ok, h5⟩ <;> simp [h5, ScPc.crit] at h2
      exact ⟨h4.1, by simp only [Scs.put, if_neg hk]; exact h4.2.1, fun j hj => hall j (h4.2.2 j hj)⟩
    | turningOff k =>
      have hk : k ≠ i := by
        rintro rfl
        rcases h4.1 with ⟨h5, _⟩ | ⟨h5, _⟩ <;> simp [h5, ScPc.crit] at h2
      exact ⟨by simp only [Scs.put, if_neg hk]; exact h4.1, fun j hj => hall j (h4.2 j hj)⟩
  have quiet : fs = [] → p.crit = false → pc.crit = false → st = st0 → ∃ t', ScHistory (es ++ fs) t' ∧ (s.put i p x f st).Abs t' := by
    intro h0 h1 h2 h3
    subst h0
    exact ⟨t, by rw [List.append_nil]; exact hh, keep h1 h2 h3 ht⟩
  have others : ∀ (q : ScPc) (y : LkObj) (g : Nat) (b : Bool), (∀ j, j ≠ i → (s.pc j).crit = false) → ∀ j, j ≠ i → ((s.put i q y g b).pc j).crit = false := by
    intro q y g b h1 j hj
    simp only [Scs.put, if_neg hj]
    exact h1 j hj
  have all : ∀ (q : ScPc) (y : LkObj) (g : Nat) (b : Bool), q.crit = false → (∀ j, j ≠ i → (s.pc j).crit = false) → ∀ j, ((s.put i q y g b).pc j).crit = false := by
    intro q y g b h0 h1 j
    by_cases hj : j = i
    · simp only [Scs.put, if_pos hj]; exact h0
    · exact others q y g b h1 j hj
  have me : ∀ (q : ScPc) (y : LkObj) (g : Nat) (b : Bool), (s.put i q y g b).pc i = q := by intro q y g b; simp [Scs.put]
  -- the thread is starting or closing
  have on : (pc = .sBody ∨ ∃ ok, pc = .sStore ok) → t = .turningOn i ∧ st0 = false ∧ ∀ j, j ≠ i → (s.pc j).crit = false := by
    intro hp
    have hcr : (s.pc i).crit = true := by rw [hpc]; rcases hp with rfl | ⟨ok, rfl⟩ <;> rfl
    cases t with
    | off => exact absurd (ht.2 i) (by rw [hcr]; simp)
    | on => exact absurd (ht.2 i) (by rw [hcr]; simp)
    | turningOn k =>
      by_cases hk : k = i
      · subst hk; exact ⟨rfl, by rw [← hst]; exact ht.1, ht.2.2⟩
      · exact absurd (ht.2.2 i (Ne.symm hk)) (by rw [hcr]; simp)
    | turningOff k =>
      by_cases hk : k = i
      · subst hk
        exfalso
        rcases ht.1 with ⟨h1, _⟩ | ⟨h1, _⟩ <;> rw [hpc] at h1 <;> rcases hp with rfl | ⟨ok, rfl⟩ <;> cases h1
      · exact absurd (ht.2 i (Ne.symm hk)) (by rw [hcr]; simp)
  have off : (pc = .cStore ∨ pc = .cBody) → t = .turningOff i ∧ (pc = .cStore ∧ st0 = true ∨ pc = .cBody ∧ st0 = false) ∧ ∀ j, j ≠ i → (s.pc j).crit = false := by
    intro hp
    have hcr : (s.pc i).crit = true := by rw [hpc]; rcases hp with rfl | rfl <;> rfl
    cases t with
    | off => exact absurd (ht.2 i) (by rw [hcr]; simp)
    | on => exact absurd (ht.2 i) (by rw [hcr]; simp)
    | turningOff k =>
      by_cases hk : k = i
      · subst hk; exact ⟨rfl, by rw [← hst, ← hpc]; exact ht.1, ht.2⟩
      · exact absurd (ht.2 i (Ne.symm hk)) (by rw [hcr]; simp)
    | turningOn k =>
      by_cases hk : k = i
      · subst hk
        exfalso
        rcases ht.2.1 with h1 | ⟨ok, h1⟩ <;> rw [hpc] at h1 <;> rcases hp with rfl | rfl <;> cases h1
      · exact absurd (ht.2.2 i (Ne.symm hk)) (by rw [hcr]; simp)
  have own : ob.owns = true → pc.crit = false → t = (if st0 then .on else .off) ∧ ∀ j, (s.pc j).crit = false := by
    intro h1 h2
    have := Scs.abs_own ht h hfit (i := i) (by rw [hob]; exact h1) (by rw [hpc]; exact h2)
    rwa [hst] at this
  cases ht' with
  | tas _ _ _ q hq => cases hq <;> exact quiet rfl rfl rfl rfl
  | got _ _ _ q hq => cases hq <;> exact quiet rfl rfl rfl rfl
  | gets _ _ _ q hq => cases hq <;> exact quiet rfl rfl rfl rfl
  | clear _ _ _ _ hq => cases hq <;> exact quiet rfl rfl rfl rfl
  | drop _ _ _ _ hq => cases hq <;> exact quiet rfl rfl rfl rfl
  | start => exact quiet rfl rfl rfl rfl
  | close => exact quiet rfl rfl rfl rfl
  | sIn => exact quiet rfl rfl rfl rfl
  | sLate => exact quiet rfl rfl rfl rfl
  | cYes => exact quiet rfl rfl rfl rfl
  | cNo => exact quiet rfl rfl rfl rfl
  | cSleep => exact quiet rfl rfl rfl rfl
  | refuse => exact ⟨t, .snoc _ _ _ _ hh (.startRet t i), keep rfl rfl rfl ht⟩
  | sNo => exact ⟨t, .snoc _ _ _ _ hh (.startRet t i), keep rfl rfl rfl ht⟩
  | ret _ _ _ _ hq =>
    cases hq with
    | s => exact ⟨t, .snoc _ _ _ _ hh (.startRet t i), keep rfl rfl rfl ht⟩
    | c b => exact ⟨t, .snoc _ _ _ _ hh (.closeRet t i b), keep rfl rfl rfl ht⟩
  | sYes =>
    obtain ⟨rfl, h2⟩ := own rfl rfl
    exact ⟨.turningOn i, .snoc _ _ _ _ hh (.starting i), rfl, .inl (me _ _ _ _), others _ _ _ _ (fun j _ => h2 j)⟩
  | sBody _ _ ok =>
    obtain ⟨rfl, rfl, h2⟩ := on (.inl rfl)
    exact ⟨.turningOn i, by rw [List.append_nil]; exact hh, rfl, .inr ⟨ok, me _ _ _ _⟩, others _ _ _ _ h2⟩
  | sStore =>
    obtain ⟨rfl, rfl, h2⟩ := on (.inr ⟨st, rfl⟩)
    refine ⟨_, .snoc _ _ _ _ hh (.up i st), ?_⟩
    cases st with
    | true => exact ⟨rfl, all _ _ _ _ rfl h2⟩
    | false => exact ⟨rfl, all _ _ _ _ rfl h2⟩
  | cUp =>
    obtain ⟨rfl, h2⟩ := own rfl rfl
    exact ⟨.turningOff i, .snoc _ _ _ _ hh (.closing i), .inl ⟨me _ _ _ _, rfl⟩, others _ _ _ _ (fun j _ => h2 j)⟩
  | cDown =>
    obtain ⟨rfl, h2⟩ := own rfl rfl
    exact ⟨.off, .snoc _ _ _ _ hh (.found i), rfl, all _ _ _ _ rfl (fun j _ => h2 j)⟩
  | cStore =>
    obtain ⟨rfl, _, h2⟩ := off (.inl rfl)
    exact ⟨.turningOff i, by rw [List.append_nil]; exact hh, .inr ⟨me _ _ _ _, rfl⟩, others _ _ _ _ h2⟩
  | cBody =>
    obtain ⟨rfl, h1, h2⟩ := off (.inr rfl)
    have : st = false := by
      rcases h1 with ⟨h1, _⟩ | ⟨_, h1⟩
      · cases h1
      · exact h1
    exact ⟨.off, .snoc _ _ _ _ hh (.closed i), this, all _ _ _ _ rfl h2⟩

/-- The invariant of start() and close(). -/
structure Scs.Inv (s : Scs) (es : List ScEv) : Prop where
  fits : ∀ j, (s.pc j).fits (s.lk.obj j)
  own : ∃ o, s.lk.Own o
  abs : ∃ t, ScHistory es t ∧ s.Abs t

theorem Scs.inv_init : Scs.init.Inv [] := ⟨fun _ => rfl, ⟨none, Lks.own_init⟩, .off, .nil, rfl, fun _ => rfl⟩

theorem Scs.fits_step {s s' : Scs} {a : ScAct} {fs : List ScEv} (hfit : ∀ j, (s.pc j).fits (s.lk.obj j)) (hs : s.step a = some (s', fs)) : ∀ j, (s'.pc j).fits (s'.lk.obj j) := by
  obtain ⟨p, x, f, st, ht, rfl⟩ := Scs.ts hs (hfit _)
  intro j
  simp only [Scs.put]
  split
  · exact ht.fits
  · exact hfit j

theorem Scs.inv_step {s s' : Scs} {a : ScAct} {es fs : List ScEv} (h : s.Inv es) (hs : s.step a = some (s', fs)) : s'.Inv (es ++ fs) := by
  obtain ⟨h1, ⟨o, h2⟩, t, h3, h4⟩ := h
  obtain ⟨o', h5, _⟩ := Scs.own_step h2 hs (h1 _)
  exact ⟨Scs.fits_step h1 hs, ⟨o', h5⟩, Scs.abs_step h2 h1 h4 h3 hs⟩

theorem Scs.run_inv {s : Scs} {as : List ScAct} {es : List ScEv} (h : Scs.Run Scs.init as s es) : s.Inv es := by
  generalize h0 : Scs.init = s0 at h
  induction h with
  | nil => subst h0; exact Scs.inv_init
  | snoc s1 s2 as a es fs _ hs ih => exact Scs.inv_step ih hs

end StAsio
