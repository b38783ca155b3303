import Verif.Lemmas.ScopeLock
/-!
# C102: start() and close() of any number of threads exclude each other

`Lks.Run Lks.init as s es`: what happens to any number of scope_atomic_lock objects on one flag; `Scs.Run Scs.init as s es`: what happens while any number of threads call start() and close() of one socket. The specification is
Spec/ScopeLock.lean.
-/
set_option autoImplicit false
namespace StAsio

/-- C102, the lock: whoever creates, locks, unlocks and destroys lock objects at any time, lock() (or the constructor) succeeds only if no other object has the lock, and does not fail for the one that has it. In particular unlock() and the
destructor release the lock only if this object has it. -/
theorem C102_exclusive (s : Lks) (as : List SlAct) (es : List LkEv) (h : Lks.Run Lks.init as s es) : LkExclusive es := (Lks.run_inv h).2.excl

/-- C102, the lock: if nobody has it and nobody is in the middle of taking or releasing it, whatever happened before, then a new object gets it, and so does the lock() of an old one. -/
theorem C102_free (s : Lks) (as : List SlAct) (es : List LkEv) (h : Lks.Run Lks.init as s es) (hfree : ∀ j, (s.obj j).locked = false ∧ ((s.obj j).ph = .rest ∨ (s.obj j).ph = .gone)) (i : Nat) :
    ∃ s', s.exec [if (s.obj i).ph = .rest then .lock i else .ctor i, .go i, .go i] = some (s', [.locks i true]) ∧ (s'.obj i).locked = true ∧ (s'.obj i).ph = .rest := by
  obtain ⟨⟨o, ho⟩, _⟩ := Lks.run_inv h
  have hn : o = none := by
    cases o with
    | none => rfl
    | some k =>
      have h1 := (ho.owns k).2 rfl
      obtain ⟨h2, h3⟩ := hfree k
      rcases h3 with h3 | h3 <;> simp [LkObj.owns, h2, h3] at h1
  have hf : s.flag = 0 := by rw [ho.flag, hn]; rfl
  obtain ⟨h2, h3⟩ := hfree i
  rcases h3 with h3 | h3
  · refine ⟨_, by simp [Lks.exec, Lks.step, Lks.go, Lks.set, h3, h2, hf, flagSet]; rfl, by simp, by simp⟩
  · refine ⟨_, by simp [Lks.exec, Lks.step, Lks.go, Lks.set, h3, hf, flagSet]; rfl, by simp, by simp⟩

/-- C102, the lock: lock() of an object that has the lock does nothing, and says so. -/
theorem C102_again (s : Lks) (i : Nat) (hl : (s.obj i).locked = true) (hr : (s.obj i).ph = .rest) : s.exec [.lock i, .go i] = some (s, [.locks i true]) := by
  have h : (fun j => if j = i then (⟨true, .rest⟩ : LkObj) else if j = i then ⟨true, .locking⟩ else s.obj j) = s.obj := by
    funext j
    split
    · next hj => subst hj; cases ho : s.obj j; simp_all
    · rfl
  simp [Lks.exec, Lks.step, Lks.go, Lks.set, hr, hl, h]

/-- Two objects: the first one gets the lock, the second one does not, its unlock() and its destructor change nothing; it gets the lock after the destruction of the first one. -/
theorem C102_lock_demo : ∃ s as, Lks.Run Lks.init as s [.locks 0 true, .locks 1 false, .unlocks 1, .locks 1 false, .locks 0 true, .unlocks 0, .locks 1 true] := by
  have e : (Lks.init.exec [.ctor 0, .go 0, .go 0, .ctor 1, .go 1, .go 1, .unlock 1, .go 1, .go 1, .lock 1, .go 1, .go 1, .lock 0, .go 0, .dtor 0, .go 0, .lock 1, .go 1, .go 0, .go 1]).map (fun r => r.2) =
    some [.locks 0 true, .locks 1 false, .unlocks 1, .locks 1 false, .locks 0 true, .unlocks 0, .locks 1 true] := by decide +kernel
  rw [Option.map_eq_some_iff] at e
  obtain ⟨⟨s, es⟩, e1, rfl⟩ := e
  exact ⟨s, _, Lks.exec_run e1⟩

/-- C102: whatever any number of threads do with start() and close(), the socket behaves like one that is started and closed by one thread at a time: do_start() runs only while the socket is not started and nobody else starts or closes
it, only a socket that is started is closed, by one thread, and close() finds the socket not started only if it is not and nobody is just starting it. started() tells whether it is (while a thread closes it, started() changes). -/
theorem C102_history (s : Scs) (as : List ScAct) (es : List ScEv) (h : Scs.Run Scs.init as s es) :
    ∃ t, ScHistory es t ∧ (t = .on → s.started = true) ∧ (s.started = true → t = .on ∨ ∃ i, t = .turningOff i) := by
  obtain ⟨t, h1, h2⟩ := (Scs.run_inv h).abs
  refine ⟨t, h1, fun ht => by subst ht; exact h2.1, fun hs => ?_⟩
  cases t with
  | off => rw [h2.1] at hs; cases hs
  | on => exact .inl rfl
  | turningOn i => rw [h2.1] at hs; cases hs
  | turningOff i => exact .inr ⟨i, rfl⟩

theorem scUps_snoc (es : List ScEv) (ev : ScEv) : scUps (es ++ [ev]) = scUps es + (match ev with | .up _ ok => if ok then 1 else 0 | _ => 0) := by
  simp only [scUps, List.filter_append, List.length_append]
  cases ev <;> simp
  next i ok => cases ok <;> rfl

theorem scClosings_snoc (es : List ScEv) (ev : ScEv) : scClosings (es ++ [ev]) = scClosings es + (match ev with | .closing _ => 1 | _ => 0) := by
  simp only [scClosings, List.filter_append, List.length_append]
  cases ev <;> simp

def ScState.ons : ScState → Nat
  | .on => 1
  | _ => 0

theorem ScHistory.counts {es : List ScEv} {t : ScState} (h : ScHistory es t) : scUps es = scClosings es + t.ons := by
  induction h with
  | nil => rfl
  | snoc es t t' ev _ hn ih =>
    rw [scUps_snoc, scClosings_snoc]
    cases hn with
    | up i ok => cases ok <;> simp_all [ScState.ons]
    | _ => simp_all [ScState.ons]

/-- Events of close() by thread `i`: closing, returned true; found not started, returned false. -/
def scMine (i : Nat) (b : Bool) (es : List ScEv) : Nat × Nat :=
  (es.countP (fun ev => ev == (if b then .closing i else .found i)), es.countP (fun ev => ev == .closeRet i b))

/-- close() is on the way to returning `b`. -/
def ScPc.will (b : Bool) : ScPc → Nat
  | .cStore => if b then 1 else 0
  | .cBody => if b then 1 else 0
  | .cDtor c => if b = c then 1 else 0
  | _ => 0

theorem Scs.mine_step {s s' : Scs} {a : ScAct} {es fs : List ScEv} (hfit : ∀ j, (s.pc j).fits (s.lk.obj j)) (hs : s.step a = some (s', fs)) (k : Nat) (b : Bool) (h : (scMine k b es).1 = (scMine k b es).2 + (s.pc k).will b) :
    (scMine k b (es ++ fs)).1 = (scMine k b (es ++ fs)).2 + (s'.pc k).will b := by
  obtain ⟨p, x, f, st, ht, rfl⟩ := Scs.ts hs (hfit _)
  generalize a.who = i at *
  generalize hob : s.lk.obj i = ob at ht
  generalize hfl : s.lk.flag = fl at ht
  generalize hpc : s.pc i = pc at ht
  generalize hst : s.started = st0 at ht
  simp only [scMine, List.countP_append] at h ⊢
  by_cases hk : k = i
  · subst hk
    rw [hpc] at h
    simp only [Scs.put, if_pos]
    cases ht with
    | gets _ _ _ q hq => cases hq <;> simp_all [ScPc.will]
    | ret _ _ _ _ hq =>
      cases hq with
      | s => cases b <;> simp_all [ScPc.will]
      | c d => cases b <;> cases d <;> simp_all [ScPc.will]
    | _ => cases b <;> simp_all [ScPc.will]
  · simp only [Scs.put, if_neg hk]
    have h0 : fs.countP (fun ev => ev == (if b then ScEv.closing k else ScEv.found k)) = 0 ∧ fs.countP (fun ev => ev == ScEv.closeRet k b) = 0 := by
      have hk' : ¬ i = k := fun hc => hk hc.symm
      cases ht with
      | ret _ _ _ _ hq => cases hq <;> cases b <;> simp [hk']
      | _ => cases b <;> simp [hk']
    omega

theorem Scs.run_mine {s : Scs} {as : List ScAct} {es : List ScEv} (h : Scs.Run Scs.init as s es) (k : Nat) (b : Bool) : (scMine k b es).1 = (scMine k b es).2 + (s.pc k).will b := by
  generalize h0 : Scs.init = s0 at h
  induction h with
  | nil => subst h0; rfl
  | snoc s1 s2 as a es fs hr hs ih =>
    subst h0
    exact Scs.mine_step (Scs.run_inv hr).fits hs k b ih

/-- C102: a call of close() returns true if it closed the socket, and false if it found it not started: for every thread the calls that returned are as many as those that closed (or found), but for one that is still going on. -/
theorem C102_result (s : Scs) (as : List ScAct) (es : List ScEv) (h : Scs.Run Scs.init as s es) (i : Nat) :
    es.countP (· == .closeRet i true) ≤ es.countP (· == .closing i) ∧ es.countP (· == .closing i) ≤ es.countP (· == .closeRet i true) + 1 ∧
    es.countP (· == .closeRet i false) ≤ es.countP (· == .found i) ∧ es.countP (· == .found i) ≤ es.countP (· == .closeRet i false) + 1 := by
  have h1 := Scs.run_mine h i true
  have h2 := Scs.run_mine h i false
  have h3 : ∀ b, (s.pc i).will b ≤ 1 := by
    intro b
    cases s.pc i <;> simp only [ScPc.will] <;> (try split) <;> omega
  have h4 := h3 true
  have h5 := h3 false
  simp only [scMine, if_true, Bool.false_eq_true, if_false] at h1 h2
  omega

theorem length_le_of_count {l1 l2 : List Nat} (h : ∀ i, l1.count i ≤ l2.count i) : l1.length ≤ l2.length := by
  induction l1 generalizing l2 with
  | nil => simp
  | cons a l ih =>
    have hm : a ∈ l2 := by
      have := h a
      simp only [List.count_cons_self] at this
      exact List.count_pos_iff.mp (by omega)
    have h1 := ih (l2 := l2.erase a) (fun i => by
      have := h i
      rw [List.count_erase]
      by_cases hi : i = a
      · subst hi; simp only [List.count_cons_self] at this; simp; omega
      · rw [List.count_cons_of_ne (Ne.symm hi)] at this; simp [Ne.symm hi]; omega)
    have h2 := List.length_pos_of_mem hm
    rw [List.length_erase_of_mem hm] at h1
    simp only [List.length_cons]
    omega

/-- C102: all threads together, close() returns true at most as often as the socket was started successfully, and a socket is not started successfully once more before it was closed. -/
theorem C102_once (s : Scs) (as : List ScAct) (es : List ScEv) (h : Scs.Run Scs.init as s es) : scTrue es ≤ scClosings es ∧ scClosings es ≤ scUps es ∧ scUps es ≤ scClosings es + 1 := by
  obtain ⟨t, ht, _⟩ := C102_history s as es h
  have h1 := ht.counts
  refine ⟨?_, by omega, by rw [h1]; cases t <;> simp [ScState.ons]⟩
  have h2 : ∀ es : List ScEv, scTrue es = (es.filterMap (fun ev => match ev with | .closeRet i true => some i | _ => none)).length ∧
      scClosings es = (es.filterMap (fun ev => match ev with | .closing i => some i | _ => none)).length ∧
      ∀ k, (es.filterMap (fun ev => match ev with | .closeRet i true => some i | _ => none)).count k = es.countP (· == .closeRet k true) ∧
        (es.filterMap (fun ev => match ev with | .closing i => some i | _ => none)).count k = es.countP (· == .closing k) := by
    intro es
    induction es with
    | nil => exact ⟨rfl, rfl, fun k => ⟨rfl, rfl⟩⟩
    | cons ev es ih =>
      obtain ⟨i1, i2, i3⟩ := ih
      simp only [scTrue, scClosings] at i1 i2 ⊢
      refine ⟨?_, ?_, fun k => ?_⟩
      · cases ev with
        | closeRet i b => cases b <;> simp [i1]
        | _ => simp [i1]
      · cases ev <;> simp [i2]
      · obtain ⟨i4, i5⟩ := i3 k
        cases ev with
        | closeRet i b => cases b <;> simp [List.countP_cons, List.count_cons, i4, i5]
        | closing i => simp [List.countP_cons, List.count_cons, i4, i5]
        | _ => simp [i4, i5]
  obtain ⟨h3, h4, h5⟩ := h2 es
  rw [h3, h4]
  refine length_le_of_count (fun k => ?_)
  rw [(h5 k).1, (h5 k).2]
  exact (C102_result s as es h k).1

/-- Thread 0 starts the socket, thread 1 tries too; threads 2 and 3 close it at the same time. -/
theorem C102_demo : ∃ s as, Scs.Run Scs.init as s [.starting 0, .startRet 1, .up 0 true, .startRet 0, .closing 2, .closed 2, .found 3, .closeRet 2 true, .closeRet 3 false] := by
  have e : (Scs.init.exec [.start 0, .start 1, .go 0, .go 1, .go 0, .go 0, .go 0, .go 0, .go 1, .go 1, .go 1, .go 1, .go 1, .go 1, .go 1, .started 0 true, .go 0, .close 2, .close 3, .go 3, .go 3, .go 3, .go 0, .go 0, .go 0,
    .go 2, .go 2, .go 2, .go 2, .go 3, .go 3, .go 3, .go 3, .go 3, .go 2, .go 2, .go 2, .go 2, .go 3, .go 3, .go 3, .go 3, .go 3, .go 3, .go 3, .go 2, .go 2, .go 3, .go 3, .go 3]).map (fun r => r.2) =
    some [.starting 0, .startRet 1, .up 0 true, .startRet 0, .closing 2, .closed 2, .found 3, .closeRet 2 true, .closeRet 3 false] := by decide +kernel
  rw [Option.map_eq_some_iff] at e
  obtain ⟨⟨s, es⟩, e1, rfl⟩ := e
  exact ⟨s, _, Scs.exec_run e1⟩

end StAsio
