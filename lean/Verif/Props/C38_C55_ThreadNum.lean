import Verif.Model.ThreadNum

/-!
# C38: removing service threads; C55: exceptions and service threads
-/

set_option autoImplicit false

namespace StAsio

theorem Threads.run_trans {s s1 s2 : Threads} {as bs : List ThreadAct} {es fs : List ThreadEv} (h1 : Threads.Run s as s1 es) (h2 : Threads.Run s1 bs s2 fs) : Threads.Run s (as ++ bs) s2 (es ++ fs) := by
  induction h2 with
  | nil => simpa using h1
  | snoc s2 s3 bs a fs fs' _ hs ih =>
    rw [← List.append_assoc, ← List.append_assoc]
    exact Threads.Run.snoc _ _ _ _ _ _ _ ih hs

theorem Threads.run_one {s s' : Threads} {a : ThreadAct} {fs : List ThreadEv} (h : s.step a = some (s', fs)) : Threads.Run s [a] s' fs := by
  simpa using Threads.Run.snoc _ _ _ _ _ _ _ (Threads.Run.nil s) h

theorem Threads.exec_run {s s' : Threads} {as : List ThreadAct} {es : List ThreadEv} (h : Threads.exec s as = some (s', es)) : Threads.Run s as s' es := by
  induction as generalizing s es with
  | nil => simp [Threads.exec] at h; obtain ⟨rfl, rfl⟩ := h; exact Threads.Run.nil _
  | cons a as ih =>
    simp only [Threads.exec, Option.bind_eq_bind] at h
    rw [Option.bind_eq_some_iff] at h
    obtain ⟨⟨s1, e1⟩, h1, h2⟩ := h
    rw [Option.bind_eq_some_iff] at h2
    obtain ⟨⟨s2, e2⟩, h2, h3⟩ := h2
    simp at h3
    obtain ⟨rfl, rfl⟩ := h3
    exact Threads.run_trans (Threads.run_one h1) (ih h2)

/-- Threads inside the loop, except those which are just taking back the decrement. -/
def Threads.counted (s : Threads) : Nat := s.top + s.dec + s.undo + s.rdec + s.work + s.fin

/-- Number of threads that broke out of the loop because on_exception said so. -/
def brokeNum (es : List ThreadEv) : Nat := es.count (.threw false)

theorem askedNum_append (es fs : List ThreadEv) : askedNum (es ++ fs) = askedNum es + askedNum fs := by
  induction es with
  | nil => simp [askedNum]
  | cons e es ih => cases e <;> simp [askedNum, ih]; omega

/-- Number of requests forgotten. -/
def discardedNum : List ThreadEv → Nat
  | [] => 0
  | .discarded n :: es => n + discardedNum es
  | _ :: es => discardedNum es

theorem discardedNum_append (es fs : List ThreadEv) : discardedNum (es ++ fs) = discardedNum es + discardedNum fs := by
  induction es with
  | nil => simp [discardedNum]
  | cons e es ih => cases e <;> simp [discardedNum, ih]; omega

/-- The invariant of the two counters. -/
structure Threads.Inv (s : Threads) (es : List ThreadEv) : Prop where
  real : s.real = s.counted + brokeNum es
  del : 0 ≤ s.del + s.undo
  alive : s.counted + s.rundo + removedNum es + endedNum es + brokeNum es = startedNum es
  reqs : (askedNum es : Int) = s.del + s.undo + s.rdec + removedNum es + refusedNum es + discardedNum es

theorem Threads.inv_step {s s' : Threads} {a : ThreadAct} {es fs : List ThreadEv} (h : s.Inv es) (hs : s.step a = some (s', fs)) : s'.Inv (es ++ fs) := by
  obtain ⟨h1, h2, h3, h4⟩ := h
  cases a <;> simp only [Threads.step] at hs <;> (repeat' split at hs) <;> cases hs <;>
    (refine ⟨?_, ?_, ?_, ?_⟩ <;> simp only [Threads.counted, brokeNum, startedNum, removedNum, refusedNum, endedNum, List.count_append, askedNum_append, discardedNum_append, askedNum, discardedNum, List.count_cons, List.count_nil, List.append_nil] at * <;> (try simp) <;> omega)

theorem Threads.inv_run {as : List ThreadAct} {s : Threads} {es : List ThreadEv} (hr : Threads.Run Threads.init as s es) : s.Inv es := by
  generalize h0 : Threads.init = s0 at hr
  induction hr with
  | nil => subst h0; exact ⟨by decide, by decide, by decide, by decide⟩
  | snoc s1 s2 as a es fs _ hs ih => exact Threads.inv_step ih hs

theorem Threads.prefix_run {s0 s : Threads} {as : List ThreadAct} {es es1 es2 : List ThreadEv} {e : ThreadEv} (hr : Threads.Run s0 as s es) (h : es = es1 ++ [e] ++ es2) :
    ∃ as1 t t' a, Threads.Run s0 as1 t es1 ∧ t.step a = some (t', [e]) := by
  induction hr generalizing es2 with
  | nil => simp at h
  | snoc s1 s2 as a es fs hr hs ih =>
    have hfs : fs = [] ∨ ∃ f, fs = [f] := by
      cases a <;> simp only [Threads.step] at hs <;> (repeat' split at hs) <;> cases hs <;> simp
    rcases hfs with rfl | ⟨f, rfl⟩
    · rw [List.append_nil] at h; exact ih h
    · rcases List.eq_nil_or_concat es2 with rfl | ⟨es2', f', rfl⟩
      · rw [List.append_nil] at h
        obtain ⟨h1, h2⟩ := List.append_inj' h rfl
        cases h2
        subst h1
        exact ⟨as, s1, s2, a, hr, hs⟩
      · rw [List.concat_eq_append, ← List.append_assoc] at h
        obtain ⟨h1, _⟩ := List.append_inj' h rfl
        exact ih h1

/-- **C38** (a removal leaves a thread): if no handler throws, then whenever a thread leaves on request, at least one other service thread has started and has neither been removed nor ended. -/
theorem C38_removal_leaves_one {as : List ThreadAct} {s : Threads} {es es1 es2 : List ThreadEv} (hr : Threads.Run Threads.init as s es) (ht : NoThrow es) (h : es = es1 ++ [.removed] ++ es2) :
    removedNum es1 + 1 + endedNum es1 < startedNum es1 := by
  obtain ⟨as1, t, t', a, h1, h2⟩ := Threads.prefix_run hr h
  obtain ⟨i1, i2, i3, i4⟩ := Threads.inv_run h1
  have hb : brokeNum es1 = 0 := by
    apply List.count_eq_zero.2
    intro c
    exact ht false (by rw [h]; simp [c])
  cases a <;> simp only [Threads.step] at h2 <;> (repeat' split at h2) <;> cases h2
  omega

/-- **C38** (the last thread stays): if no handler throws and no thread has ended with its io_context, there is always a service thread left, however many threads are asked to leave and whatever the interleaving. -/
theorem C38_last_thread {as : List ThreadAct} {s : Threads} {es : List ThreadEv} (hr : Threads.Run Threads.init as s es) (ht : NoThrow es) (he : endedNum es = 0) (hs : 0 < startedNum es) : removedNum es < startedNum es := by
  by_cases hm : ThreadEv.removed ∈ es
  · -- the last removal
    have : ∃ es1 es2, es = es1 ++ [.removed] ++ es2 ∧ ThreadEv.removed ∉ es2 := by
      clear hr ht he hs
      induction es with
      | nil => simp at hm
      | cons e es ih =>
        by_cases h : ThreadEv.removed ∈ es
        · obtain ⟨a, b, h1, h2⟩ := ih h
          exact ⟨e :: a, b, by simp [h1], h2⟩
        · simp [h] at hm
          exact ⟨[], es, by simp [hm], h⟩
    obtain ⟨es1, es2, h1, h2⟩ := this
    have h3 := C38_removal_leaves_one hr ht h1
    have h4 : es2.count .removed = 0 := List.count_eq_zero.2 h2
    subst h1
    simp only [removedNum, startedNum, endedNum, List.count_append, List.count_cons, List.count_nil] at *
    simp at *
    omega
  · have : removedNum es = 0 := List.count_eq_zero.2 hm
    omega

/-- **C38** (not more than requested): whatever happens, exceptions included, not more threads leave on request than were asked to. -/
theorem C38_at_most {as : List ThreadAct} {s : Threads} {es : List ThreadEv} (hr : Threads.Run Threads.init as s es) : removedNum es + refusedNum es ≤ askedNum es := by
  obtain ⟨i1, i2, i3, i4⟩ := Threads.inv_run hr
  omega

/-! ### exactly the requested number -/

structure Threads.Inv2 (n : Nat) (s : Threads) (es : List ThreadEv) : Prop where
  real : s.real = s.top + s.dec + s.undo + s.rdec + s.work
  fin : s.fin = 0
  fresh : s.fresh = 0
  del : 0 ≤ s.del + s.undo
  one : 0 < s.real + s.rundo
  back : 0 < s.rundo → s.real = 0 ∧ s.rundo = 1
  alive : s.top + s.dec + s.undo + s.rdec + s.work + s.rundo + removedNum es = n
  ref : 0 < refusedNum es → s.top + s.dec + s.undo + s.rdec + s.work + s.rundo = 1
  reqs : (askedNum es : Int) = s.del + s.undo + s.rdec + removedNum es + refusedNum es

theorem Threads.inv2_step {n : Nat} {s s' : Threads} {a : ThreadAct} {es fs : List ThreadEv} (h : s.Inv2 n es) (ha : a.regular = true) (hs : s.step a = some (s', fs)) : s'.Inv2 n (es ++ fs) := by
  obtain ⟨h1, h2, h3, h4, h5, h6, h7, h8, h9⟩ := h
  cases a <;> (try (cases ha; done)) <;> simp only [Threads.step] at hs <;> (repeat' split at hs) <;> cases hs <;>
    (refine ⟨?_, ?_, ?_, ?_, ?_, ?_, ?_, ?_, ?_⟩ <;> simp only [removedNum, refusedNum, List.count_append, askedNum_append, askedNum, List.count_cons, List.count_nil, List.append_nil] at * <;> (try simp [-List.count_pos_iff]) <;> omega)

theorem Threads.inv2_run {n : Nat} (hn : 0 < n) {as : List ThreadAct} {s : Threads} {es : List ThreadEv} (hr : Threads.Run (Threads.steady n) as s es) (ha : ∀ a ∈ as, a.regular = true) : s.Inv2 n es := by
  generalize h0 : Threads.steady n = s0 at hr
  induction hr with
  | nil =>
    subst h0
    constructor <;> simp [Threads.steady, Threads.init, removedNum, refusedNum, askedNum] <;> omega
  | snoc s1 s2 as a es fs _ hs ih => exact Threads.inv2_step (ih (fun a h => ha a (by simp [h]))) (ha a (by simp)) hs

/-- **C38** (exactly the requested number): n threads are running and threads are asked to leave, in any number of requests and any interleaving with the threads. Once all requests have been dealt with, exactly as many threads have left
as were asked to, except that the last one stays. -/
theorem C38_exact {n : Nat} (hn : 0 < n) {as : List ThreadAct} {s : Threads} {es : List ThreadEv} (hr : Threads.Run (Threads.steady n) as s es) (ha : ∀ a ∈ as, a.regular = true) (hq : s.Settled) :
    removedNum es = min (askedNum es) (n - 1) := by
  obtain ⟨h1, h2, h3, h4, h5, h6, h7, h8, h9⟩ := Threads.inv2_run hn hr ha
  obtain ⟨q1, q2, q3, q4, q5⟩ := hq
  by_cases hr : 0 < refusedNum es
  · have := h8 hr
    omega
  · omega

/-- n threads can be started: from the constructor to n threads in run_one. -/
theorem C38_steady_reachable (n : Nat) : ∃ as es, Threads.Run Threads.init as (Threads.steady n) es := by
  have key : ∀ k, k ≤ n → ∃ as es, Threads.Run Threads.init as { Threads.steady k with fresh := n - k } es := by
    intro k
    induction k with
    | zero => intro _; exact ⟨_, _, Threads.run_one (a := .spawn n) (by simp [Threads.step, Threads.steady, Threads.init]; rfl)⟩
    | succ k ih =>
      intro hk
      obtain ⟨as, es, h⟩ := ih (by omega)
      refine ⟨_, _, Threads.run_trans (Threads.run_trans h (Threads.run_one (a := .enter) (s' := { Threads.steady k with fresh := n - (k + 1), real := k + 1, top := 1 }) (fs := [.started]) ?_)) (Threads.run_one (a := .look) (fs := []) ?_)⟩
      · simp [Threads.step, Threads.steady, Threads.init]; omega
      · simp [Threads.step, Threads.steady, Threads.init]
  obtain ⟨as, es, h⟩ := key n (Nat.le_refl n)
  exact ⟨as, es, by simpa [Threads.steady, Threads.init] using h⟩

/-! ### requests are dealt with -/

theorem Threads.calm {n : Nat} {s : Threads} {es : List ThreadEv} (h : s.Inv2 n es) : ∃ as s' fs, Threads.Run s as s' fs ∧ (∀ a ∈ as, a.quiet = true) ∧ s'.Inv2 n (es ++ fs) ∧ s'.top = 0 ∧ s'.dec = 0 ∧ s'.undo = 0 ∧ s'.rdec = 0 ∧ s'.rundo = 0 := by
  generalize hm : 5 * s.top + 4 * s.dec + 3 * s.rdec + s.rundo + s.undo = m
  induction m using Nat.strongRecOn generalizing s es with
  | _ m ih =>
    have go : ∀ a s1 fs, a.quiet = true → s.step a = some (s1, fs) → 5 * s1.top + 4 * s1.dec + 3 * s1.rdec + s1.rundo + s1.undo < m →
        ∃ as s' fs, Threads.Run s as s' fs ∧ (∀ a ∈ as, a.quiet = true) ∧ s'.Inv2 n (es ++ fs) ∧ s'.top = 0 ∧ s'.dec = 0 ∧ s'.undo = 0 ∧ s'.rdec = 0 ∧ s'.rundo = 0 := by
      intro a s1 fs ha hs hlt
      obtain ⟨as, s', fs', h1, h2, h3, h4⟩ := ih _ hlt (Threads.inv2_step h (by simp [ThreadAct.regular, ha]) hs) rfl
      exact ⟨_, s', _, Threads.run_trans (Threads.run_one hs) h1, by simpa [ha] using h2, by rw [← List.append_assoc]; exact h3, h4⟩
    by_cases h1 : 0 < s.top
    · by_cases hd : s.del > 0
      · exact go .look _ _ rfl (by simp only [Threads.step, if_pos h1, if_pos hd]; rfl) (by simp only; omega)
      · exact go .look _ _ rfl (by simp only [Threads.step, if_pos h1, if_neg hd]; rfl) (by simp only; omega)
    by_cases h2 : 0 < s.dec
    · by_cases hd : s.del - 1 ≥ 0
      · exact go .decDel _ _ rfl (by simp only [Threads.step, if_pos h2, if_pos hd]; rfl) (by simp only; omega)
      · exact go .decDel _ _ rfl (by simp only [Threads.step, if_pos h2, if_neg hd]; rfl) (by simp only; omega)
    by_cases h3 : 0 < s.rdec
    · by_cases hd : s.real - 1 > 0
      · exact go .decReal _ _ rfl (by simp only [Threads.step, if_pos h3, if_pos hd]; rfl) (by simp only; omega)
      · exact go .decReal _ _ rfl (by simp only [Threads.step, if_pos h3, if_neg hd]; rfl) (by simp only; omega)
    by_cases h4 : 0 < s.rundo
    · exact go .undoReal _ _ rfl (by simp only [Threads.step, if_pos h4]; rfl) (by simp only; omega)
    by_cases h5 : 0 < s.undo
    · exact go .undoDel _ _ rfl (by simp only [Threads.step, if_pos h5]; rfl) (by simp only; omega)
    exact ⟨[], s, [], Threads.Run.nil s, by simp, by simpa using h, by omega, by omega, by omega, by omega, by omega⟩

/-- **C38** (requests are dealt with): from every such situation the threads, by just going on with their work, reach a point where all requests have been dealt with. -/
theorem C38_settles {n : Nat} (hn : 0 < n) {as : List ThreadAct} {s : Threads} {es : List ThreadEv} (hr : Threads.Run (Threads.steady n) as s es) (ha : ∀ a ∈ as, a.regular = true) :
    ∃ bs s' fs, Threads.Run s bs s' fs ∧ (∀ b ∈ bs, b.quiet = true) ∧ s'.Settled := by
  have hi := Threads.inv2_run hn hr ha
  clear hr ha
  obtain ⟨bs, s1, fs, h1, h2, h3, h4, h5, h6, h7, h8⟩ := Threads.calm hi
  suffices h : ∀ (d : Nat) (s1 : Threads) (es : List ThreadEv), s1.Inv2 n es → s1.del.toNat = d → s1.top = 0 → s1.dec = 0 → s1.undo = 0 → s1.rdec = 0 → s1.rundo = 0 →
      ∃ bs s' fs, Threads.Run s1 bs s' fs ∧ (∀ b ∈ bs, b.quiet = true) ∧ s'.Settled by
    obtain ⟨bs', s', fs', g1, g2, g3⟩ := h _ s1 _ h3 rfl h4 h5 h6 h7 h8
    refine ⟨_, s', _, Threads.run_trans h1 g1, ?_, g3⟩
    intro b hb
    rcases List.mem_append.1 hb with hb | hb
    · exact h2 b hb
    · exact g2 b hb
  intro d
  induction d using Nat.strongRecOn with
  | _ d ih =>
    intro s1 es hi hd h4 h5 h6 h7 h8
    by_cases hz : s1.del = 0
    · exact ⟨[], s1, [], Threads.Run.nil _, by simp, hz, h5, h6, h7, h8⟩
    have hpos : s1.del > 0 := by have := hi.del; omega
    have hw : 0 < s1.work := by have := hi.one; have := hi.real; omega
    have e1 : s1.step .handled = some ({ s1 with work := s1.work - 1, top := s1.top + 1 }, []) := by simp only [Threads.step, if_pos hw]
    have e2 : ({ s1 with work := s1.work - 1, top := s1.top + 1 } : Threads).step .look = some ({ s1 with work := s1.work - 1, top := s1.top, dec := s1.dec + 1 }, []) := by simp [Threads.step, hpos]
    have e3 : ({ s1 with work := s1.work - 1, top := s1.top, dec := s1.dec + 1 } : Threads).step .decDel = some ({ s1 with work := s1.work - 1, top := s1.top, dec := s1.dec, del := s1.del - 1, rdec := s1.rdec + 1 }, []) := by
      simp [Threads.step]; omega
    have r := Threads.run_trans (Threads.run_trans (Threads.run_one e1) (Threads.run_one e2)) (Threads.run_one e3)
    have i1 := Threads.inv2_step hi (a := .handled) rfl e1
    have i2 := Threads.inv2_step i1 (a := .look) rfl e2
    have i3 := Threads.inv2_step i2 (a := .decDel) rfl e3
    have fin : ∀ s2 fs, ({ s1 with work := s1.work - 1, top := s1.top, dec := s1.dec, del := s1.del - 1, rdec := s1.rdec + 1 } : Threads).step .decReal = some (s2, fs) → s2.del = s1.del - 1 → s2.top = 0 → s2.dec = 0 → s2.undo = 0 → s2.rdec = 0 →
        ∃ bs s' fs, Threads.Run s1 bs s' fs ∧ (∀ b ∈ bs, b.quiet = true) ∧ s'.Settled := by
      intro s2 fs hs k1 k2 k3 k4 k5
      have i4 := Threads.inv2_step i3 (a := .decReal) rfl hs
      have r2 := Threads.run_trans r (Threads.run_one hs)
      by_cases hu : 0 < s2.rundo
      · have hb := i4.back hu
        have e5 : s2.step .undoReal = some ({ s2 with rundo := s2.rundo - 1, real := s2.real + 1, work := s2.work + 1 }, []) := by simp only [Threads.step, if_pos hu]
        have i5 := Threads.inv2_step i4 (a := .undoReal) rfl e5
        obtain ⟨bs, s', fs', g1, g2, g3⟩ := ih (s2.del.toNat) (by omega) _ _ i5 (by simp) k2 k3 k4 k5 (by simp only; omega)
        refine ⟨_, s', _, Threads.run_trans (Threads.run_trans r2 (Threads.run_one e5)) g1, ?_, g3⟩
        intro b hb
        rcases List.mem_append.1 hb with hb | hb
        · simp at hb; rcases hb with rfl | rfl | rfl | rfl | rfl <;> rfl
        · exact g2 b hb
      · obtain ⟨bs, s', fs', g1, g2, g3⟩ := ih (s2.del.toNat) (by omega) _ _ i4 rfl k2 k3 k4 k5 (by omega)
        refine ⟨_, s', _, Threads.run_trans r2 g1, ?_, g3⟩
        intro b hb
        rcases List.mem_append.1 hb with hb | hb
        · simp at hb; rcases hb with rfl | rfl | rfl | rfl <;> rfl
        · exact g2 b hb
    by_cases hreal : s1.real - 1 > 0
    · have e4 : ({ s1 with work := s1.work - 1, top := s1.top, dec := s1.dec, del := s1.del - 1, rdec := s1.rdec + 1 } : Threads).step .decReal = some (({ s1 with work := s1.work - 1, del := s1.del - 1, rdec := s1.rdec + 1 - 1, real := s1.real - 1 } : Threads), [.removed]) := by
        simp only [Threads.step]; rw [if_pos (by omega), if_pos hreal]
      exact fin _ _ e4 rfl h4 h5 h6 (by show s1.rdec + 1 - 1 = 0; omega)
    · have e4 : ({ s1 with work := s1.work - 1, top := s1.top, dec := s1.dec, del := s1.del - 1, rdec := s1.rdec + 1 } : Threads).step .decReal = some (({ s1 with work := s1.work - 1, del := s1.del - 1, rdec := s1.rdec + 1 - 1, real := s1.real - 1, rundo := s1.rundo + 1 } : Threads), [.refused]) := by
        simp only [Threads.step]; rw [if_pos (by omega), if_neg hreal]
      exact fin _ _ e4 rfl h4 h5 h6 (by show s1.rdec + 1 - 1 = 0; omega)

/-- Three threads, five asked to leave: two leave. -/
example : ∃ as s es, Threads.Run (Threads.steady 3) as s es ∧ (∀ a ∈ as, a.regular = true) ∧ s.Settled ∧ askedNum es = 5 ∧ removedNum es = 2 := by
  have h1 := Threads.exec_run (s := Threads.steady 3) (as := [.request 5, .handled, .look, .handled, .look, .handled, .look, .decDel, .decDel, .decDel, .decReal, .decReal, .decReal, .undoReal, .handled, .look, .decDel, .decReal, .undoReal, .handled, .look, .decDel, .decReal, .undoReal]) rfl
  exact ⟨_, _, _, h1, by decide, ⟨rfl, rfl, rfl, rfl, rfl⟩, by decide, by decide⟩

/-! ### where C38 is false -/

/-- If on_exception ends a thread, real_thread_num is not decreased, and the last thread can be removed: afterwards no service thread is left although none ended with its io_context. -/
theorem C38_fails_exception : ∃ (as : List ThreadAct) (s : Threads) (es : List ThreadEv), Threads.Run Threads.init as s es ∧ endedNum es = 0 ∧ startedNum es = 2 ∧ es.count .removed = 1 ∧ s.fresh + s.top + s.dec + s.undo + s.rdec + s.rundo + s.work + s.fin = 0 ∧ es.getLast? = some .removed :=
  ⟨_, _, _, Threads.exec_run (as := [.spawn 2, .enter, .enter, .look, .look, .throws false, .request 1, .handled, .look, .decDel, .decReal]) rfl, by decide, by decide, by decide, by decide, by decide⟩

/-- A request made while the threads are still starting can be dropped by the first thread: two threads, one asked to leave, none leaves. -/
theorem C38_fails_early : ∃ (as : List ThreadAct) (s : Threads) (es : List ThreadEv), Threads.Run Threads.init as s es ∧ s.Settled ∧ NoThrow es ∧ endedNum es = 0 ∧ startedNum es = 2 ∧ askedNum es = 1 ∧ removedNum es = 0 :=
  ⟨_, _, _, Threads.exec_run (as := [.spawn 2, .request 1, .enter, .look, .decDel, .decReal, .undoReal, .enter, .look]) rfl, by unfold Threads.Settled; decide, by intro b; cases b <;> decide, by decide, by decide, by decide, by decide⟩

/-! ### C55 -/

/-- **C55** (without ST_ASIO_DECREASE_THREAD_AT_RUNTIME): a service thread leaves its loop after the listed calls of run() only if one of them returned normally or on_exception answered "stop"; until then it goes on. -/
theorem C55_plain (os : List RunOutcome) : (plainLoop os = none ↔ ∀ o ∈ os, o = .threw true) ∧
    ∀ k, plainLoop os = some k → ∃ o, os[k - 1]? = some o ∧ 0 < k ∧ o ≠ .threw true ∧ ∀ (j : Nat), j + 1 < k → os[j]? = some (.threw true) := by
  induction os with
  | nil => simp [plainLoop]
  | cons o os ih =>
    obtain ⟨ih1, ih2⟩ := ih
    rcases o with _ | ⟨_ | _⟩
    · refine ⟨by simp [plainLoop], ?_⟩
      intro k h
      simp [plainLoop] at h
      subst h
      exact ⟨.returned, rfl, by omega, by simp, by intro j hj; omega⟩
    · refine ⟨by simp [plainLoop], ?_⟩
      intro k h
      simp [plainLoop] at h
      subst h
      exact ⟨.threw false, rfl, by omega, by simp, by intro j hj; omega⟩
    · refine ⟨by simp [plainLoop, ih1], ?_⟩
      intro k h
      simp [plainLoop] at h
      obtain ⟨k', h1, rfl⟩ := h
      obtain ⟨o, g1, g2, g3, g4⟩ := ih2 k' h1
      refine ⟨o, ?_, by omega, g3, ?_⟩
      · have : k' + 1 - 1 = (k' - 1) + 1 := by omega
        rw [this, List.getElem?_cons_succ]
        exact g1
      · intro j hj
        cases j with
        | zero => rfl
        | succ j => rw [List.getElem?_cons_succ]; exact g4 j (by omega)

example : plainLoop [.threw true, .threw true, .returned] = some 3 := by decide

/-- With ST_ASIO_DECREASE_THREAD_AT_RUNTIME a service thread ends after an exception even if on_exception answers "continue": here the only thread of a pump is gone, without any stop and without any request. -/
theorem C55_fails_decrease : ∃ (as : List ThreadAct) (s : Threads) (es : List ThreadEv), Threads.Run Threads.init as s es ∧ es = [.started, .threw true, .ended] ∧ ThreadAct.drained ∉ as ∧ s.counted + s.rundo = 0 :=
  ⟨_, _, _, Threads.exec_run (as := [.spawn 1, .enter, .look, .throws true, .finish]) rfl, by decide, by decide, by decide⟩

/-- More generally, in that mode a thread whose handler threw never runs a handler again: the only steps left to it are the ones of leaving. -/
theorem C55_decrease_always_ends {s s' : Threads} {fs : List ThreadEv} (h : s.step (.throws true) = some (s', fs)) : s'.work + 1 = s.work ∧ s'.fin = s.fin + 1 ∧ s'.top = s.top := by
  simp only [Threads.step] at h
  split at h
  · cases h; exact ⟨by simp only; omega, rfl, rfl⟩
  · cases h

end StAsio
