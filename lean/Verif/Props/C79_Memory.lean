import Verif.Model.Memory
/-!
C79: the memory of pooled sockets (include/object_pool.h, include/socket.h, include/tracked_executor.h).
-/
set_option autoImplicit false
namespace StAsio

structure Om.Inv (s : Om) : Prop where
  own : s.alive = false → s.valid = false ∧ s.invalid = false ∧ s.moving = 0 ∧ s.user = 0
  pend : 0 < s.pending → s.valid = true ∨ s.invalid = true ∨ 0 < s.moving
  look : s.chk = true → s.invalid = true ∧ s.moving = 0 ∧ s.valid = false
  rest : s.stopped = true → s.pending = 0

theorem Om.init_inv : Om.init.Inv := by
  constructor <;> simp [Om.init, Om.pending]

theorem Om.step_inv {s s' : Om} {a : OmAct} {fs : List OmEv} (hi : s.Inv) (hp : s.proper a = true) (hs : s.step true a = some (s', fs)) : s'.Inv ∧ ∀ e ∈ fs, e.harmless = true := by
  obtain ⟨h1, h2, h3, h4⟩ := hi
  obtain ⟨alive, valid, invalid, moving, user, chk, up, calls, dc, fin, tail, obsoleted, calling, stopped⟩ := s
  simp only [Om.pending] at h1 h2 h3 h4
  cases a <;> simp only [Om.step, Om.proper, Om.pooled, Om.pending, Om.isObsoleted, Om.reachable, Om.settle, Om.touch, Om.joined] at hs hp <;>
    (repeat' split at hs) <;> (try cases hs) <;> (refine ⟨⟨?_, ?_, ?_, ?_⟩, ?_⟩) <;> (try simp only [Om.pending]) <;> grind [OmEv.harmless]

theorem Om.run_inv {s s' : Om} {as : List OmAct} {es : List OmEv} (hi : s.Inv) (hr : Om.GoodRun true Om.proper s as s' es) : s'.Inv ∧ ∀ e ∈ es, e.harmless = true := by
  induction hr with
  | nil => exact ⟨hi, by simp⟩
  | snoc s1 s2 as a es es' _ hp hs ih =>
    obtain ⟨i1, i2⟩ := ih
    obtain ⟨j1, j2⟩ := Om.step_inv i1 hp hs
    exact ⟨j1, fun e he => (List.mem_append.1 he).elim (i2 e) (j2 e)⟩

theorem Om.GoodRun.trans {tracked : Bool} {p : Om → OmAct → Bool} {s s1 s2 : Om} {as bs : List OmAct} {es fs : List OmEv} (h1 : Om.GoodRun tracked p s as s1 es) (h2 : Om.GoodRun tracked p s1 bs s2 fs) :
    Om.GoodRun tracked p s (as ++ bs) s2 (es ++ fs) := by
  induction h2 with
  | nil => simpa using h1
  | snoc t1 t2 bs b gs gs' _ hp hs ih =>
    rw [← List.append_assoc, ← List.append_assoc]
    exact .snoc _ _ _ _ _ _ _ ih hp hs

theorem Om.goodExec_run {tracked : Bool} {p : Om → OmAct → Bool} {s s' : Om} {as : List OmAct} {es : List OmEv} (h : Om.goodExec tracked p s as = some (s', es)) : Om.GoodRun tracked p s as s' es := by
  induction as generalizing s es with
  | nil => simp only [Om.goodExec, Option.some.injEq, Prod.mk.injEq] at h; obtain ⟨rfl, rfl⟩ := h; exact .nil _
  | cons a as ih =>
    simp only [Om.goodExec] at h
    cases hp : p s a with
    | false => simp [hp] at h
    | true =>
      cases hs : s.step tracked a with
      | none => simp [hp, hs] at h
      | some r =>
        cases he : Om.goodExec tracked p r.1 as with
        | none => simp [hp, hs, he] at h
        | some q =>
          simp [hp, hs, he] at h
          obtain ⟨rfl, rfl⟩ := h
          exact (Om.GoodRun.snoc s s r.1 [] a [] r.2 (.nil s) hp hs).trans (ih (s := r.1) (es := q.2) (by rw [he]))

theorem Om.GoodRun.toRun {tracked : Bool} {p : Om → OmAct → Bool} {s s' : Om} {as : List OmAct} {es : List OmEv} (h : Om.GoodRun tracked p s as s' es) : Om.Run tracked s as s' es := by
  induction h with
  | nil => exact .nil _
  | snoc s1 s2 as a es es' _ _ hs ih => exact .snoc _ _ _ _ _ _ _ ih hs

theorem Om.GoodRun.mono {tracked : Bool} {p q : Om → OmAct → Bool} (hpq : ∀ s a, p s a = true → q s a = true) {s s' : Om} {as : List OmAct} {es : List OmEv} (h : Om.GoodRun tracked p s as s' es) : Om.GoodRun tracked q s as s' es := by
  induction h with
  | nil => exact .nil _
  | snoc s1 s2 as a es es' _ hp hs ih => exact .snoc _ _ _ _ _ _ _ ih (hpq _ _ hp) hs

/-- **C79** (safe): with ST_ASIO_DELAY_CLOSE == 0, if sockets are used as `Om.proper` says: no handler ever runs on freed memory, a socket is freed only when none of its handlers is pending or running, and it is given out for a
new connection only when, besides, nobody else has a pointer to it; reset() never throws. -/
theorem C79_safe_partial {as : List OmAct} {s : Om} {es : List OmEv} (hr : Om.GoodRun true Om.proper Om.init as s es) :
    OmEv.wild ∉ es ∧ OmEv.threw ∉ es ∧ (∀ n, OmEv.freed n ∈ es → n = 0) ∧ ∀ n k u, OmEv.reused n k u ∈ es → n = 0 ∧ k = 0 := by
  have h := (Om.run_inv Om.init_inv hr).2
  refine ⟨fun hm => ?_, fun hm => ?_, fun n hm => ?_, fun n k u hm => ?_⟩ <;> have hh := h _ hm <;> simp [OmEv.harmless] at hh
  · exact hh
  · exact hh

theorem Om.take_step {s s' : Om} {a : OmAct} {fs : List OmEv} (hi : s.chk = true → s.user = 0) (hp : s.properTake a = true) (hs : s.step true a = some (s', fs)) : (s'.chk = true → s'.user = 0) ∧ s.proper a = true := by
  obtain ⟨alive, valid, invalid, moving, user, chk, up, calls, dc, fin, tail, obsoleted, calling, stopped⟩ := s
  cases a <;> simp only [Om.step, Om.proper, Om.properTake, Om.pooled, Om.pending, Om.isObsoleted, Om.reachable, Om.settle, Om.touch, Om.joined] at hs hp hi ⊢ <;>
    (repeat' split at hs) <;> (try cases hs) <;> (refine ⟨?_, ?_⟩) <;> grind

/-- **C79** (the two tests): that nobody takes a pointer between the tests of unique() and obsoleted() is enough; that there is none at that time is what unique() is for. -/
theorem C79_unique_partial {as : List OmAct} {s : Om} {es : List OmEv} (hr : Om.GoodRun true Om.properTake Om.init as s es) : Om.GoodRun true Om.proper Om.init as s es ∧ (s.chk = true → s.user = 0) := by
  induction hr with
  | nil => exact ⟨.nil _, by simp [Om.init]⟩
  | snoc s1 s2 as a es es' _ hp hs ih =>
    obtain ⟨j1, j2⟩ := Om.take_step ih.2 hp hs
    exact ⟨.snoc _ _ _ _ _ _ _ ih.1 j2 hs, j1⟩

/-- The object is not freed early: while a handler is pending or running, or a pointer to it exists, or the pool has it, it exists. -/
theorem C79_alive_partial {as : List OmAct} {s : Om} {es : List OmEv} (hr : Om.GoodRun true Om.proper Om.init as s es) (h : 0 < s.pending ∨ 0 < s.user ∨ s.pooled = true) : s.alive = true := by
  obtain ⟨h1, h2, _, _⟩ := (Om.run_inv Om.init_inv hr).1
  cases ha : s.alive with
  | true => rfl
  | false =>
    obtain ⟨a1, a2, a3, a4⟩ := h1 ha
    simp only [Om.pooled] at h
    simp [a1, a2, a3, a4] at h h2
    omega

/-- A socket that is started at most once between resets is down when it is obsoleted. -/
theorem Om.once_step {s s' : Om} {a : OmAct} {fs : List OmEv} (hi : s.up = true → s.obsoleted = false ∧ s.dc = .none ∧ s.fin = 0) (hp : s.once a = true) (hs : s.step true a = some (s', fs)) :
    (s'.up = true → s'.obsoleted = false ∧ s'.dc = .none ∧ s'.fin = 0) ∧ ∀ n k u, OmEv.reused n k u ∈ fs → u = false := by
  obtain ⟨alive, valid, invalid, moving, user, chk, up, calls, dc, fin, tail, obsoleted, calling, stopped⟩ := s
  simp only at hi
  cases a <;> simp only [Om.step, Om.once, Om.pooled, Om.pending, Om.isObsoleted, Om.reachable, Om.settle, Om.touch, Om.joined] at hs hp <;>
    (repeat' split at hs) <;> (try cases hs) <;> (refine ⟨?_, ?_⟩) <;> grind

/-- **C79** (clean): a socket that is started only after construction or reset (server sockets, clients that do not reconnect) is not started when it is given out for a new connection. -/
theorem C79_clean_partial {as : List OmAct} {s : Om} {es : List OmEv} (hr : Om.GoodRun true Om.once Om.init as s es) {n k : Nat} {u : Bool} (hm : OmEv.reused n k u ∈ es) : u = false := by
  have key : (s.up = true → s.obsoleted = false ∧ s.dc = .none ∧ s.fin = 0) ∧ ∀ n k u, OmEv.reused n k u ∈ es → u = false := by
    clear hm
    induction hr with
    | nil => exact ⟨by simp [Om.init], by simp⟩
    | snoc s1 s2 as a es es' _ hp hs ih =>
      obtain ⟨j1, j2⟩ := Om.once_step ih.1 hp hs
      exact ⟨j1, fun n k u hm => (List.mem_append.1 hm).elim (ih.2 n k u) (j2 n k u)⟩
  exact key.2 n k u hm

/-- Whatever is needed for a closed socket to be freed. -/
structure Om.Going (s : Om) : Prop where
  alive : s.alive = true
  user : s.user = 0
  up : s.up = false
  valid : s.valid = false
  stopped : s.stopped = false
  held : s.invalid = true ∨ 0 < s.moving
  look : s.chk = true → s.invalid = true ∧ s.moving = 0
  due : s.obsoleted = true ∨ s.dc ≠ .none ∨ 0 < s.fin

/-- How many steps are left until a closed socket is freed. -/
def Om.left (s : Om) : Nat := s.calls + (match s.dc with | .none => 0 | .armed => 4 | .closing => 3) + 2 * s.fin + s.tail + s.moving + (if s.chk then 0 else 1)

/-- Steps of the library itself. -/
def OmAct.own : OmAct → Bool
  | .run => true
  | .dcRun => true
  | .dcCancel => true
  | .dcEnd => true
  | .tailEnd => true
  | .bury => true
  | .popCheck => true
  | .popFree => true
  | _ => false

theorem Om.going_step {s : Om} (h : s.Going) : ∃ a s' fs, a.own = true ∧ s.proper a = true ∧ s.step true a = some (s', fs) ∧ (fs = [.freed 0] ∨ (s'.Going ∧ s'.left < s.left)) := by
  obtain ⟨h1, h2, h3, h4, h5, h6, h7, h8⟩ := h
  obtain ⟨alive, valid, invalid, moving, user, chk, up, calls, dc, fin, tail, obsoleted, calling, stopped⟩ := s
  simp only at h1 h2 h3 h4 h5 h6 h7 h8
  subst h1 h2 h3 h4 h5
  by_cases c1 : 0 < calls
  · exact ⟨.run, _, _, rfl, rfl, by simp [Om.step, c1]; exact ⟨rfl, rfl⟩, .inr ⟨⟨rfl, rfl, rfl, rfl, rfl, h6, h7, h8⟩, by simp only [Om.left]; omega⟩⟩
  obtain rfl : calls = 0 := by omega
  by_cases c2 : dc = .closing
  · subst c2
    exact ⟨.dcCancel, _, _, rfl, rfl, by simp only [Om.step, if_pos]; rfl, .inr ⟨⟨rfl, rfl, rfl, rfl, rfl, h6, h7, .inr (.inr (Nat.succ_pos _))⟩, by simp only [Om.left]; omega⟩⟩
  by_cases c3 : 0 < fin
  · exact ⟨.dcEnd, _, _, rfl, rfl, by simp [Om.step, c3]; exact ⟨rfl, rfl⟩, .inr ⟨⟨rfl, rfl, rfl, rfl, rfl, h6, h7, .inl rfl⟩, by simp only [Om.left]; omega⟩⟩
  obtain rfl : fin = 0 := by omega
  by_cases c4 : 0 < tail
  · exact ⟨.tailEnd, _, _, rfl, rfl, by simp [Om.step, c4]; exact ⟨rfl, rfl⟩, .inr ⟨⟨rfl, rfl, rfl, rfl, rfl, h6, h7, h8⟩, by simp only [Om.left]; omega⟩⟩
  obtain rfl : tail = 0 := by omega
  by_cases c5 : dc = .armed
  · subst c5
    exact ⟨.dcRun, _, _, rfl, rfl, by simp [Om.step]; exact ⟨rfl, rfl⟩, .inr ⟨⟨rfl, rfl, rfl, rfl, rfl, h6, h7, .inr (.inl (by simp))⟩, by simp only [Om.left]; omega⟩⟩
  obtain rfl : dc = .none := by cases dc <;> simp_all
  obtain rfl : obsoleted = true := by simpa using h8
  by_cases c6 : 0 < moving
  · obtain rfl : chk = false := by cases chk <;> simp_all
    exact ⟨.bury, _, _, rfl, rfl, by simp [Om.step, c6]; exact ⟨rfl, rfl⟩, .inr ⟨⟨rfl, rfl, rfl, rfl, rfl, .inl rfl, by simp, h8⟩, by simp only [Om.left]; omega⟩⟩
  obtain rfl : moving = 0 := by omega
  obtain rfl : invalid = true := by simpa using h6
  cases chk with
  | false => exact ⟨.popCheck, _, _, rfl, rfl, by simp [Om.step]; exact ⟨rfl, rfl⟩, .inr ⟨⟨rfl, rfl, rfl, rfl, rfl, .inl rfl, by simp, h8⟩, by simp [Om.left]⟩⟩
  | true => exact ⟨.popFree, _, _, rfl, rfl, rfl, .inl rfl⟩

theorem Om.going_freed (m : Nat) : ∀ {s : Om}, s.Going → s.left < m → ∃ bs s' fs, Om.GoodRun true Om.proper s bs s' fs ∧ (∀ b ∈ bs, b.own = true) ∧ OmEv.freed 0 ∈ fs := by
  induction m with
  | zero => intro s _ h; omega
  | succ m ih =>
    intro s hg hm
    obtain ⟨a, s1, fs, ho, hp, hs, hd⟩ := Om.going_step hg
    have h1 : Om.GoodRun true Om.proper s [a] s1 fs := .snoc s s s1 [] a [] fs (.nil s) hp hs
    rcases hd with rfl | ⟨hg', hl⟩
    · exact ⟨[a], s1, _, h1, by simpa using ho, by simp⟩
    · obtain ⟨bs, s2, gs, h2, h3, h4⟩ := ih hg' (by omega)
      refine ⟨[a] ++ bs, s2, fs ++ gs, Om.GoodRun.trans h1 h2, ?_, by simp [h4]⟩
      intro b hb
      rcases List.mem_append.1 hb with hb | hb
      · simp at hb; rw [hb]; exact ho
      · exact h3 b hb

/-- A socket that was started since it was given out is started, or closing, or closed. -/
theorem Om.used_step {tracked : Bool} {s s' : Om} {a : OmAct} {fs : List OmEv} {b : Bool} (hi : b = true → s.up = true ∨ s.obsoleted = true ∨ s.dc ≠ .none ∨ 0 < s.fin) (hs : s.step tracked a = some (s', fs)) :
    OmEv.usedFrom b fs = true → s'.up = true ∨ s'.obsoleted = true ∨ s'.dc ≠ .none ∨ 0 < s'.fin := by
  obtain ⟨alive, valid, invalid, moving, user, chk, up, calls, dc, fin, tail, obsoleted, calling, stopped⟩ := s
  simp only at hi
  cases a <;> simp only [Om.step, Om.pooled, Om.pending, Om.reachable, Om.settle, Om.touch, Om.joined] at hs <;>
    (repeat' split at hs) <;> (try cases hs) <;> (try split) <;> simp only [OmEv.usedFrom, List.foldl] <;> grind

theorem OmEv.usedFrom_append (b : Bool) (es fs : List OmEv) : OmEv.usedFrom b (es ++ fs) = OmEv.usedFrom (OmEv.usedFrom b es) fs := by
  simp [OmEv.usedFrom]

/-- **C79** (freed): a socket that was in use, was closed and was removed from the pool, and to which nobody holds a pointer any more, can be freed by the library alone: its pending handlers run, the closing timer calls
on_close, and the next free_object destroys it. -/
theorem C79_freed_partial {as : List OmAct} {s : Om} {es : List OmEv} (hr : Om.GoodRun true Om.proper Om.init as s es) (hu : OmEv.usedFrom false es = true) (hup : s.up = false) (hv : s.valid = false) (h0 : s.user = 0)
    (hp : s.pooled = true) (hst : s.stopped = false) : ∃ bs s' fs, Om.GoodRun true Om.proper s bs s' fs ∧ (∀ b ∈ bs, b.own = true) ∧ OmEv.freed 0 ∈ fs := by
  have hi := (Om.run_inv Om.init_inv hr).1
  have key : OmEv.usedFrom false es = true → s.up = true ∨ s.obsoleted = true ∨ s.dc ≠ .none ∨ 0 < s.fin := by
    clear hi hst hp h0 hv hup hu
    induction hr with
    | nil => simp [OmEv.usedFrom]
    | snoc s1 s2 as a es es' _ hp hs ih =>
      rw [OmEv.usedFrom_append]
      exact Om.used_step ih hs
  have ha : s.alive = true := C79_alive_partial hr (.inr (.inr hp))
  refine Om.going_freed (s.left + 1) ⟨ha, h0, hup, hv, hst, ?_, fun hc => ⟨(hi.look hc).1, (hi.look hc).2.1⟩, ?_⟩ (by omega)
  · simpa [Om.pooled, hv] using hp
  · simpa [hup] using key hu

/-- A socket that is not in use. -/
def Om.idle (s : Om) : Prop := s.alive = true ∧ s.invalid = true ∧ s.up = false ∧ s.obsoleted = false ∧ s.dc = .none ∧ s.fin = 0

theorem Om.idle_step {tracked : Bool} {s s' : Om} {a : OmAct} {fs : List OmEv} (h : s.idle) (ha : a ≠ .freePool) (hb : ∀ k, a ≠ .start true k) (hs : s.step tracked a = some (s', fs)) : s'.idle ∧ ∀ n, OmEv.freed n ∉ fs := by
  obtain ⟨alive, valid, invalid, moving, user, chk, up, calls, dc, fin, tail, obsoleted, calling, stopped⟩ := s
  simp only [Om.idle] at h
  obtain ⟨rfl, rfl, rfl, rfl, rfl, rfl⟩ := h
  cases a <;> simp only [Om.step, Om.pooled, Om.isObsoleted, Om.reachable, Om.settle, Om.touch, Om.joined] at hs <;>
    (repeat' split at hs) <;> (try cases hs) <;> (refine ⟨?_, ?_⟩) <;> grind [Om.idle]

theorem Om.idle_run {tracked : Bool} {s s' : Om} {bs : List OmAct} {fs : List OmEv} (h : s.idle) (hr : Om.Run tracked s bs s' fs) (hb : ∀ b ∈ bs, b ≠ .freePool ∧ ∀ k, b ≠ .start true k) : s'.idle ∧ ∀ n, OmEv.freed n ∉ fs := by
  induction hr with
  | nil => exact ⟨h, by simp⟩
  | snoc s1 s2 as a es es' _ hs ih =>
    obtain ⟨i2, i3⟩ := ih (fun b hm => hb b (List.mem_append_left _ hm))
    obtain ⟨h1, h2⟩ := hb a (by simp)
    obtain ⟨j1, j2⟩ := Om.idle_step i2 h1 h2 hs
    exact ⟨j1, fun n hm => (List.mem_append.1 hm).elim (i3 n) (j2 n)⟩

/-- C79 (freed) is false for a socket that was never started (say a UDP socket that cannot be bound: start() fails) and is removed from the pool: it is never declared obsoleted, so however often free_object is called, it is
freed only with the pool. -/
theorem C79_fails_never_started : ∃ as s es, Om.GoodRun true Om.proper Om.init as s es ∧ s.pooled = true ∧ s.valid = false ∧ s.user = 0 ∧ s.pending = 0 ∧ s.stopped = false ∧
    ∀ bs s' fs, Om.Run true s bs s' fs → (∀ b ∈ bs, b ≠ .freePool ∧ ∀ k, b ≠ .start true k) → s'.alive = true ∧ ∀ n, OmEv.freed n ∉ fs := by
  have h : Om.GoodRun true Om.proper Om.init [.add, .start false 0, .del, .bury, .drop] _ _ := Om.goodExec_run rfl
  exact ⟨_, _, _, h, by decide, by decide, by decide, by decide, by decide, fun bs s' fs hr hb => have k := Om.idle_run ⟨rfl, rfl, rfl, rfl, rfl, rfl⟩ hr hb; ⟨k.1.1, k.2⟩⟩

/-- One socket: started with two asynchronous calls, closed, its handlers run; on_close removes it from the pool (tcp/server_socket.h:71); it is given out again, used, closed and freed. Between, free_object looked at it in vain. -/
def omDemo : List OmAct := [.add, .drop, .start true 2, .run, .begin, .close, .dcRun, .run, .run, .dcRun, .take, .del, .bury, .drop, .popCheck, .popFail, .dcCancel, .dcEnd, .tailEnd,
  .popCheck, .popReuse, .add, .start true 1, .drop, .del, .bury, .close, .run, .dcRun, .dcCancel, .dcEnd, .tailEnd, .popCheck, .popFree]

/-- The hypotheses of C79_safe_partial, C79_clean_partial are met by a run with everything in it. -/
theorem C79_demo : ∃ s es, Om.GoodRun true (fun s a => s.proper a && s.once a) Om.init omDemo s es ∧ s.alive = false ∧
    es = [.started, .ran, .ran, .ran, .ran, .ran, .onClose, .ran, .ran, .ran, .reused 0 0 false, .started, .ran, .ran, .onClose, .ran, .ran, .ran, .freed 0] := by
  have h : Om.GoodRun true (fun s a => s.proper a && s.once a) Om.init omDemo _ _ := Om.goodExec_run rfl
  exact ⟨_, _, h, by decide, by decide⟩

/-- A socket closed after the service stopped: on_close is called at once. -/
theorem C79_demo_stopped : ∃ s es, Om.GoodRun true (fun s a => s.proper a && s.once a) Om.init [.add, .drop, .start true 1, .run, .stop, .close] s es ∧ es = [.started, .ran, .onClose] ∧ s.isObsoleted true = true ∧ s.up = false := by
  have h : Om.GoodRun true (fun s a => s.proper a && s.once a) Om.init [.add, .drop, .start true 1, .run, .stop, .close] _ _ := Om.goodExec_run rfl
  exact ⟨_, _, h, by decide, by decide, by decide⟩

theorem C79_unique_demo : ∃ s es, Om.GoodRun true Om.properTake Om.init omDemo s es ∧ s.alive = false := by
  have h : Om.GoodRun true Om.properTake Om.init omDemo _ _ := Om.goodExec_run rfl
  exact ⟨_, _, h, by decide⟩

/-- C79 is false with ST_ASIO_DELAY_CLOSE > 0, when only a flag tells whether the socket is still in use: a handler still pending when the closing timer is done runs on freed memory. -/
theorem C79_fails_delay_close : ∃ as s es, Om.GoodRun false (fun s a => s.proper a && s.once a) Om.init as s es ∧ es = [.started, .ran, .onClose, .ran, .ran, .ran, .freed 1, .wild] := by
  have h : Om.GoodRun false (fun s a => s.proper a && s.once a) Om.init [.add, .drop, .start true 1, .close, .dcRun, .del, .bury, .dcCancel, .dcEnd, .tailEnd, .popCheck, .popFree, .run] _ _ := Om.goodExec_run rfl
  exact ⟨_, _, _, h, by decide⟩

/-- Even if nothing else is pending: the closing timer's own handler goes on behind `obsoleted_ = true` (timer.h:193-194) while another thread frees the socket. -/
theorem C79_fails_tail : ∃ as s es, Om.GoodRun false (fun s a => s.proper a && s.once a) Om.init as s es ∧ es = [.started, .ran, .ran, .onClose, .ran, .ran, .freed 1, .wild] := by
  have h : Om.GoodRun false (fun s a => s.proper a && s.once a) Om.init [.add, .drop, .start true 1, .close, .run, .dcRun, .del, .bury, .dcCancel, .dcEnd, .popCheck, .popFree, .tailEnd] _ _ := Om.goodExec_run rfl
  exact ⟨_, _, _, h, by decide⟩

/-- And a handler of the old connection runs on the socket of a new one. -/
theorem C79_fails_delay_reuse : ∃ as s es, Om.GoodRun false (fun s a => s.proper a && s.once a) Om.init as s es ∧ es = [.started, .ran, .onClose, .ran, .ran, .ran, .reused 1 0 false, .started, .ran] := by
  have h : Om.GoodRun false (fun s a => s.proper a && s.once a) Om.init [.add, .drop, .start true 1, .close, .dcRun, .del, .bury, .dcCancel, .dcEnd, .tailEnd, .popCheck, .popReuse, .add, .start true 0, .run] _ _ := Om.goodExec_run rfl
  exact ⟨_, _, _, h, by decide⟩

/-- C79 is false with service_pump::stop(): the handlers left in the io_context survive, finalize() destroys the socket, and the next start_service() runs them. -/
theorem C79_fails_stop : ∃ as s es, Om.GoodRun true (fun s a => a == .stop || s.proper a) Om.init as s es ∧ es = [.started, .freed 1, .wild] := by
  have h : Om.GoodRun true (fun s a => a == .stop || s.proper a) Om.init [.add, .drop, .start true 1, .stop, .finalize, .startPump, .run] _ _ := Om.goodExec_run rfl
  exact ⟨_, _, _, h, by decide⟩

/-- C79 is false if a socket is used after the io_contexts ran out of work, say by a broadcast during stop_service(): what it begins is run by the next start_service(), when the socket is gone. -/
theorem C79_fails_stopped_use : ∃ as s es, Om.GoodRun true (fun s a => (a == .begin && s.pooled) || s.proper a) Om.init as s es ∧ es = [.started, .ran, .freed 1, .wild] := by
  have h : Om.GoodRun true (fun s a => (a == .begin && s.pooled) || s.proper a) Om.init [.add, .drop, .start true 1, .run, .stop, .begin, .finalize, .startPump, .run] _ _ := Om.goodExec_run rfl
  exact ⟨_, _, _, h, by decide⟩

/-- C79 is false for sockets outside of the pool: a timer set in on_create, then add_socket refuses the socket (or the accept fails) and it is dropped. -/
theorem C79_fails_outside : ∃ as s es, Om.GoodRun true (fun s a => (a == .begin && !s.stopped) || s.proper a) Om.init as s es ∧ es = [.freed 1, .wild] := by
  have h : Om.GoodRun true (fun s a => (a == .begin && !s.stopped) || s.proper a) Om.init [.begin, .drop, .run] _ _ := Om.goodExec_run rfl
  exact ⟨_, _, _, h, by decide⟩

/-- C79 is false if a call back keeps a pointer got by shared_from_this() between the test of unique() and that of obsoleted() in another thread: the socket is given out again although that pointer exists. -/
theorem C79_fails_new_pointer : ∃ as s es, Om.GoodRun true (fun s a => a == .popReuse || s.proper a) Om.init as s es ∧ es = [.started, .ran, .onClose, .ran, .ran, .ran, .reused 0 1 false] := by
  have h : Om.GoodRun true (fun s a => a == .popReuse || s.proper a) Om.init [.add, .drop, .start true 0, .close, .del, .bury, .dcRun, .popCheck, .take, .dcCancel, .dcEnd, .tailEnd, .popReuse] _ _ := Om.goodExec_run rfl
  exact ⟨_, _, _, h, by decide⟩

/-- C79 (clean) is false for sockets started again without reset(): start() does not clear `obsoleted_`, so a started socket without pending asynchronous calls (passive receiving) is swept out of the pool and given out again. -/
theorem C79_fails_reuse_up : ∃ as s es, Om.GoodRun true Om.proper Om.init as s es ∧ es = [.started, .ran, .onClose, .ran, .started, .ran, .ran, .reused 0 0 true] := by
  have h : Om.GoodRun true Om.proper Om.init [.add, .drop, .start true 0, .close, .dcRun, .dcCancel, .start true 0, .dcEnd, .tailEnd, .sweep, .bury, .popCheck, .popReuse] _ _ := Om.goodExec_run rfl
  exact ⟨_, _, _, h, by decide⟩

end StAsio
