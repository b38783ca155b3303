import Verif.Model.Accept

/-!
# C47: the accept loop
-/

set_option autoImplicit false

namespace StAsio

theorem outstanding_append (es fs : List AccEv) : outstanding (es ++ fs) = outstanding es + outstanding fs := by
  induction es with
  | nil => simp [outstanding]
  | cons e es ih => cases e <;> simp only [List.cons_append, outstanding, ih] <;> omega

theorem outstanding_replicate (k : Nat) : outstanding (List.replicate k (.issue true)) = k := by
  induction k with
  | zero => rfl
  | succ k ih => simp only [List.replicate_succ, outstanding, ih]; omega

theorem issues_append (es fs : List AccEv) : issues (es ++ fs) = issues es + issues fs := by
  induction es with
  | nil => simp [issues]
  | cons e es ih => cases e <;> simp only [List.cons_append, issues, ih] <;> omega

theorem inPool_append (es fs : List AccEv) : inPool (es ++ fs) = inPool es + inPool fs := by
  induction es with
  | nil => simp [inPool]
  | cons e es ih => cases e <;> simp only [List.cons_append, inPool, ih] <;> omega

theorem inPool_replicate (k : Nat) : inPool (List.replicate k (.issue true)) = 0 := by
  induction k with
  | zero => rfl
  | succ k ih => simp only [List.replicate_succ, inPool, ih]

theorem Acc.run_trans {num max : Nat} {s s1 s2 : Acc} {as bs : List AccAct} {es fs : List AccEv} (h1 : Acc.Run num max s as es s1) (h2 : Acc.Run num max s1 bs fs s2) : Acc.Run num max s (as ++ bs) (es ++ fs) s2 := by
  induction h2 with
  | nil => simpa using h1
  | snoc t1 t2 bs b fs gs _ hs ih =>
    rw [← List.append_assoc, ← List.append_assoc]
    exact .snoc _ _ _ _ _ _ _ ih hs

theorem Acc.exec_run {num max : Nat} {as : List AccAct} : ∀ {s s' : Acc} {es : List AccEv}, Acc.exec num max s as = some (es, s') → Acc.Run num max s as es s' := by
  induction as with
  | nil => intro s s' es h; simp only [Acc.exec, Option.some.injEq, Prod.mk.injEq] at h; obtain ⟨rfl, rfl⟩ := h; exact .nil _
  | cons a as ih =>
    intro s s' es h
    simp only [Acc.exec] at h
    cases hs : s.step num max a with
    | none => rw [hs] at h; cases h
    | some r =>
      rw [hs] at h
      simp only [Option.bind_some] at h
      cases hq : Acc.exec num max r.2 as with
      | none => rw [hq] at h; cases h
      | some q =>
        rw [hq] at h
        simp only [Option.map_some, Option.some.injEq, Prod.mk.injEq] at h
        obtain ⟨rfl, rfl⟩ := h
        have h1 : Acc.Run num max s ([] ++ [a]) ([] ++ r.1) r.2 := .snoc _ _ _ _ _ _ _ (.nil _) hs
        exact Acc.run_trans (as := [a]) (es := r.1) h1 (ih hq)

/-- Accounting, in every state: outstanding accepts are under way or have completed. -/
structure AccInv (s : Acc) (es : List AccEv) : Prop where
  out : outstanding es = s.waiting + s.succ + s.failed + s.aborted
  pool : inPool es = s.size
  closed : s.isOpen = false → s.waiting = 0

theorem AccInv.step {num max : Nat} {s s' : Acc} {es fs : List AccEv} {a : AccAct} (h : AccInv s es) (hs : s.step num max a = some (fs, s')) : AccInv s' (es ++ fs) := by
  obtain ⟨h1, h2, h3⟩ := h
  constructor <;> (first | rw [outstanding_append, h1] | rw [inPool_append, h2] | skip) <;>
  cases a <;> simp only [Acc.step, Acc.startListen, Acc.stop, Acc.accept] at hs <;> (repeat' split at hs) <;>
    first
      | (cases hs; done)
      | (simp only [Option.some.injEq, Prod.mk.injEq] at hs; obtain ⟨rfl, rfl⟩ := hs; first | (simp only [outstanding, outstanding_replicate] ; (try simp only); grind) | (simp only [inPool, inPool_replicate]; grind) | grind)

theorem Acc.inv_run (num max : Nat) (as : List AccAct) (es : List AccEv) (s : Acc) (h : Acc.Run num max Acc.init as es s) : AccInv s es := by
  generalize h0 : Acc.init = s0 at h
  induction h with
  | nil => subst h0; exact ⟨rfl, rfl, fun _ => rfl⟩
  | snoc s1 s2 as a es fs _ hs ih => exact ih.step hs

/-- The accepts that should exist. -/
structure AccKept (num : Nat) (s : Acc) : Prop where
  kept : s.listening = true → s.waiting + s.succ + s.failed + s.going + s.owed = (if num = 0 then 16 else num) ∧ s.aborted = 0 ∧ s.isOpen = true

theorem AccKept.step {num max : Nat} {s s' : Acc} {fs : List AccEv} {a : AccAct} (h : AccKept num s) (ha : a.smooth = true) (hs : s.step num max a = some (fs, s')) : AccKept num s' := by
  obtain ⟨h⟩ := h
  constructor
  generalize hn : (if num = 0 then 16 else num) = n at *
  cases a <;> simp only [AccAct.smooth, Bool.false_eq_true] at ha <;> simp only [Acc.step, Acc.startListen, Acc.stop, Acc.accept, hn] at hs <;> (repeat' split at hs) <;>
    first
      | (cases hs; done)
      | (simp only [Option.some.injEq, Prod.mk.injEq] at hs; obtain ⟨rfl, rfl⟩ := hs; grind)

/-- C47, partially (sockets can be created, listen succeeds, and listening starts only when nothing of an earlier listening is left): while the server is listening, the accepts outstanding, the handlers on their way to issue the next one and the failures whose next accept the user has postponed are together exactly the configured number. -/
theorem C47_kept_partial (num max : Nat) (as : List AccAct) (es : List AccEv) (s : Acc) (h : Acc.Run num max Acc.init as es s) (ha : ∀ a ∈ as, a.smooth = true)
    (hl : s.listening = true) : outstanding es + s.going + s.owed = (if num = 0 then 16 else num : Nat) ∧ s.isOpen = true := by
  have inv := Acc.inv_run num max as es s h
  have kept : AccKept num s := by
    clear hl inv
    generalize h0 : Acc.init = s0 at h
    induction h with
    | nil => subst h0; exact ⟨fun hx => by cases hx⟩
    | snoc s1 s2 as a es fs _ hs ih => exact (ih (fun b hb => ha b (by simp [hb]))).step (ha a (by simp)) hs
  obtain ⟨k1, k2, k3⟩ := kept.kept hl
  have := inv.out
  exact ⟨by omega, k3⟩

/-- C47: the handler of a successful accept goes on to exactly one new accept if the server is listening, to none otherwise; that of a failed accept does so exactly when on_accept_error returns true. -/
theorem C47_one_for_one (num max : Nat) (s s' : Acc) (es : List AccEv) :
    (∀ oa io, s.step num max (.handleOk oa io) = some (es, s') → s'.going = s.going + (if s.listening then 1 else 0) ∧ issues es = 0) ∧
    (∀ ab ans, s.step num max (.handleErr ab ans) = some (es, s') → s'.going = s.going + (if ans = .go then 1 else 0) ∧ issues es = 0) ∧
    (s.step num max .next = some (es, s') → s'.going + 1 = s.going ∧ issues es = 1) := by
  refine ⟨?_, ?_, ?_⟩
  · intro oa io hs
    simp only [Acc.step] at hs
    repeat' split at hs
    all_goals first
      | (cases hs; done)
      | (simp only [Option.some.injEq, Prod.mk.injEq] at hs; obtain ⟨rfl, rfl⟩ := hs; simp_all [issues])
  · intro ab ans hs
    simp only [Acc.step, Acc.stop] at hs
    repeat' split at hs
    all_goals first
      | (cases hs; done)
      | (simp only [Option.some.injEq, Prod.mk.injEq] at hs; obtain ⟨rfl, rfl⟩ := hs; simp [issues]; try (split <;> rfl))
  · intro hs
    simp only [Acc.step, Acc.accept] at hs
    split at hs
    · simp only [Option.some.injEq, Prod.mk.injEq] at hs
      obtain ⟨rfl, rfl⟩ := hs
      simp only [issues]
      constructor
      · split <;> simp only [] <;> omega
      · trivial
    · cases hs

/-- C47: an accepted socket gets into the pool only while the pool has fewer than max_size sockets, so it never has more; a socket beyond that is refused. -/
theorem C47_limit (num max : Nat) (as : List AccAct) (es : List AccEv) (s : Acc) (h : Acc.Run num max Acc.init as es s) : 0 ≤ inPool es ∧ inPool es ≤ max := by
  have inv := Acc.inv_run num max as es s h
  rw [inv.pool]
  refine ⟨by omega, ?_⟩
  have : s.size ≤ max := by
    clear inv
    generalize h0 : Acc.init = s0 at h
    induction h with
    | nil => subst h0; exact Nat.zero_le _
    | snoc s1 s2 as a es fs _ hs ih =>
      cases a <;> simp only [Acc.step, Acc.startListen, Acc.stop, Acc.accept] at hs <;> (repeat' split at hs) <;>
        first
          | (cases hs; done)
          | (simp only [Option.some.injEq, Prod.mk.injEq] at hs; obtain ⟨rfl, rfl⟩ := hs; grind)
  omega

theorem C47_refused (num max : Nat) (s : Acc) (idOk : Bool) (h : 0 < s.succ) (hf : max ≤ s.size) : ∃ s', s.step num max (.handleOk true idOk) = some ([.got, .refused], s') ∧ s'.size = s.size := by
  simp only [Acc.step, if_pos h]
  rw [if_neg (by simp), if_neg (by omega)]
  exact ⟨_, rfl, rfl⟩

/-- C47, after stop_listen: until the next start_listen no client is accepted whose connection had not been accepted before (nothing is under way), and unless the user or on_accept_error asks for more, at most as many accepts are issued as handlers were past their check of is_listening; these are issued on the closed acceptor and fail at once. -/
theorem C47_stopped (num max : Nat) (s s' : Acc) (as : List AccAct) (es : List AccEv) (hl : s.listening = false) (ho : s.isOpen = false) (hw : s.waiting = 0)
    (h : Acc.Run num max s as es s') (ha : ∀ a ∈ as, a.idle = true) :
    s'.listening = false ∧ s'.isOpen = false ∧ s'.waiting = 0 ∧ s'.succ ≤ s.succ ∧ issues es + s'.going = s.going - (as.count .nextFails) ∧ .issue true ∉ es := by
  have key : s'.listening = false ∧ s'.isOpen = false ∧ s'.waiting = 0 ∧ s'.succ ≤ s.succ ∧ issues es + s'.going + as.count .nextFails = s.going ∧ .issue true ∉ es := by
    induction h with
    | nil => simp [hl, ho, hw, issues]
    | snoc s1 s2 as a es fs _ hs ih =>
      obtain ⟨i1, i2, i3, i4, i5, i6⟩ := ih (fun b hb => ha b (by simp [hb]))
      have hb := ha a (by simp)
      rw [issues_append, List.count_append]
      cases a <;> simp only [AccAct.idle, Bool.false_eq_true] at hb <;> simp only [Acc.step, Acc.stop, Acc.accept] at hs <;> (repeat' split at hs) <;>
        first
          | (cases hs; done)
          | (simp only [Option.some.injEq, Prod.mk.injEq] at hs; obtain ⟨rfl, rfl⟩ := hs; simp only [List.mem_append, issues]; (try simp); grind)
          | (exfalso; grind)
  obtain ⟨k1, k2, k3, k4, k5, k6⟩ := key
  exact ⟨k1, k2, k3, k4, by omega, k6⟩

/-- stop_listen leads to such a state. -/
theorem C47_stop_closes (num max : Nat) (s s' : Acc) (es : List AccEv) (h : s.step num max .stopListen = some (es, s')) : s'.listening = false ∧ s'.isOpen = false ∧ s'.waiting = 0 := by
  simp only [Acc.step, Acc.stop, Option.some.injEq, Prod.mk.injEq] at h
  obtain ⟨rfl, rfl⟩ := h
  exact ⟨rfl, rfl, rfl⟩

/-- Three accepts, two clients, the pool takes one; on_accept_error ignores one failure; at the end three accepts are outstanding. -/
example : ∃ as es s, Acc.Run 3 1 Acc.init as es s ∧ (∀ a ∈ as, a.smooth = true) ∧ s.listening = true ∧ .added ∈ es ∧ .refused ∈ es ∧ outstanding es = 3 ∧ issues es = 6 :=
  ⟨[.startListenQuiet true, .connect, .connect, .handleOk true true, .handleOk true true, .next, .next, .fail, .handleErr false .go, .next], _, _, Acc.exec_run rfl,
    by decide, by decide, by decide, by decide, by decide, by decide⟩

/-- C47 fails if listening is restarted while a handler of the earlier listening is left: one more accept than configured is outstanding. -/
theorem C47_fails_restart : ∃ as es s, Acc.Run 3 9 Acc.init as es s ∧ s.listening = true ∧ s.going = 0 ∧ outstanding es = 4 ∧ ∀ a ∈ as, a ≠ .fail ∧ a ≠ .nextFails ∧ ∀ b l c, a = .startListen b l c → b = true ∧ l = true ∧ c = 3 :=
  ⟨[.startListen true true 3, .connect, .stopListen, .handleErr true .default, .handleErr true .default, .startListen true true 3, .handleOk true true, .next], _, _, Acc.exec_run rfl,
    by decide, by decide, by decide, by
      intro a ha
      simp only [List.mem_cons, List.not_mem_nil, or_false] at ha
      rcases ha with rfl | rfl | rfl | rfl | rfl | rfl | rfl | rfl <;> (refine ⟨by decide, by decide, ?_⟩; intro b l c e; cases e) <;> exact ⟨rfl, rfl, rfl⟩⟩

/-- C47 fails if create_object once returns null: the server listens with one accept fewer, and with none in the end. -/
theorem C47_fails_create : ∃ as es s, Acc.Run 1 9 Acc.init as es s ∧ s.listening = true ∧ s.going = 0 ∧ outstanding es = 0 :=
  ⟨[.startListenQuiet true, .connect, .handleOk true true, .nextFails], _, _, Acc.exec_run rfl, by decide, by decide, by decide⟩

/-- C47 fails if listen fails (for example because another socket listens on the port): is_listening stays true without any accept, and start_listen does nothing any more. -/
theorem C47_fails_listen : ∃ as es s, Acc.Run 3 9 Acc.init as es s ∧ as = [.startListen true false 3] ∧ s.listening = true ∧ es = [] ∧ ∀ b l c, s.step 3 9 (.startListen b l c) = some ([], s) :=
  ⟨_, _, _, Acc.exec_run (as := [.startListen true false 3]) rfl, rfl, by decide, by decide, fun b l c => rfl⟩

/-- C47 fails: an accept is issued after stop_listen, by a handler that had checked is_listening before. -/
theorem C47_fails_after_stop : ∃ as es s, Acc.Run 1 9 Acc.init as es s ∧ (∀ a ∈ as, a.smooth = true) ∧ ∃ es1 es2, es = es1 ++ .stop :: es2 ∧ .issue false ∈ es2 ∧ .listen ∉ es2 :=
  ⟨[.startListenQuiet true, .connect, .handleOk true true, .stopListen, .next], _, _, Acc.exec_run rfl, by decide, ⟨[.listen, .issue true, .got, .added], [.issue false], rfl, by decide, by decide⟩⟩

end StAsio
