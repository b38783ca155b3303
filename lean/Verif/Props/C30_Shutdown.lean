import Verif.Lemmas.Shutdown
/-!
C30: link status and bounded graceful shutdown (include/tcp/socket.h). `N` is ST_ASIO_GRACEFUL_SHUTDOWN_MAX_DURATION * 100, which is positive (config.h:1185).

`.lateConnected` is a connect that completes successfully although the client was shut down meanwhile; C30_fails_late_connect shows what it does.
-/
set_option autoImplicit false
namespace StAsio

/-- **C30** (moves): in every reachable state of a server or client socket every step moves the link status along connected -> (graceful ->) force -> broken -> connected, or leaves it. -/
theorem C30_moves_partial {client : Bool} {N : Nat} (hN : 1 ≤ N) (hN' : N < 2 ^ 64) {s s' : Lnk} {as : List LkAct} {a : LkAct} (hr : Lnk.Run client N Lnk.init as s)
    (ha : ∀ b ∈ as ++ [a], b ≠ .lateConnected) (hs : s.step client N a = some s') : s.status.Moves s'.status :=
  (Lnk.step_inv hN hN' (Lnk.run_inv hN hN' (Lnk.init_inv client N) (fun b hb => ha b (by simp [hb])) hr) (ha a (by simp)) hs).2

/-- **C30** (bounded): after a graceful shutdown began, at most `N` timer ticks pass while the link is gracefully shutting down, and when the N-th one passed a forced shutdown has been requested. -/
theorem C30_bounded {client : Bool} {N : Nat} (hN : 1 ≤ N) (hN' : N < 2 ^ 64) {s s1 s2 : Lnk} {as bs : List LkAct} (hr : Lnk.Run client N Lnk.init as s) (ha : ∀ a ∈ as, a ≠ .lateConnected)
    (hc : s.status = .connected) (hg : s.step client N (.runGraceful false) = some s1) (hr' : Lnk.Run client N s1 bs s2) (hb : ∀ b ∈ bs, b ≠ .lateConnected)
    (hall : ∀ bs1 bs2 t, bs = bs1 ++ bs2 → Lnk.Run client N s1 bs1 t → t.status = .gracefulDown) : ticks bs ≤ N ∧ (ticks bs = N → 0 < s2.force) := by
  have hi := Lnk.run_inv hN hN' (Lnk.init_inv client N) ha hr
  have hi1 := (Lnk.step_inv hN hN' hi (by simp) hg).1
  have h0 : s1.Grace N 0 := by
    simp only [Lnk.step, Lnk.gracefulShutdown, hc] at hg
    split at hg
    · simp at hg
      subst hg
      exact ⟨rfl, Or.inl ⟨by omega, rfl⟩⟩
    · cases hg
  have key : s2.Grace N (ticks bs) ∧ s2.Inv client N := by
    clear hg hi
    induction hr' with
    | nil => exact ⟨h0, hi1⟩
    | snoc s2 s3 bs b hr hs ih =>
      have ih := ih (fun x hx => hb x (by simp [hx])) (fun b1 b2 t h1 h2 => hall b1 (b2 ++ [b]) t (by rw [h1]; simp) h2)
      have hst := hall (bs ++ [b]) [] s3 (by simp) (Lnk.Run.snoc _ _ _ _ _ hr hs)
      have h1 := Lnk.step_grace hN' ih.2 ih.1 hs hst
      refine ⟨?_, (Lnk.step_inv hN hN' ih.2 (hb b (by simp)) hs).1⟩
      have e : ticks (bs ++ [b]) = if b = .tick then ticks bs + 1 else ticks bs := by
        simp only [ticks, List.countP_append]
        cases b <;> simp
      rw [e]; exact h1
  rcases key.1.2 with ⟨h1, _⟩ | ⟨h1, _, h2⟩
  · exact ⟨by omega, fun h => by omega⟩
  · exact ⟨by omega, fun _ => h2⟩

/-- **C30** (ends): a graceful shutdown never hangs: in every reachable state the timer is ticking with at most `N` ticks left, or a forced shutdown is already requested; and executing that request ends it. -/
theorem C30_graceful_ends {client : Bool} {N : Nat} (hN : 1 ≤ N) (hN' : N < 2 ^ 64) {s : Lnk} {as : List LkAct} (hr : Lnk.Run client N Lnk.init as s) (ha : ∀ a ∈ as, a ≠ .lateConnected)
    (hg : s.status = .gracefulDown) : ((∃ n, s.atimer = some n ∧ 1 ≤ n ∧ n ≤ N) ∨ 0 < s.force) ∧
      (0 < s.force → ∃ s', s.step client N .runForce = some s' ∧ s'.status = .forceDown ∧ s'.closing = true) := by
  have hi := Lnk.run_inv hN hN' (Lnk.init_inv client N) ha hr
  refine ⟨hi.grace hg, fun hf => ?_⟩
  simp [Lnk.step, hf, Lnk.forceShutdown, Lnk.shutdown, Lnk.close, hg, (hi.up (Or.inr hg)).1]

/-- **C30** (graceful does not interrupt): a graceful request executed while the link is shutting down, gracefully or not, changes nothing. -/
theorem C30_graceful_noop {client : Bool} {N : Nat} {s : Lnk} (err : Bool) (hst : s.status = .gracefulDown ∨ s.status = .forceDown) (hp : 0 < s.grace) :
    s.step client N (.runGraceful err) = some { s with grace := s.grace - 1 } := by
  rcases hst with h | h <;> simp [Lnk.step, hp, Lnk.gracefulShutdown, h]

/-- **C30** (forced overrides): a forced request always leads to a closed socket: whatever the reachable status is, after it the link is force shutting down or broken, not started, and its graceful timer is stopped. -/
theorem C30_force_overrides {client : Bool} {N : Nat} (hN : 1 ≤ N) (hN' : N < 2 ^ 64) {s : Lnk} {as : List LkAct} (hr : Lnk.Run client N Lnk.init as s) (ha : ∀ a ∈ as, a ≠ .lateConnected) (hp : 0 < s.force) :
    ∃ s', s.step client N .runForce = some s' ∧ s'.started = false ∧ s'.atimer = none ∧ (s.status = .connected ∨ s.status = .gracefulDown → s'.status = .forceDown ∧ s'.closing = true) ∧
      (s.status = .forceDown ∨ s.status = .broken → s'.status = s.status) := by
  have hi := Lnk.run_inv hN hN' (Lnk.init_inv client N) ha hr
  have h1 := hi.up; have h2 := hi.fd; have h3 := hi.timer
  refine ⟨_, by simp only [Lnk.step, hp, if_true]; rfl, ?_⟩
  have h8 : s.status = .connected ∨ s.status = .forceDown ∨ s.status = .gracefulDown ∨ s.status = .broken := by cases s.status <;> simp
  have h9 : s.status ≠ .gracefulDown → s.atimer = none := by
    intro h
    cases hat : s.atimer with
    | none => rfl
    | some n => exact absurd (h3 n hat).1 h
  simp only [Lnk.forceShutdown, Lnk.shutdown, Lnk.close]
  grind

/-- What a late successful connect does: a client that was shut down while connecting becomes connected (on_connect is called) although it is closed, and goes from connected directly to broken. -/
theorem C30_fails_late_connect : ∃ (as : List LkAct) (s s' : Lnk), Lnk.Run true 500 Lnk.init as s ∧ s.status = .connected ∧ s.started = false ∧ s.closing = true ∧
    s.step true 500 .onClose = some s' ∧ s'.status = .broken ∧ ¬ s.status.Moves s'.status := by
  have h : ∃ r, Lnk.exec true 500 Lnk.init [.start, .askForce, .runForce, .lateConnected] = some r := ⟨_, rfl⟩
  obtain ⟨s, h⟩ := h
  have hr := Lnk.exec_run h
  have e : some s = some _ := h.symm.trans rfl
  cases e
  exact ⟨_, _, _, hr, rfl, rfl, rfl, rfl, rfl, by decide⟩

/-! ### the hypotheses can be met -/

/-- A server link with N = 3: connected, gracefully shutting down, three ticks, forced, broken, restarted. -/
example : ∃ s s1 s2 : Lnk, Lnk.Run false 3 Lnk.init [.start, .askGraceful, .askGraceful] s ∧ s.status = .connected ∧ s.step false 3 (.runGraceful false) = some s1 ∧
    Lnk.Run false 3 s1 [.tick, .runGraceful true, .tick, .tick] s2 ∧ s2.status = .gracefulDown ∧ 0 < s2.force ∧ s2.atimer = none := by
  have h : ∃ r, Lnk.exec false 3 Lnk.init [.start, .askGraceful, .askGraceful] = some r := ⟨_, rfl⟩
  obtain ⟨s, h⟩ := h
  have hr := Lnk.exec_run h
  have e : some s = some _ := h.symm.trans rfl
  cases e
  exact ⟨_, _, _, hr, rfl, rfl, Lnk.exec_run rfl, rfl, by decide, rfl⟩

/-- A client link through all states. -/
example : ∃ s : Lnk, Lnk.Run true 500 Lnk.init [.start, .connectFail true, .connected, .askGraceful, .runGraceful false, .tick, .askForce, .runForce, .onClose, .start, .connected] s ∧ s.status = .connected :=
  ⟨_, Lnk.exec_run rfl, rfl⟩

/-- **C30** (giving up): when a client gives up connecting, its link stays broken until on_close, whatever is called meanwhile; it is closed as soon as the shutdown requested by that runs, and then nothing
keeps on_close from being called. -/
theorem C30_gives_up {N : Nat} (hN : 1 ≤ N) (hN' : N < 2 ^ 64) {s s1 : Lnk} {as : List LkAct} (hr : Lnk.Run true N Lnk.init as s) (ha : ∀ a ∈ as, a ≠ .lateConnected) (hc : s.closing = false)
    (hs : s.step true N (.connectFail false) = some s1) :
    (∃ s2 s3, s1.step true N .runForce = some s2 ∧ s2.step true N .onClose = some s3 ∧ s3.started = false) ∧
      ∀ bs s2, Lnk.Run true N s1 bs s2 → .onClose ∉ bs → s2.status = .broken ∧ (s2.started = true ∨ ∃ s3, s2.step true N .onClose = some s3) := by
  have hi := Lnk.run_inv hN hN' (Lnk.init_inv true N) ha hr
  have h0 : s1.status = .broken ∧ s1.connecting = false ∧ 0 < s1.force ∧ s1.started = true ∧ s1.closing = false := by
    have h1 := hi.up; have h2 := hi.fd; have h3 := hi.conn
    simp only [Lnk.step] at hs
    (repeat' split at hs) <;> cases hs <;> grind
  refine ⟨?_, ?_⟩
  · obtain ⟨h1, h2, h3, h4, h5⟩ := h0
    simp [Lnk.step, h3, Lnk.forceShutdown, Lnk.shutdown, Lnk.close, h1, h2, h4]
  · intro bs s2 hb hn
    suffices s2.status = .broken ∧ s2.connecting = false ∧ ((s2.started = true ∧ s2.closing = false) ∨ (s2.started = false ∧ s2.closing = true)) by
      refine ⟨this.1, ?_⟩
      rcases this.2.2 with h | h
      · exact .inl h.1
      · exact .inr (by simp [Lnk.step, h.2, this.2.1])
    induction hb with
    | nil => exact ⟨h0.1, h0.2.1, .inl h0.2.2.2⟩
    | snoc t t' bs b hb hst ih =>
      have ih := ih (fun h => hn (by simp [h]))
      have hbb : b ≠ .onClose := fun h => hn (by simp [h])
      cases b <;> simp only [Lnk.step, Lnk.forceShutdown, Lnk.gracefulShutdown, Lnk.shutdown, Lnk.close, Lnk.tick] at hst <;> (repeat' split at hst) <;> grind

/-- Non-vacuity: the server refuses twice, then the client gives up. -/
example : ∃ s s1, Lnk.Run true 500 Lnk.init [.start, .connectFail true] s ∧ s.closing = false ∧ s.step true 500 (.connectFail false) = some s1 :=
  ⟨_, _, Lnk.exec_run rfl, rfl, rfl⟩

end StAsio
