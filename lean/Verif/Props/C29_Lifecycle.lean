import Verif.Lemmas.Lifecycle
/-!
C29: closing a socket (include/socket.h, include/tracked_executor.h).

`.start` is a start() call whose two tests are not separated by another thread, `.startCheck` / `.startLock` one that may be interrupted in between; the theorems are about the former, C29_fails_restart shows why.
-/
set_option autoImplicit false
namespace StAsio

/-- **C29** (once): whatever the threads do, the history of a socket is a sequence of rounds "started, closed once, on_close once"; a new round begins only after on_close; close() returns false only if the socket is not up. -/
theorem C29_once_partial {tracked : Bool} {s : Life} {as : List LAct} {es : List LEv} (hr : Life.Run tracked Life.init as s es) (ha : ∀ a ∈ as, a ≠ .startCheck) :
    ∃ p, LPhase.down.run es = some p ∧ (s.started = true ↔ p = .up) := by
  have h := Life.run_inv Life.init_inv ha hr
  refine ⟨s.phase, h.2, ?_⟩
  unfold Life.phase
  cases s.started <;> simp
  split
  · simp
  · split <;> simp

/-- **C29** (obsoleted only after on_close): at any time the socket was declared obsoleted at most as often as on_close was called. -/
theorem C29_obsoleted_after {tracked : Bool} {s : Life} {as : List LAct} {es : List LEv} (hr : Life.Run tracked Life.init as s es) (ha : ∀ a ∈ as, a ≠ .startCheck) :
    es.countP (· == .obsoleted) ≤ es.countP LEv.isOnClose := by
  have h := Life.run_owing hr (LPhase.run_no_bad (Life.run_inv Life.init_inv ha hr).2)
  have h0 : Life.init.owing = 0 := rfl
  omega

/-- **C29** (quiet): with ST_ASIO_DELAY_CLOSE == 0, if the closing timer decided that it is the last asynchronous call, then on_close is called while no other one is pending or running, provided that no thread of the user
begins one in between. -/
theorem C29_quiet_partial {s s1 s2 s3 : Life} {pre mid : List LAct} {es fs gs hs : List LEv} {n : Nat} (hr : Life.Run true Life.init pre s es) (hp : ∀ a ∈ pre, a ≠ .startCheck)
    (hc : s.step true .dcCheck = some (s1, fs)) (hm : Life.Run true s1 mid s2 gs) (ha : ∀ a ∈ mid, a ≠ .startCheck ∧ a ≠ .extern)
    (ho : s2.step true .dcOnClose = some (s3, hs)) (hn : LEv.onClose n ∈ hs) : n = 0 := by
  have h := (Life.run_inv Life.init_inv hp hr).1
  have hq : s1.Quiet := by
    refine ⟨(Life.step_inv h (by simp) hc).1, ?_⟩
    simp only [Life.step] at hc
    grind
  have hq := Life.run_quiet hq ha hm
  simp only [Life.step] at ho
  split at ho
  · rename_i hd
    cases ho
    simp at hn
    rw [hn, hq.2 hd]
  · cases ho

/-- **C29** (no deadlock): a close that succeeded always leads to on_close: from every reachable state in which the socket was closed and on_close is due, with the service running, the pending calls can finish and then on_close is called. -/
theorem C29_reaches {tracked : Bool} {s : Life} {as : List LAct} {es : List LEv} (hr : Life.Run tracked Life.init as s es) (ha : ∀ a ∈ as, a ≠ .startCheck)
    (hcl : LPhase.down.run es = some .closing) (hrun : s.stopped = false) : ∃ bs s' fs, Life.Run tracked s bs s' fs ∧ (∃ n, LEv.onClose n ∈ fs) ∧
      ∀ b ∈ bs, b = .finish ∨ b = .closeEnd ∨ b = .dcExpire ∨ b = .dcCheck ∨ b = .dcOnClose := by
  have h := Life.run_inv Life.init_inv ha hr
  have hph : s.phase = .closing := by
    have h2 := h.2
    rw [show Life.init.phase = .down from rfl, hcl] at h2
    exact (Option.some.inj h2).symm
  -- finish pending calls and reach `dc = .armed` or `.due` or `.checked`
  have key : ∀ t : Life, t.stopped = false → t.refs = 0 → (t.dc = .armed ∨ t.dc = .due ∨ t.dc = .checked) → ∃ bs s' fs, Life.Run tracked t bs s' fs ∧ (∃ n, LEv.onClose n ∈ fs) ∧
      ∀ b ∈ bs, b = .finish ∨ b = .closeEnd ∨ b = .dcExpire ∨ b = .dcCheck ∨ b = .dcOnClose := by
    intro t hst hrf hd
    have c3 : ∀ t : Life, t.dc = .checked → Life.Run tracked t [.dcOnClose] { t with dc := .closed } [.onClose t.refs] := by
      intro t h; exact Life.run_one (by simp [Life.step, h])
    have c2 : ∀ t : Life, t.dc = .due → t.refs = 0 → Life.Run tracked t [.dcCheck] { t with dc := .checked } [] := by
      intro t h h'; exact Life.run_one (by simp [Life.step, h, h'])
    have c1 : ∀ t : Life, t.dc = .armed → t.stopped = false → Life.Run tracked t [.dcExpire] { t with dc := .due } [] := by
      intro t h h'; exact Life.run_one (by simp [Life.step, h, h'])
    rcases hd with hd | hd | hd
    · exact ⟨_, _, _, Life.run_trans (Life.run_trans (c1 t hd hst) (c2 _ rfl hrf)) (c3 _ rfl), ⟨_, by simp; rfl⟩, by simp⟩
    · exact ⟨_, _, _, Life.run_trans (c2 t hd hrf) (c3 _ rfl), ⟨_, by simp; rfl⟩, by simp⟩
    · exact ⟨_, _, _, c3 t hd, ⟨_, by simp; rfl⟩, by simp⟩
  have hdrain := Life.drain (tr := tracked) s
  have hfin : ∀ b ∈ List.replicate s.refs LAct.finish, b = .finish ∨ b = .closeEnd ∨ b = .dcExpire ∨ b = .dcCheck ∨ b = .dcOnClose :=
    fun b hb => Or.inl (List.eq_of_mem_replicate hb)
  have hns : s.started = false := by
    cases hst : s.started with
    | false => rfl
    | true => simp [Life.phase, hst] at hph
  by_cases hl : s.lock = .closer2
  · have hdc := (h.1.c2 hl).2
    have h1 : ({ s with refs := 0 } : Life).step tracked .closeEnd = some ({ s with refs := 0, lock := .free, dc := .armed, calling := true }, []) := by
      simp [Life.step, hl, hrun, hdc]
    obtain ⟨bs, s', fs, hb, he, hall⟩ := key { s with refs := 0, lock := .free, dc := .armed, calling := true } hrun rfl (Or.inl rfl)
    refine ⟨_, s', _, Life.run_trans (Life.run_trans hdrain (Life.run_one h1)) hb, by simpa using he, ?_⟩
    intro b hb
    simp only [List.mem_append, List.mem_singleton] at hb
    rcases hb with (hb | hb) | hb
    · exact hfin b hb
    · exact Or.inr (Or.inl hb)
    · exact hall b hb
  · have hd : s.dc = .armed ∨ s.dc = .due ∨ s.dc = .checked := by
      revert hph
      cases hd : s.dc <;> simp [Life.phase, hns, hl, hd]
    obtain ⟨bs, s', fs, hb, he, hall⟩ := key { s with refs := 0 } hrun rfl hd
    refine ⟨_, s', _, Life.run_trans hdrain hb, by simpa using he, ?_⟩
    intro b hb
    rcases List.mem_append.1 hb with hb | hb
    · exact hfin b hb
    · exact hall b hb

/-- **C29** (obsoleted objects are dead): with ST_ASIO_DELAY_CLOSE == 0, if obsoleted() returns true for a socket that is not started and that nobody is starting or closing, nothing of it runs any more: whatever the other threads do, short of starting it or beginning
asynchronous calls on it, only failing close() calls are observed and obsoleted() stays true. -/
theorem C29_dead {s s' : Life} {bs : List LAct} {fs : List LEv} (ho : s.declaresObsoleted true = true) (hst : s.started = false) (hl : s.lock = .free) (hc : s.chk = 0)
    (hb : ∀ b ∈ bs, b ≠ .startCheck ∧ b ≠ .start ∧ b ≠ .extern) (hr : Life.Run true s bs s' fs) : (∀ e ∈ fs, e = .closeFalse) ∧ s'.started = false ∧ s'.refs = 0 ∧ s'.dc = .none := by
  have h0 : s.Dead := by
    simp [Life.declaresObsoleted] at ho
    exact ⟨hst, hl, hc, ho.2.1.1, ho.2.1.2, ho.2.2⟩
  have : s'.Dead ∧ ∀ e ∈ fs, e = .closeFalse := by
    clear ho hst hl hc
    induction hr with
    | nil => exact ⟨h0, by simp⟩
    | snoc s1 s2 as a es es' hr hs ih =>
      have ih := ih (fun x hx => hb x (by simp [hx]))
      have h1 := Life.step_dead ih.1 (hb a (by simp)) hs
      refine ⟨h1.1, ?_⟩
      intro e he
      rcases List.mem_append.1 he with he | he
      · exact ih.2 e he
      · exact h1.2 e he
  exact ⟨this.2, this.1.1, this.1.2.2.2.1, this.1.2.2.2.2.1⟩

/-- **C29** (a stopped service starts nothing): while the service pump is stopped and no start() is between its two tests, start() has no effect whatever the threads do: no do_start() begins until the pump is started again (socket.h:152). -/
theorem C29_stopped {tracked : Bool} {s s' : Life} {bs : List LAct} {fs : List LEv} (hst : s.stopped = true) (hc : s.chk = 0) (hb : .pumpStart ∉ bs) (hr : Life.Run tracked s bs s' fs) :
    .starting ∉ fs ∧ s'.stopped = true ∧ s'.chk = 0 := by
  induction hr with
  | nil => exact ⟨by simp, hst, hc⟩
  | snoc s1 s2 as a es es' hr hs ih =>
    have ih := ih (fun h => hb (by simp [h]))
    have ha : a ≠ .pumpStart := fun h => hb (by simp [h])
    obtain ⟨i1, i2, i3⟩ := ih
    have hgoal : .starting ∉ es' ∧ s2.stopped = true ∧ s2.chk = 0 := by
      cases a <;> simp only [Life.step, i2, i3] at hs <;> grind
    refine ⟨?_, hgoal.2⟩
    intro h
    rcases List.mem_append.1 h with h | h
    · exact i1 h
    · exact hgoal.1 h

/-- Start requests on a stopped service, and one after it was started again: only the last one starts the socket. -/
theorem C29_stopped_demo : (Life.exec true Life.init [.pumpStop, .startCheck, .start, .extern, .closeCall, .closeLock]).map (fun r => (r.2, r.1.chk)) = some ([.closeFalse], 0) ∧
    (Life.exec true Life.init [.pumpStop, .startCheck, .start, .pumpStart, .startCheck, .startLock, .startEnd true]).map (·.2) = some [.starting, .started] := by decide

/-- The restriction of C29_once_partial is needed: a start() that tested the closing timer before a concurrent close() set it restarts the socket although on_close was not called yet (socket.h:153-157). -/
theorem C29_fails_restart : ∃ (as : List LAct) (s : Life) (es : List LEv), Life.Run true Life.init as s es ∧ LPhase.down.run es = none ∧
    es = [.starting, .started, .closed, .starting, .started] ∧ s.isClosing = true := by
  have h : ∃ r, Life.exec true Life.init [.start, .startEnd true, .closeCall, .closeLock, .closeClear, .startCheck, .closeEnd, .startLock, .startEnd true] = some r := ⟨_, rfl⟩
  obtain ⟨⟨s, es⟩, h⟩ := h
  have hr := Life.exec_run h
  have e : some (s, es) = some _ := h.symm.trans rfl
  cases e
  exact ⟨_, _, _, hr, by decide, rfl, rfl⟩

/-- The restriction of C29_quiet_partial is needed: a call begun by a thread of the user behind the decision is pending while on_close runs. -/
theorem C29_fails_extern : ∃ (as : List LAct) (s : Life) (es : List LEv), Life.Run true Life.init as s es ∧ LEv.onClose 1 ∈ es ∧ (∀ a ∈ as, a ≠ .startCheck) := by
  have h : ∃ r, Life.exec true Life.init [.start, .startEnd true, .closeCall, .closeLock, .closeClear, .closeEnd, .dcExpire, .dcCheck, .extern, .dcOnClose] = some r := ⟨_, rfl⟩
  obtain ⟨⟨s, es⟩, h⟩ := h
  have hr := Life.exec_run h
  have e : some (s, es) = some _ := h.symm.trans rfl
  cases e
  exact ⟨_, _, _, hr, by decide, by decide⟩

/-- With ST_ASIO_DELAY_CLOSE > 0 nothing is tracked: on_close is called although calls are pending. -/
theorem C29_fails_delay : ∃ (as : List LAct) (s : Life) (es : List LEv), Life.Run false Life.init as s es ∧ LEv.onClose 1 ∈ es ∧ (∀ a ∈ as, a ≠ .startCheck ∧ a ≠ .extern) := by
  have h : ∃ r, Life.exec false Life.init [.start, .spawn, .startEnd true, .closeCall, .closeLock, .closeClear, .closeEnd, .dcExpire, .dcCheck, .dcOnClose] = some r := ⟨_, rfl⟩
  obtain ⟨⟨s, es⟩, h⟩ := h
  have hr := Life.exec_run h
  have e : some (s, es) = some _ := h.symm.trans rfl
  cases e
  exact ⟨_, _, _, hr, by decide, by decide⟩

/-- With ST_ASIO_DELAY_CLOSE > 0 obsoleted() can be true although a receive or send is still pending: the object pool may free or reuse the socket then. -/
theorem C29_fails_obsolete_pending : ∃ (as : List LAct) (s : Life) (es : List LEv), Life.Run false Life.init as s es ∧ s.declaresObsoleted false = true ∧ s.refs = 1 ∧ s.started = false ∧ (∀ a ∈ as, a ≠ .startCheck ∧ a ≠ .extern) := by
  have h : Life.Run false Life.init [.start, .spawn, .startEnd true, .closeCall, .closeLock, .closeClear, .closeEnd, .dcExpire, .dcCheck, .dcOnClose, .dcCancel, .finEnd] _ _ := Life.exec_run rfl
  exact ⟨_, _, _, h, by decide, by decide, by decide, by decide⟩

/-- And even of a socket that is up again: start() does not clear obsoleted_ (only reset() does, which a reconnecting client never calls), and nothing is counted. (A client socket answers true only while it is told not to
reconnect, tcp/client_socket.h:68, i.e. from shutdown(false) until the close.) -/
theorem C29_fails_obsolete_up : ∃ (as : List LAct) (s : Life) (es : List LEv), Life.Run false Life.init as s es ∧ s.declaresObsoleted false = true ∧ s.refs = 1 ∧ s.started = true ∧ (∀ a ∈ as, a ≠ .startCheck ∧ a ≠ .extern) := by
  have h : Life.Run false Life.init [.start, .startEnd true, .closeCall, .closeLock, .closeClear, .closeEnd, .dcExpire, .dcCheck, .dcOnClose, .dcCancel, .finEnd, .start, .spawn, .startEnd true] _ _ := Life.exec_run rfl
  exact ⟨_, _, _, h, by decide, by decide, by decide, by decide⟩

/-- If the service was stopped, close() calls on_close at once, although calls are pending (or still running on a service thread that has not returned yet). -/
theorem C29_fails_stopped : ∃ (as : List LAct) (s : Life) (es : List LEv), Life.Run true Life.init as s es ∧ LEv.onClose 1 ∈ es ∧ (∀ a ∈ as, a ≠ .startCheck ∧ a ≠ .extern) := by
  have h : ∃ r, Life.exec true Life.init [.start, .spawn, .startEnd true, .pumpStop, .closeCall, .closeLock, .closeClear, .closeEnd] = some r := ⟨_, rfl⟩
  obtain ⟨⟨s, es⟩, h⟩ := h
  have hr := Life.exec_run h
  have e : some (s, es) = some _ := h.symm.trans rfl
  cases e
  exact ⟨_, _, _, hr, by decide, by decide⟩

/-- A close() never gets past the lock before do_start() returns: called inside do_start() (for example force_shutdown() in on_connect(), dispatched at once on a service thread) it waits for itself for ever. -/
theorem C29_close_inside_start {tracked : Bool} {s s' : Life} {bs : List LAct} {fs : List LEv} (hl : s.lock = .starter) (hb : ∀ b ∈ bs, ∀ ok, b ≠ .startEnd ok) (hr : Life.Run tracked s bs s' fs) :
    s'.lock = .starter ∧ s.spin ≤ s'.spin ∧ LEv.closed ∉ fs ∧ LEv.closeFalse ∉ fs := by
  induction hr with
  | nil => exact ⟨hl, Nat.le_refl _, by simp, by simp⟩
  | snoc s1 s2 as a es es' hr hs ih =>
    obtain ⟨h1, h2, h3, h4⟩ := ih (fun x hx => hb x (by simp [hx]))
    have hb := hb a (by simp)
    have : s2.lock = .starter ∧ s1.spin ≤ s2.spin ∧ LEv.closed ∉ es' ∧ LEv.closeFalse ∉ es' := by
      cases a
      all_goals
        simp only [Life.step, Life.tryStart, Life.isClosing] at hs
        grind
    obtain ⟨g1, g2, g3, g4⟩ := this
    exact ⟨g1, by omega, by simp [h3, g3], by simp [h4, g4]⟩

/-! ### the hypotheses can be met -/

/-- Two rounds with concurrent shutdown requests, a pending call delaying on_close, and a second start while the first round's handler is still running. -/
def lifeDemo : List LAct :=
  [.start, .spawn, .startEnd true, .closeCall, .closeCall, .extern, .closeLock, .closeClear, .finish, .closeEnd, .closeLock, .dcExpire, .dcCheck, .finish, .dcExpire, .dcCheck, .dcOnClose, .dcCancel,
   .start, .startEnd true, .finEnd, .closeCall, .closeLock, .closeClear, .closeEnd, .dcExpire, .dcCheck, .dcOnClose, .dcCancel, .finEnd]

theorem lifeDemo_ok : ∃ s, Life.Run true Life.init lifeDemo s [.starting, .started, .closed, .closeFalse, .onClose 0, .starting, .started, .obsoleted, .closed, .onClose 0, .obsoleted] ∧
    (∀ a ∈ lifeDemo, a ≠ .startCheck) ∧ s.declaresObsoleted true = true ∧ s.started = false ∧ s.lock = .free ∧ s.chk = 0 := by
  have h : ∃ r, Life.exec true Life.init lifeDemo = some r := ⟨_, rfl⟩
  obtain ⟨⟨s, es⟩, h⟩ := h
  have hr := Life.exec_run h
  have e : some (s, es) = some _ := h.symm.trans rfl
  cases e
  exact ⟨_, hr, by decide, by decide, rfl, rfl, rfl⟩

/-- C29_quiet_partial, C29_reaches: the closing timer decides, then on_close. -/
example : ∃ s s1 s2 : Life, Life.Run true Life.init [.start, .startEnd true, .closeCall, .closeLock, .closeClear, .closeEnd, .dcExpire] s [.starting, .started, .closed] ∧
    s.step true .dcCheck = some (s1, []) ∧ s1.step true .dcOnClose = some (s2, [.onClose 0]) ∧ LPhase.down.run [.starting, .started, .closed] = some .closing ∧ s.stopped = false := by
  have h : ∃ r, Life.exec true Life.init [.start, .startEnd true, .closeCall, .closeLock, .closeClear, .closeEnd, .dcExpire] = some r := ⟨_, rfl⟩
  obtain ⟨⟨s, es⟩, h⟩ := h
  have hr := Life.exec_run h
  have e : some (s, es) = some _ := h.symm.trans rfl
  cases e
  exact ⟨_, _, _, hr, rfl, rfl, by decide, rfl⟩

end StAsio
