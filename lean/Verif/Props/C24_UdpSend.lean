import Verif.Lemmas.UdpSend2
/-!
# C24: UDP sending under every interleaving

`Ux.Run conn Ux.init as s es`: the actions `as` (of any number of sender threads, the strand, the kernel, KCP's congestion control
and its timer) lead to the state `s`, `es` is what could be observed. `conn`: the socket is in connected mode (where KCP applies).
`IdealUx` (Spec/UdpOrder.lean) says which observations an ideal datagram sender allows.
-/
set_option autoImplicit false
namespace StAsio

instance : DecidablePred UPlainEv := fun e => by cases e <;> simp only [UPlainEv] <;> infer_instance

/-- Three messages in connected mode: the first one goes through KCP, then congestion control suspends, a third message arrives meanwhile,
the timer resumes, the second message fails, the third one is sent. -/
def uxDemo : List UAct :=
  [.linkUp, .send ⟨7, [1], some 0⟩ false true, .loadReady, .loadReady, .loadFlag, .loadFlag, .runPosted, .strand true true, .strand true true,
   .strand true true, .send ⟨7, [2, 2], some 1⟩ false true, .runPosted, .strand true true, .handler 0, .loadReady, .strand false true, .send ⟨7, [3], none⟩ false true,
   .loadReady, .loadFlag, .timerCC, .resumeCheck, .loadReady, .loadFlag, .loadFlag, .runPosted, .strand true true, .strand true true, .strand true false,
   .complete 0 false false, .runPosted, .strand true true, .handler 0, .strand true true, .strand true false, .complete 0 true false, .handler 0,
   .strand true true, .strand true true, .strand true true, .strand true true]

/-- C24. Whatever the threads, the kernel, congestion control and the user do, what can be observed is what an ideal sender allows:
each message handed over is the first waiting one, only if none is in flight, and its outcome is reported exactly once. -/
theorem C24_ideal_sender (conn : Bool) (as : List UAct) (s : Ux) (es : List UEv) (h : Ux.Run conn Ux.init as s es) :
    (IdealUx.mk [] none).monitor es = some ⟨s.q.items, s.cur⟩ := (Ux.run_ok h).2.2.1

/-- C24: without priority, pop, shrink and reset the messages handed over, followed by the waiting ones, are the accepted
ones, in order - congestion control and errors included. -/
theorem C24_order (conn : Bool) (as : List UAct) (s : Ux) (es : List UEv) (h : Ux.Run conn Ux.init as s es)
    (hp : ∀ e ∈ es, UPlainEv e) : uHanded es ++ s.q.items = uAccepted es := by
  have := uMonitor_plain (C24_ideal_sender conn as s es h) hp
  simpa using this.symm

/-- C24: at most one send is outstanding, and its message is not touched meanwhile (`bad`: the kernel or send_handler found another one). -/
theorem C24_one_send (conn : Bool) (as : List UAct) (s : Ux) (es : List UEv) (h : Ux.Run conn Ux.init as s es) :
    s.writes.length + s.dones.length ≤ 1 ∧ s.bad = false := by
  have h1 := (Ux.run_ok h).1.owner
  have h2 : s.sending.toNat ≤ 1 := Bool.toNat_le _
  exact ⟨by omega, (Ux.run_ok h).1.bad⟩

/-- C24: exactly one outcome for every message handed over, in order; only the one in flight has none yet. So an error
affects that message only. -/
theorem C24_outcomes (conn : Bool) (as : List UAct) (s : Ux) (es : List UEv) (h : Ux.Run conn Ux.init as s es) :
    (uOutcomes es).map (fun o => o.1) ++ s.cur.toList = uHanded es := by
  have := uMonitor_outcomes (C24_ideal_sender conn as s es h)
  simpa using this.symm

/-- C24, on the wire: since the link came up, once nothing is outstanding, the datagrams sent are exactly the messages reported
as sent - one datagram each, whole, in order. (For KCP: the messages given to it.) -/
theorem C24_wire (conn : Bool) (as0 as : List UAct) (s0 s1 s : Ux) (es0 es1 es : List UEv)
    (h0 : Ux.Run conn Ux.init as0 s0 es0) (hu : Ux.step conn s0 .linkUp = some (s1, es1))
    (h : Ux.Run conn s1 as s es) (hn : UAct.linkUp ∉ as) (hd : s.dones = []) :
    s.wire = ((uOutcomes es).filter (fun o => o.2)).map (fun o => o.1) := by
  have hok := Ux.run_ok h0
  have h1 := Ux.step_ok hok.1 hok.2.1 hu
  have hw : s1.wire = [] ∧ s1.dones = [] := by
    simp only [Ux.step] at hu
    split at hu
    · cases hu
    · rename_i hc
      have hna := uNoAsync_true (s := s0) (by simpa using hc)
      cases hu
      exact ⟨rfl, hna.2.2.2.1⟩
  have := (Ux.run_wire h1.inv h1.live h (by simp [Ux.pendingOk, hw.2]) hn).2.2
  rw [this, hw.1, ← uSent_outcomes]
  simp [Ux.pendingOk, hd]

/-- C24: nothing is left behind. If everything is quiet, the socket is still valid and TIMER_CC was not stopped, then no message waits. -/
theorem C24_no_lost_wakeup (conn : Bool) (as : List UAct) (s : Ux) (es : List UEv) (h : Ux.Run conn Ux.init as s es)
    (hq : s.Quiet) (hr : s.ready = true) (hf : uFatalSinceUp as = false) (hst : s.stopped = false) : s.q.items = [] := by
  obtain ⟨hi, hl, _, _⟩ := Ux.run_ok h
  rcases Classical.em (s.q.items = []) with h1 | h1
  · exact h1
  · have hw := hl.wake hf hr h1
    obtain ⟨q1, q2, q3, q4, q5, q6, q7, q8⟩ := hq
    have hse : s.sending = false := by
      have := hi.owner
      cases hse : s.sending
      · rfl
      · simp [q2, q3, q4, q8, hse, hst, UPc.owner] at this
    simp [Ux.Wake, q1, q2, q5, q6, q7, hse] at hw

/-- C24: and the library gets there by itself as soon as congestion control lets messages pass, whatever fails on the way: every run of
internal actions is finite, it can always be continued until all is quiet, and then all messages have been handed over. -/
theorem C24_drains (conn : Bool) (as : List UAct) (s : Ux) (es : List UEv) (h : Ux.Run conn Ux.init as s es)
    (hr : s.ready = true) (hf : uFatalSinceUp as = false) (hst : s.stopped = false) :
    ∀ as' s' es', Ux.Run conn s as' s' es' → (∀ a ∈ as', UAct.Internal a) →
      as'.length ≤ s.work ∧ (s'.Quiet → s'.q.items = []) ∧ (¬ s'.Quiet → ∃ a s'' es'', UAct.Internal a ∧ s'.step conn a = some (s'', es'')) := by
  intro as' s' es' hr' ha
  have hi := Ux.internal_run hr' ha
  refine ⟨by have := Ux.run_work hr' ha; omega, fun hq => ?_, Ux.progress conn s'⟩
  refine C24_no_lost_wakeup conn (as ++ as') s' (es ++ es') (Ux.run_trans h hr') hq (hi.1.trans hr) ?_ (hi.2.1.trans hst)
  unfold uFatalSinceUp at *
  rw [List.foldl_append, hf]
  exact hi.2.2.2

/-- C24/C23: no promise is resolved twice, and every promise of an accepted message is resolved, or its message waits, is in flight or was dropped. -/
theorem C24_promises (conn : Bool) (as : List UAct) (s : Ux) (es : List UEv) (h : Ux.Run conn Ux.init as s es) (x : Nat) :
    (uResolved es).count x + (uPromiseIds s.cur.toList).count x + (uPromiseIds s.q.items).count x + (uPromiseIds (uDropped es)).count x =
      (uPromiseIds (uAccepted es)).count x := (Ux.run_ok h).2.2.2 x

/-- Non-vacuity. -/
example : ∃ s es, Ux.Run true Ux.init uxDemo s es ∧ s.Quiet ∧ s.ready = true ∧ uFatalSinceUp uxDemo = false ∧ s.stopped = false ∧ (∀ e ∈ es, UPlainEv e) ∧
    uOutcomes es = [(⟨7, [1], some 0⟩, true), (⟨7, [2, 2], some 1⟩, false), (⟨7, [3], none⟩, true)] ∧ s.wire = [⟨7, [1], some 0⟩, ⟨7, [3], none⟩] ∧
    uResolved es = [0, 1] := by
  have h : ∃ r, Ux.exec true Ux.init uxDemo = some r := by exact ⟨_, rfl⟩
  obtain ⟨⟨s, es⟩, h⟩ := h
  have hr := Ux.exec_run h
  have e : some (s, es) = some _ := h.symm.trans rfl
  cases e
  refine ⟨_, _, hr, ?_, by decide, by decide, by decide, ?_, by decide, by decide, by decide⟩
  · unfold Ux.Quiet; decide
  · intro e he
    revert e
    decide

/-- If TIMER_CC is stopped or lost, the sending flag stays set and nothing is ever sent again until reset(): the message waits although
the socket is ready. -/
theorem C24_stuck_without_timer : ∃ as s es, Ux.Run true Ux.init as s es ∧ s.Quiet ∧ s.ready = true ∧ uFatalSinceUp as = false ∧ s.q.items ≠ [] := by
  refine ⟨[.linkUp, .send ⟨7, [1], none⟩ false true, .loadReady, .loadReady, .loadFlag, .loadFlag, .runPosted, .strand true false, .strand false false, .runPosted,
    .strand true true, .timerLost], ?_⟩
  have h : ∃ r, Ux.exec true Ux.init [.linkUp, .send ⟨7, [1], none⟩ false true, .loadReady, .loadReady, .loadFlag, .loadFlag, .runPosted, .strand true false, .strand false false, .runPosted,
    .strand true true, .timerLost] = some r := by exact ⟨_, rfl⟩
  obtain ⟨⟨s, es⟩, h⟩ := h
  have hr := Ux.exec_run h
  have e : some (s, es) = some _ := h.symm.trans rfl
  cases e
  exact ⟨_, _, hr, by unfold Ux.Quiet; decide, by decide, by decide, by decide⟩

end StAsio
