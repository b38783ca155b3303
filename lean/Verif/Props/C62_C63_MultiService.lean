import Verif.Lemmas.MultiService
/-!
C62: Once a service is up, every socket added to it, by whatever thread and at whatever time, is started as soon as its add_socket call has returned, unless do_start() fails.
C63: stop_service() returns after all sockets have closed, and nothing is started any more when it returns.
-/
set_option autoImplicit false
namespace StAsio

/-- The events are those of an ideal service in which sockets are added once, started only if known and not started, closed only if started; and no socket is started when stop_service() or run_service() returns. -/
theorem C63_ideal (guard : Bool) (as : List MsAct) (s : Ms) (es : List SkEv) (hr : Ms.Run guard Ms.init as s es) : ∃ i, IdealSk.monitor IdealSk.init es = some i ∧ i.on = s.live := by
  obtain ⟨i, h1, h2⟩ := Ms.see_run (i := IdealSk.init) hr Ms.inv_init ⟨rfl, by simp [IdealSk.init, Ms.init]⟩
  exact ⟨i, h1, h2.on⟩

/-- While the pump is down no socket is started, whatever add_socket calls are at work. -/
theorem C63_nothing_left (guard : Bool) (as : List MsAct) (s : Ms) (es : List SkEv) (hr : Ms.Run guard Ms.init as s es) (hoff : s.on = false) : s.live = [] := (Ms.inv_run hr Ms.inv_init).off hoff |>.2

/-- Whenever the service is up, every socket of the pool is started (according to the ideal observer) or its add_socket call has not yet returned. Partial: ST_ASIO_AVOID_AUTO_STOP_SERVICE is needed (`guard`), see C62_fails_after_auto_end. -/
theorem C62_all_started_partial (as : List MsAct) (s : Ms) (es : List SkEv) (i : IdealSk) (k : Nat) (hr : Ms.Run true Ms.init as s es) (hok : ∀ a ∈ as, a.spares k) (hi : IdealSk.monitor IdealSk.init es = some i)
    (hup : s.up = true) (hk : k ∈ s.pool) (h1 : k ∉ s.adders) (h2 : k ∉ s.starters) : k ∈ i.on := by
  obtain ⟨j, hj, hl⟩ := C63_ideal true as s es hr
  rw [hi] at hj
  have hj := Option.some.inj hj
  subst hj
  rw [hl]
  have hg := (Ms.going_run (k := k) hr Ms.inv_init ⟨by simp [Ms.init], by simp [Ms.init]⟩ (by simp [Ms.Going, Ms.init]) hok).2 hup hk
  rcases hg with hg | hg | hg
  · exact hg
  · exact absurd hg h1
  · exact absurd hg h2

/-- A service that is up belongs to a pump that runs. -/
theorem C62_up_partial (as : List MsAct) (s : Ms) (es : List SkEv) (hr : Ms.Run true Ms.init as s es) (hup : s.up = true) : s.on = true ∧ s.ioStopped = false := by
  have hk : s.Kept := by
    clear hup
    induction hr with
    | nil => exact ⟨by simp [Ms.init], by simp [Ms.init]⟩
    | snoc s1 s2 as a es es' hr hs ih => exact Ms.kept_step (Ms.inv_run hr Ms.inv_init) ih hs
  have := hk.up hup
  exact ⟨this.1, hk.running this.1 (Or.inl this.2)⟩

/-- Two sockets are added, one before the start and one during it (its add_socket finds the pump started before the io_context has been restarted); a third is added later. All are started. -/
def msDemo : List MsAct := [.add, .addCheck 0, .pumpStart, .add, .addCheck 1, .restart, .initAll [], .addStart 1 true, .add, .addCheck 2, .addStart 2 true]

theorem C62_demo : ∃ s es i, Ms.Run true Ms.init msDemo s es ∧ IdealSk.monitor IdealSk.init es = some i ∧ s.up = true ∧ s.pool = [2, 1, 0] ∧ s.adders = [] ∧ s.starters = [] ∧ i.on = [2, 0, 1] ∧ (∀ a ∈ msDemo, a.spares 1) :=
  ⟨_, _, _, Ms.exec_run rfl, rfl, rfl, rfl, rfl, rfl, rfl, by simp [msDemo, MsAct.spares]⟩

/-- A second run of the pump: socket 1 is added after finalize, its start() fails because the io_context is stopped, the next start_service() starts it. -/
def msAgain : List MsAct := msDemo ++ [.stop, .closed false 0, .closed false 1, .closed false 2, .ioStop, .finalize false, .add, .addCheck 3, .addStart 3 true, .off, .pumpStart, .restart, .initAll []]

theorem C62_demo_again : ∃ s es i, Ms.Run true Ms.init msAgain s es ∧ IdealSk.monitor IdealSk.init es = some i ∧ s.up = true ∧ s.pool = [3] ∧ s.adders = [] ∧ s.starters = [] ∧ i.on = [3] :=
  ⟨_, _, _, Ms.exec_run rfl, rfl, rfl, rfl, rfl, rfl, rfl⟩

/-- Without ST_ASIO_AVOID_AUTO_STOP_SERVICE: a run that ended because nothing was left to do leaves the service marked as started; the next start_service() does not start the sockets added in between. -/
theorem C62_fails_after_auto_end : ∃ as s es i, Ms.Run false Ms.init as s es ∧ (∀ a ∈ as, a.spares 0) ∧ IdealSk.monitor IdealSk.init es = some i ∧ s.up = true ∧ s.on = true ∧ s.pc = .idle ∧ 0 ∈ s.pool ∧ s.adders = [] ∧ s.starters = [] ∧ 0 ∉ i.on := by
  refine ⟨[.pumpStart, .restart, .initAll [], .ioStop, .finalize false, .off, .add, .addCheck 0, .pumpStart, .restart, .initAll []], _, _, _, Ms.exec_run rfl, ?_, rfl, ?_⟩
  · simp [MsAct.spares]
  · decide

/-- Without it, a socket added when the io_contexts have just run out of work is not started although pump and service say that they are started. -/
theorem C62_fails_no_work : ∃ as s es i, Ms.Run false Ms.init as s es ∧ (∀ a ∈ as, a.spares 0) ∧ IdealSk.monitor IdealSk.init es = some i ∧ s.up = true ∧ s.on = true ∧ s.pc = .idle ∧ 0 ∈ s.pool ∧ s.adders = [] ∧ s.starters = [] ∧ 0 ∉ i.on := by
  refine ⟨[.pumpStart, .restart, .initAll [], .ioStop, .add, .addCheck 0, .addStart 0 true], _, _, _, Ms.exec_run rfl, ?_, rfl, ?_⟩
  · simp [MsAct.spares]
  · decide

/-- add_socket asks the pump, not the service: it starts sockets of a service that has been stopped by stop_service(service). -/
theorem C62_starts_in_stopped_service : ∃ as s es, Ms.Run true Ms.init as s es ∧ s.up = false ∧ s.on = true ∧ 0 ∈ s.live ∧ 0 ∉ s.shut :=
  ⟨[.pumpStart, .restart, .initAll [], .svcStop, .add, .addCheck 0, .addStart 0 true], _, _, Ms.exec_run rfl, by decide⟩

/-- stop_service() ends: if the service was up, no add_socket call is under way when it is called and none begins later, no socket was removed from the pool by del_socket, and no socket left the pool while it was being added, then from every state that can be reached
after the call there is a way to its return that needs nothing from the user: the sockets close, the io_context runs out of work, stop_service() returns. Partial: see the C63_fails theorems. -/
theorem C63_stop_ends_partial (guard : Bool) (as : List MsAct) (s : Ms) (es : List SkEv) (hr : Ms.Run guard Ms.init as s es) (htidy : ∀ a ∈ as, a.tidy) (hup : s.up = true) (h1 : s.adders = []) (h2 : s.starters = [])
    (s1 : Ms) (es1 : List SkEv) (hstop : s.step guard .stop = some (s1, es1)) (as2 : List MsAct) (s2 : Ms) (es2 : List SkEv) (hr2 : Ms.Run guard s1 as2 s2 es2) (hcalm : ∀ a ∈ as2, a ≠ .add ∧ a ≠ .pumpStart) (hon : s2.on = true) :
    ∃ as3 s3 es3, Ms.Run guard s2 as3 s3 es3 ∧ (∀ a ∈ as3, a.own = true) ∧ s3.on = false ∧ SkEv.pumpDown ∈ es3 := by
  have hi := Ms.inv_run hr Ms.inv_init
  have hf := Ms.found_run hr Ms.inv_init ⟨by simp [Ms.init], by simp [Ms.init]⟩ htidy
  have he : s1.Ending := by
    simp only [Ms.step, hup, if_true] at hstop
    split at hstop
    · simp only [Ms.shutAll, Option.some.injEq, Prod.mk.injEq] at hstop
      obtain ⟨rfl, rfl⟩ := hstop
      refine ⟨fun _ => Or.inl rfl, h1, h2, ?_⟩
      intro k hk
      simp only at hk
      rcases hf.live k hk with hp | hp
      · by_cases hsh : k ∈ s.shut
        · exact List.mem_append_right _ hsh
        · exact List.mem_append_left _ (by simp [Ms.toShut, hp, hk, hsh])
      · exact List.mem_append_right _ hp
    · exact absurd hstop (by simp)
  have hi1 := Ms.inv_step hi hstop
  exact Ms.ending_ends (Ms.inv_run hr2 hi1) (Ms.ending_run hr2 hi1 he hcalm) hon

/-- stop_service() while two sockets are open; one has closed. -/
theorem C63_demo : ∃ s es s1 es1 s2 es2, Ms.Run true Ms.init msDemo s es ∧ (∀ a ∈ msDemo, a.tidy) ∧ s.up = true ∧ s.adders = [] ∧ s.starters = [] ∧ s.step true .stop = some (s1, es1) ∧ Ms.Run true s1 [.closed false 1] s2 es2 ∧ s2.on = true ∧ s2.live = [2, 0] :=
  ⟨_, _, _, _, _, _, Ms.exec_run rfl, by simp [msDemo, MsAct.tidy], rfl, rfl, rfl, rfl, Ms.exec_run rfl, by decide⟩

/-- A link that breaks while the pump runs: on_close is called, the socket leaves the pool, the others go on, stop_service() ends the rest. -/
theorem C63_demo_broken : ∃ s es s1 es1, Ms.Run true Ms.init (msDemo ++ [.brk 1, .closed false 1]) s es ∧ s.pool = [2, 0] ∧ s.live = [2, 0] ∧ es.getLast? = some (.closed 1) ∧ (∀ a ∈ msDemo ++ [.brk 1, .closed false 1], a.tidy) ∧
    Ms.Run true s [.stop, .closed false 0, .closed false 2, .ioStop, .finalize false, .off] s1 es1 ∧ s1.live = [] ∧ es1.getLast? = some .pumpDown :=
  ⟨_, _, _, _, Ms.exec_run rfl, rfl, rfl, rfl, by simp [msDemo, MsAct.tidy], Ms.exec_run rfl, rfl, rfl⟩

/-- stop_service() waits for a socket that nobody shuts down: it never returns unless the user does something about the socket. -/
theorem C63_hang (guard : Bool) (s : Ms) (k : Nat) (hk : k ∈ s.live) (hns : k ∉ s.shut) (hpc : s.pc = .waiting) (hst : s.ioStopped = false) (as : List MsAct) (t : Ms) (es : List SkEv) (hr : Ms.Run guard s as t es) (hown : ∀ a ∈ as, a.own = true) : t.pc = .waiting ∧ SkEv.pumpDown ∉ es := by
  have key : k ∈ t.live ∧ k ∉ t.shut ∧ t.pc = .waiting ∧ t.ioStopped = false ∧ SkEv.pumpDown ∉ es := by
    induction hr with
    | nil => exact ⟨hk, hns, hpc, hst, by simp⟩
    | snoc s1 s2 as a es es' hr hs ih =>
      obtain ⟨h1, h2, h3, h4, h5⟩ := ih (fun x hx => hown x (List.mem_append_left _ hx))
      have ha := hown a (by simp)
      cases a with
      | closed early j =>
        simp only [Ms.step] at hs
        split at hs
        · rename_i hj
          simp only [Option.some.injEq, Prod.mk.injEq] at hs
          obtain ⟨rfl, rfl⟩ := hs
          have hne : k ≠ j := by rintro rfl; exact h2 hj.1
          exact ⟨by simp [h1, hne], by simp [h2], h3, h4, by simp [h5]⟩
        · exact absurd hs (by simp)
      | ioStop =>
        simp only [Ms.step] at hs
        split at hs
        · rename_i hj
          rw [hj.1] at h1
          simp at h1
        · exact absurd hs (by simp)
      | finalize early => simp [Ms.step, h4] at hs
      | off => simp [Ms.step, h3] at hs
      | _ => simp [MsAct.own] at ha
  exact ⟨key.2.2.1, key.2.2.2.2⟩

/-- A socket added after stop_service() has shut the others down, but before it returns, is started; nobody shuts it down. -/
theorem C63_fails_late_add : ∃ as s es, Ms.Run true Ms.init as s es ∧ (∀ a ∈ as, a.tidy) ∧ SkEv.stopCalled ∈ es ∧ ∀ as2 t es2, Ms.Run true s as2 t es2 → (∀ a ∈ as2, a.own = true) → t.pc = .waiting ∧ SkEv.pumpDown ∉ es2 := by
  refine ⟨[.add, .addCheck 0, .pumpStart, .restart, .initAll [], .stop, .add, .addCheck 1, .addStart 1 true], _, _, Ms.exec_run rfl, by simp [MsAct.tidy], by decide, ?_⟩
  intro as2 t es2 hr ho
  exact C63_hang true _ 1 (by decide) (by decide) rfl rfl as2 t es2 hr ho

/-- A socket added to a service that was stopped by stop_service(service) is started, and stop_service() of the pump does not shut it down, because the service says that it is not started. -/
theorem C63_fails_stopped_service : ∃ as s es, Ms.Run true Ms.init as s es ∧ (∀ a ∈ as, a.tidy) ∧ SkEv.stopCalled ∈ es ∧ s.adders = [] ∧ s.starters = [] ∧ as.getLast? = some .stop ∧
    ∀ as2 t es2, Ms.Run true s as2 t es2 → (∀ a ∈ as2, a.own = true) → t.pc = .waiting ∧ SkEv.pumpDown ∉ es2 := by
  refine ⟨[.pumpStart, .restart, .initAll [], .svcStop, .add, .addCheck 0, .addStart 0 true, .stop], _, _, Ms.exec_run rfl, by simp [MsAct.tidy], by decide, rfl, rfl, rfl, ?_⟩
  intro as2 t es2 hr ho
  exact C63_hang true _ 0 (by decide) (by decide) rfl rfl as2 t es2 hr ho

/-- A socket taken out of the pool by del_socket(id) is not shut down by stop_service(). -/
theorem C63_fails_del_socket : ∃ as s es, Ms.Run true Ms.init as s es ∧ SkEv.stopCalled ∈ es ∧ MsAct.del 0 ∈ as ∧ as.getLast? = some .stop ∧ ∀ as2 t es2, Ms.Run true s as2 t es2 → (∀ a ∈ as2, a.own = true) → t.pc = .waiting ∧ SkEv.pumpDown ∉ es2 := by
  refine ⟨[.add, .addCheck 0, .pumpStart, .restart, .initAll [], .del 0, .stop], _, _, Ms.exec_run rfl, by decide, by decide, rfl, ?_⟩
  intro as2 t es2 hr ho
  exact C63_hang true _ 0 (by decide) (by decide) rfl rfl as2 t es2 hr ho

/-- disconnect(socket_ptr) while add_socket is between putting the socket into the pool and starting it: the socket leaves the pool, shutting it down has no effect as it is not started yet, then add_socket starts it. Nobody shuts it down again. -/
theorem C63_fails_removed_while_added : ∃ as s es, Ms.Run true Ms.init as s es ∧ SkEv.stopCalled ∈ es ∧ MsAct.remove true 0 ∈ as ∧ (∀ k, MsAct.del k ∉ as) ∧ s.adders = [] ∧ s.starters = [] ∧ as.getLast? = some .stop ∧
    ∀ as2 t es2, Ms.Run true s as2 t es2 → (∀ a ∈ as2, a.own = true) → t.pc = .waiting ∧ SkEv.pumpDown ∉ es2 := by
  refine ⟨[.pumpStart, .restart, .initAll [], .add, .addCheck 0, .remove true 0, .addStart 0 true, .stop], _, _, Ms.exec_run rfl, by decide, by decide, by simp, rfl, rfl, rfl, ?_⟩
  intro as2 t es2 hr ho
  exact C63_hang true _ 0 (by decide) (by decide) rfl rfl as2 t es2 hr ho

/-- add_socket during a whole stop and restart: finalize empties the pool between is_service_started() and start(), so the socket is started in the new run without being in the pool. -/
theorem C63_fails_restart_while_added : ∃ as s es, Ms.Run true Ms.init as s es ∧ MsAct.finalize true ∈ as ∧ (∀ k, MsAct.del k ∉ as) ∧ s.adders = [] ∧ s.starters = [] ∧ as.getLast? = some .stop ∧
    ∀ as2 t es2, Ms.Run true s as2 t es2 → (∀ a ∈ as2, a.own = true) → t.pc = .waiting ∧ SkEv.pumpDown ∉ es2 := by
  refine ⟨[.pumpStart, .restart, .initAll [], .add, .addCheck 0, .stop, .ioStop, .finalize true, .off, .pumpStart, .restart, .initAll [], .addStart 0 true, .stop], _, _, Ms.exec_run rfl, by decide, by simp, rfl, rfl, rfl, ?_⟩
  intro as2 t es2 hr ho
  exact C63_hang true _ 0 (by decide) (by decide) rfl rfl as2 t es2 hr ho

end StAsio
