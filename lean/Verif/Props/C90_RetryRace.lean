import Verif.Lemmas.RetryRecv
/-!
C90 A message refused by on_msg_handle is offered again, and receiving that was paused because the receive buffer is full resumes.

Both rest on a timer that the socket sets for itself, from within a strand, while the handler of the same timer may still be running in another thread.
The handler's last act is to mark the timer as cancelled unless the timer has been set again (timer.h:193-194), and that test and that write are two steps.
With one thread in the service the property holds. With two it does not: the socket can end in a state from which, whatever happens, no message is ever offered (no data ever read) again.
-/
set_option autoImplicit false
namespace StAsio

/-! ### One service thread -/

/-- One thread: while a message waits to be offered (again) the library always has something to do, and it can do no more than `s.work` things, in whatever order and with however many messages arriving in the meantime, before the message is offered to on_msg_handle. -/
theorem C90_offered_partial {as₀ : List RdAct} {es₀ : List RdEv} {s : Rd} (hr : Rd.Run true Rd.init as₀ s es₀) (hd : s.dispatching = true) (hp : s.pc ≠ .handling) :
    (∃ a, a.own = true ∧ (s.step true a).isSome = true) ∧
    ∀ as t es, Rd.Run true s as t es → s.work < as.countP RdAct.own → RdEv.offered ∈ es := by
  have hi := Rd.inv_run Rd.inv_init hr
  refine ⟨Rd.can hi hd hp, fun as t es hrun hlt => ?_⟩
  cases Classical.em (RdEv.offered ∈ es) with
  | inl h => exact h
  | inr h =>
    have := (Rd.work_run hi hd hp hrun h).2.2
    omega

/-- One thread: while receiving is paused the library always has something to do, and if check_receiving finds room in the buffer, then after at most 7 further actions the socket reads again. -/
theorem C90_resumed_partial {s : Rp} (hr : Rp.Reach true Rp.init s) (hp : s.pc = .paused) :
    (∀ avail, (s.step true .expire).isSome = true ∨ (s.step true (.handler 0 avail)).isSome = true) ∧
    ∀ as t, (∀ a ∈ as, a.roomy = true) → s.exec true as = some t → 7 < as.length → ∃ pre u, pre <+: as ∧ s.exec true pre = some u ∧ u.pc = .reading := by
  have hi := Rp.inv_reach Rp.inv_init hr
  exact ⟨fun avail => Rp.can avail hi hp, fun as t ha he hn => Rp.left_exec hi hp ha he (Nat.lt_of_le_of_lt s.left_le hn)⟩

/-- Any number of threads: receiving is never resumed while it is not paused, hence there are never two reads at a time because of the timer. -/
theorem C90_once_partial {one : Bool} {s : Rp} (hr : Rp.Reach one Rp.init s) : s.twice = false := (Rp.uni_reach hr).once

/-! ### Several service threads -/

/-- The first message is refused, the timer expires, its call back posts the retry, the retry is refused too and sets the timer again between the test and the write of the first handler. -/
def c90Dispatch : List RdAct :=
  [.arrive, .run, .ret false, .park, .park, .expire, .handler 0, .handler 0, .handler 0, .run, .ret false, .park, .park, .handler 0]

/-- Several threads: the property is false. After this sequence the refused message is never offered again, and nor is any later message, whatever happens and for ever. -/
theorem C90_fails_dispatch : ∃ s es, Rd.Run false Rd.init c90Dispatch s es ∧ es.count .offered = 2 ∧ s.dispatching = true ∧ s.pc = .idle ∧
    ∀ as t es', Rd.Run false s as t es' → RdEv.offered ∉ es' := by
  have h : (Rd.init.exec false c90Dispatch).isSome = true := by decide +kernel
  obtain ⟨⟨s, es⟩, he⟩ := Option.isSome_iff_exists.mp h
  have e : (Rd.init.exec false c90Dispatch).map (fun r => (r.2.count .offered, r.1.dispatching, r.1.pc)) = some (2, true, .idle) := by decide +kernel
  have d : (Rd.init.exec false c90Dispatch).map (fun r => (r.1.posted, r.1.tm.status, r.1.tm.hs)) = some (0, .canceled, []) := by decide +kernel
  rw [he] at e d
  simp only [Option.map_some, Option.some.injEq, Prod.mk.injEq] at e d
  refine ⟨s, es, Rd.exec_run he, e.1, e.2.1, e.2.2, fun as t es' hr => ?_⟩
  have hd : s.Dead := ⟨e.2.1, e.2.2, d.1, d.2.1, by rw [d.2.2]; simp⟩
  rw [(Rd.dead_run hd hr).2]
  simp

def c90Receive : List RpAct :=
  [.read, .check false, .park, .park, .expire, .handler 0 true, .handler 0 true, .handler 0 true, .read, .check false, .park, .park, .handler 0 true]

/-- Several threads: receiving that was paused may stay so for ever, whatever happens, even if the buffer is empty. -/
theorem C90_fails_receive : ∃ s, Rp.Reach false Rp.init s ∧ ∀ t, Rp.Reach false s t → t.pc = .paused := by
  have h : (Rp.init.exec false c90Receive).isSome = true := by decide +kernel
  obtain ⟨s, he⟩ := Option.isSome_iff_exists.mp h
  have d : (Rp.init.exec false c90Receive).map (fun r => (r.pc, r.tm.status, r.tm.hs)) = some (.paused, .canceled, []) := by decide +kernel
  rw [he] at d
  simp only [Option.map_some, Option.some.injEq, Prod.mk.injEq] at d
  refine ⟨s, Rp.exec_reach .refl he, fun t hr => (Rp.dead_reach ⟨d.1, d.2.1, ?_⟩ hr).paused⟩
  rw [d.2.2]; simp

/-! ### Non-vacuity -/

/-- One thread: refused, parked, and offered again. -/
example : (Rd.init.exec true [.arrive, .run, .ret false, .park, .park]).map (fun r => (r.1.dispatching, r.1.pc, r.1.work)) = some (true, .idle, 7) := by decide +kernel
example : (Rd.init.exec true [.arrive, .run, .ret false, .park, .park, .arrive, .expire, .handler 0, .handler 0, .handler 0, .handler 0, .run, .ret true]).map (fun r => (r.2, r.1.buf)) = some ([.offered, .offered, .accepted], 1) := by decide +kernel
/-- One thread cannot follow the bad schedules. -/
example : Rd.init.exec true c90Dispatch = none := by decide +kernel
example : Rp.init.exec true c90Receive = none := by decide +kernel
/-- One thread: paused, still full, and then resumed. -/
example : (Rp.init.exec true [.read, .check false, .park, .park]).map (·.pc) = some .paused := by decide +kernel
example : (Rp.init.exec true [.read, .check false, .park, .park, .expire, .handler 0 false, .handler 0 false, .handler 0 false, .handler 0 false, .expire, .handler 0 true, .handler 0 true]).map (·.pc) = some .reading := by decide +kernel

end StAsio
