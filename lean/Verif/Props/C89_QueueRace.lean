import Verif.Lemmas.QueueRace
/-!
C89: when the queues of a socket may do without locks (non_lock_queue), as concurrent_server and concurrent_client choose.
-/
set_option autoImplicit false
namespace StAsio

/-- Synchronous dispatching, on_msg consumes all messages, on_connect sends one message at most, nobody else sends: whatever the schedule and whichever queues are used, no two threads are in the container of
the same queue at the same time while one of them changes it. -/
theorem C89_container {cfg : QrCfg} {s : Qr} (hy : cfg.sync = true) (hl : cfg.leaves = false) (hg : cfg.greet ≤ 1) (ha : cfg.app = false) (h : Qr.Reach cfg s) (q : QrQueue) : ¬ ContainerOverlap s.use q := by
  have i1 := Qr.sendInv hg ha (.inr ⟨hy, hl⟩) h
  have i2 := Qr.recvInv hy hl h
  obtain ⟨h1, h2, h3, h4, h5, h6⟩ := i1
  obtain ⟨j1, j2, j3, j4, j5, j6, j7⟩ := i2
  rintro ⟨t, t', k, hne, hu, hu', hk⟩
  simp only [Qr.use] at hu hu'
  cases q <;> cases t <;> cases t' <;> grind [QrPc.uses, QrPc.tidy_recv, Qr.quiet]

/-- If, moreover, nobody asks for the status of the socket, the byte counts are not read while they are changed either. -/
theorem C89_no_overlap {cfg : QrCfg} {s : Qr} (hy : cfg.sync = true) (hl : cfg.leaves = false) (hg : cfg.greet ≤ 1) (ha : cfg.app = false) (hst : cfg.status = false) (h : Qr.Reach cfg s) (q : QrQueue) :
    ¬ Overlap s.use q := by
  have i1 := Qr.sendInv hg ha (.inr ⟨hy, hl⟩) h
  have i2 := Qr.recvInv hy hl h
  obtain ⟨h1, h2, h3, h4, h5, h6⟩ := i1
  obtain ⟨j1, j2, j3, j4, j5, j6, j7⟩ := i2
  rintro ⟨t, t', k, hne, hu, hu'⟩
  simp only [Qr.use] at hu hu'
  cases q <;> cases t <;> cases t' <;> grind [QrPc.uses, QrPc.tidy_recv, Qr.quiet]

/-- The send queue alone may do without a lock in every dispatching mode, if on_msg_handle and other threads send nothing, and on_connect sends one message at most. -/
theorem C89_send_queue {cfg : QrCfg} {s : Qr} (hg : cfg.greet ≤ 1) (ha : cfg.app = false) (hr : cfg.replies = false) (h : Qr.Reach cfg s) : ¬ ContainerOverlap s.use .send := by
  obtain ⟨h1, h2, h3, h4, h5, h6⟩ := Qr.sendInv hg ha (.inl hr) h
  rintro ⟨t, t', k, hne, hu, hu', hk⟩
  simp only [Qr.use] at hu hu'
  cases t <;> cases t' <;> grind [QrPc.uses, Qr.quiet]

/-- With lock_queue (the default), every program is safe: on the send queue and on the receive queue. -/
theorem C89_lock_queue {cfg : QrCfg} {s : Qr} (h : Qr.Reach cfg s) :
    (cfg.lockS = true → ¬ ContainerOverlap s.use .send) ∧ (cfg.lockR = true → ¬ ContainerOverlap s.use .recv) := by
  obtain ⟨h1, h2⟩ := Qr.lockInv h
  constructor
  · rintro hl ⟨t, t', k, hne, hu, hu', hk⟩
    have a := h1 hl t .change hu (by decide)
    have b := h1 hl t' k hu' hk
    rw [a] at b
    exact hne (Option.some.inj b)
  · rintro hl ⟨t, t', k, hne, hu, hu', hk⟩
    have a := h2 hl t .change hu (by decide)
    have b := h2 hl t' k hu' hk
    rw [a] at b
    exact hne (Option.some.inj b)

/-- concurrent_client: non_lock_queue, synchronous dispatching, one message in on_connect. -/
def qrClient : QrCfg := { lockS := false, lockR := false, sync := true, leaves := false, greet := 1, replies := false, app := false, status := false }

/-- A greeting is sent, an answer comes, on_msg sends two messages (the first goes out at once), a write ends while the next message comes. -/
def qrDemo : List QrAct :=
  [.connect 1, .connSend, .connEnq, .task, .rwOut, .rwOutDone 1, .connDone, .sent, .rwOut, .rwOutDone 0, .rwEmpty, .rwEmptyDone, .recv 2 false, .rwSend, .rwEnq, .rwOut, .rwOutDone 1, .rwSend, .rwEnq, .rwConsumed, .rwCount,
   .rwCountDone true, .sent, .rwOut]

/-- The theorems apply: the run exists, both queues are used, and at its end rw_strand is in the container of the send queue. -/
example : ∃ s, Qr.exec qrClient Qr.init qrDemo = some s ∧ Qr.Reach qrClient s ∧ s.use .rw = some (.send, .change) ∧ s.sq = 1 ∧ ¬ Overlap s.use .send := by
  cases h : Qr.exec qrClient Qr.init qrDemo with
  | none => exact absurd h (by decide)
  | some s =>
    have hr := Qr.exec_reach .init h
    have e : ((Qr.exec qrClient Qr.init qrDemo).map (fun s => (s.use .rw, s.sq))) = some (some (.send, .change), 1) := by decide
    rw [h] at e
    simp only [Option.map_some, Option.some.injEq, Prod.mk.injEq] at e
    exact ⟨s, rfl, hr, e.1, e.2, C89_no_overlap rfl rfl (by decide) rfl rfl hr .send⟩

private theorem qr_witness {cfg : QrCfg} (as : List QrAct) (q : QrQueue) (t t' : QrCtx) (k : QrKind) (hne : t ≠ t')
    (h : (Qr.exec cfg Qr.init as).map (fun s => (s.use t, s.use t')) = some (some (q, .change), some (q, k))) :
    ∃ s, Qr.Reach cfg s ∧ Overlap s.use q ∧ (k ≠ .count → ContainerOverlap s.use q) := by
  rw [Option.map_eq_some_iff] at h
  obtain ⟨s, h1, h2⟩ := h
  simp only [Prod.mk.injEq] at h2
  exact ⟨s, Qr.exec_reach .init h1, ⟨t, t', k, hne, h2.1, h2.2⟩, fun hk => ⟨t, t', k, hne, h2.1, h2.2, hk⟩⟩

/-- The locks of lock_queue are never held for long: whoever holds one is in the container and can leave it in one step of its own, which frees the lock. -/
theorem C89_lock_released {cfg : QrCfg} {s : Qr} (h : Qr.Reach cfg s) :
    (∀ c, s.heldS = some c → s.use c ≠ none ∧ ∃ a s', s.step cfg a = some s' ∧ s'.heldS = none ∧ s'.use c = none ∧ ∀ d, d ≠ c → s'.pc d = s.pc d) ∧
    (∀ c, s.heldR = some c → s.use c ≠ none ∧ ∃ a s', s.step cfg a = some s' ∧ s'.heldR = none ∧ s'.use c = none ∧ ∀ d, d ≠ c → s'.pc d = s.pc d) := by
  obtain ⟨h1, h2⟩ := Qr.heldInv h
  obtain ⟨w1, w2, w3, w4, w5⟩ := Qr.where_ h
  obtain ⟨u1, u2⟩ := Qr.unlocked h
  constructor
  · intro c hc
    have hl : cfg.lockS = true := by
      cases hb : cfg.lockS with
      | true => rfl
      | false => rw [u1 hb] at hc; cases hc
    obtain ⟨k, hk, hne⟩ := h1 c hc
    refine ⟨by simp [hk], ?_⟩
    simp only [Qr.use] at hk ⊢
    cases c with
    | conn =>
      rcases w1 with w | ⟨n, l, w⟩ | ⟨n, l, w⟩ <;> rw [w] at hk <;> simp only [QrPc.uses, reduceCtorEq] at hk
      exact ⟨.connEnq, by simp +contextual [Qr.step, w, Qr.at_, Qr.sendMsg, Qr.unlockS, hl, QrPc.uses]⟩
    | rw =>
      cases hp : s.pc .rw <;> rw [hp] at hk <;> simp only [QrPc.uses, reduceCtorEq, Option.some.injEq, Prod.mk.injEq, false_and] at hk
      case enq n l => exact ⟨.rwEnq, by cases hb : s.sending <;> simp +contextual [Qr.step, hp, hb, Qr.at_, Qr.unlockS, hl, QrPc.uses]⟩
      case out o =>
        rcases Nat.eq_zero_or_pos s.sq with hq | hq
        · exact ⟨.rwOutDone 0, by simp +contextual [Qr.step, hp, hq, Qr.at_, Qr.unlockS, hl, QrPc.uses]⟩
        · exact ⟨.rwOutDone 1, by simp +contextual [Qr.step, hp, show 1 ≤ s.sq from hq, Qr.at_, Qr.unlockS, hl, QrPc.back_uses]⟩
      case empty o =>
        refine ⟨.rwEmptyDone, ?_⟩
        by_cases hq : s.sq ≠ 0 ∧ s.sending = false
        · simp +contextual [Qr.step, hp, hq, Qr.at_, Qr.unlockS, hl, QrPc.uses]
        · simp only [Qr.step, hp, if_neg hq]
          simp +contextual [Qr.at_, Qr.unlockS, hl, QrPc.back_uses]
      case countS => exact absurd hp w2.1
    | dis =>
      rcases w3 with w | w | w | ⟨n, l, w⟩ | ⟨n, l, w⟩ <;> rw [w] at hk <;> simp only [QrPc.uses, reduceCtorEq, Option.some.injEq, Prod.mk.injEq, false_and] at hk
      exact ⟨.disEnq, by simp +contextual [Qr.step, w, Qr.at_, Qr.sendMsg, Qr.unlockS, hl, QrPc.uses]⟩
    | timer => rcases w4 with w | w <;> rw [w] at hk <;> simp [QrPc.uses] at hk
    | app i =>
      rcases w5 i with w | w | w | ⟨n, l, w⟩ <;> rw [w] at hk <;> simp only [QrPc.uses, reduceCtorEq, Option.some.injEq, Prod.mk.injEq, false_and, true_and] at hk
      · exact absurd hk.symm hne
      · exact ⟨.appEnq i, by simp +contextual [Qr.step, w, Qr.at_, Qr.sendMsg, Qr.unlockS, hl, QrPc.uses]⟩
  · intro c hc
    have hl : cfg.lockR = true := by
      cases hb : cfg.lockR with
      | true => rfl
      | false => rw [u2 hb] at hc; cases hc
    obtain ⟨k, hk, hne⟩ := h2 c hc
    refine ⟨by simp [hk], ?_⟩
    simp only [Qr.use] at hk ⊢
    cases c with
    | conn => rcases w1 with w | ⟨n, l, w⟩ | ⟨n, l, w⟩ <;> rw [w] at hk <;> simp [QrPc.uses] at hk
    | rw =>
      cases hp : s.pc .rw <;> rw [hp] at hk <;> simp only [QrPc.uses, reduceCtorEq, Option.some.injEq, Prod.mk.injEq, false_and, true_and] at hk
      case into => exact ⟨.rwInto 1, by cases hb : s.dispatching <;> simp +contextual [Qr.step, hp, hb, Qr.at_, Qr.unlockR, hl, QrPc.uses]⟩
      case count => exact absurd hk.symm hne
      case deq => exact absurd hp w2.2
    | dis =>
      rcases w3 with w | w | w | ⟨n, l, w⟩ | ⟨n, l, w⟩ <;> rw [w] at hk <;> simp only [QrPc.uses, reduceCtorEq, Option.some.injEq, Prod.mk.injEq, false_and] at hk
      exact ⟨.disDeqDone 0 true, by by_cases hb : s.rq = 0 <;> simp +contextual [Qr.step, w, hb, Qr.at_, Qr.unlockR, hl, QrPc.uses]⟩
    | timer =>
      rcases w4 with w | w <;> rw [w] at hk <;> simp only [QrPc.uses, reduceCtorEq, Option.some.injEq, Prod.mk.injEq, true_and] at hk
      exact absurd hk.symm hne
    | app i =>
      rcases w5 i with w | w | w | ⟨n, l, w⟩ <;> rw [w] at hk <;> simp only [QrPc.uses, reduceCtorEq, Option.some.injEq, Prod.mk.injEq, false_and, true_and] at hk
      exact absurd hk.symm hne

/-- Its hypothesis is met: with lock_queue, a thread of the application is in the send queue and rw_strand has to wait. -/
example : ((Qr.exec { qrClient with lockS := true, app := true } Qr.init [.connect 1, .connSend, .connEnq, .connDone, .task, .appSend 0]).map (fun s =>
    (s.heldS, (s.step { qrClient with lockS := true, app := true } .rwOut).isSome, ((s.step { qrClient with lockS := true, app := true } (.appEnq 0)).bind (·.step { qrClient with lockS := true, app := true } .rwOut)).isSome))) =
    some (some (.app 0), false, true) := by
  decide

/-- One more greeting is too much: with two messages sent in on_connect, the second one may be put into the send queue while the end of the first write takes messages out. -/
theorem C89_fails_two_greetings : ∃ s, Qr.Reach { qrClient with greet := 2 } s ∧ ContainerOverlap s.use .send := by
  obtain ⟨s, h1, _, h2⟩ := qr_witness (cfg := { qrClient with greet := 2 }) [.connect 2, .connSend, .connEnq, .task, .rwOut, .rwOutDone 1, .connSend, .sent, .rwOut] .send .conn .rw .change (by decide) (by decide)
  exact ⟨s, h1, h2 (by decide)⟩

/-- Another thread that sends may do so while rw_strand takes messages out; and two such threads may meet. -/
theorem C89_fails_app : (∃ s, Qr.Reach { qrClient with app := true } s ∧ s.use .rw = some (.send, .change) ∧ ContainerOverlap s.use .send) ∧
    ∃ s, Qr.Reach { qrClient with app := true } s ∧ s.use (.app 0) = some (.send, .change) ∧ s.use (.app 1) = some (.send, .change) := by
  constructor
  · have h : (Qr.exec { qrClient with app := true } Qr.init [.connect 1, .connSend, .connEnq, .connDone, .task, .rwOut, .appSend 0]).map (fun s => (s.use .rw, s.use (.app 0))) =
        some (some (.send, .change), some (.send, .change)) := by decide
    rw [Option.map_eq_some_iff] at h
    obtain ⟨s, h1, h2⟩ := h
    simp only [Prod.mk.injEq] at h2
    exact ⟨s, Qr.exec_reach .init h1, h2.1, .rw, .app 0, .change, by decide, h2.1, h2.2, by decide⟩
  · have h : (Qr.exec { qrClient with app := true } Qr.init [.appSend 0, .appSend 1]).map (fun s => (s.use (.app 0), s.use (.app 1))) = some (some (.send, .change), some (.send, .change)) := by decide
    rw [Option.map_eq_some_iff] at h
    obtain ⟨s, h1, h2⟩ := h
    simp only [Prod.mk.injEq] at h2
    exact ⟨s, Qr.exec_reach .init h1, h2.1, h2.2⟩

/-- If on_msg leaves messages, dis_strand may take one out of the receive queue while rw_strand puts the next ones in. -/
theorem C89_fails_leaving : ∃ s, Qr.Reach { qrClient with leaves := true } s ∧ ContainerOverlap s.use .recv := by
  obtain ⟨s, h1, _, h2⟩ := qr_witness (cfg := { qrClient with leaves := true })
    [.connect 0, .connDone, .recv 0 true, .rwLeave, .rwInto 1, .rwCount, .rwCountDone true, .disStart 0 true, .disDeq, .recv 0 true, .rwLeave] .recv .dis .rw .change (by decide) (by decide)
  exact ⟨s, h1, h2 (by decide)⟩

/-- If the receive queue has a lock, and the messages on_msg leaves are answered in on_msg_handle, the answer may be put into the send queue while rw_strand takes messages out. -/
theorem C89_fails_replies : ∃ s, Qr.Reach { qrClient with lockR := true, leaves := true, replies := true } s ∧ ContainerOverlap s.use .send := by
  obtain ⟨s, h1, _, h2⟩ := qr_witness (cfg := { qrClient with lockR := true, leaves := true, replies := true })
    [.connect 1, .connSend, .connEnq, .connDone, .recv 0 true, .rwLeave, .rwInto 1, .rwCount, .rwCountDone true, .disStart 1 true, .disDeq, .disDeqDone 1 true, .task, .rwOut, .disSend] .send .dis .rw .change (by decide) (by decide)
  exact ⟨s, h1, h2 (by decide)⟩

/-- The server of a ping-pong test without ST_ASIO_SYNC_DISPATCH: on_msg_handle answers every message with one, there is never more than one message on its way. -/
def qrPong : QrCfg := { lockS := false, lockR := false, sync := false, leaves := false, greet := 0, replies := true, app := false, status := false }

/-- Even then the locks are needed (as the change log in config.h says): on_msg_handle has answered and returned, do_dispatch_msg was posted once more and looks for the next message while rw_strand puts that message in. The client got the
answer to its first message (`sq = 0`, the write is over) before it sent the second one. -/
theorem C89_fails_pingpong : ∃ s, Qr.Reach qrPong s ∧ s.sq = 0 ∧ s.rq = 0 ∧ s.writing = false ∧ ContainerOverlap s.use .recv := by
  have h : (Qr.exec qrPong Qr.init [.connect 0, .connDone, .task, .rwOut, .rwOutDone 0, .rwEmpty, .rwEmptyDone, .recv 0 true, .rwLeave, .rwInto 1, .rwCount, .rwCountDone true, .disStart 1 true, .disDeq, .disDeqDone 1 true, .disSend,
      .disEnq, .task, .rwOut, .rwOutDone 1, .sent, .rwOut, .rwOutDone 0, .rwEmpty, .rwEmptyDone, .disDone, .recv 0 true, .rwLeave, .disStart 0 true, .disDeq]).map
        (fun s => (s.use .rw, s.use .dis, s.sq, s.rq, s.writing)) = some (some (.recv, .change), some (.recv, .change), 0, 0, false) := by decide
  rw [Option.map_eq_some_iff] at h
  obtain ⟨s, h1, h2⟩ := h
  simp only [Prod.mk.injEq] at h2
  exact ⟨s, Qr.exec_reach .init h1, h2.2.2.1, h2.2.2.2.1, h2.2.2.2.2, .rw, .dis, .change, by decide, h2.1, h2.2.1, by decide⟩

/-- Asking for the status reads the byte count without the lock, while another thread changes it: in the example programs, and with lock_queue too. -/
theorem C89_fails_status : (∃ s, Qr.Reach { qrClient with status := true } s ∧ Overlap s.use .send) ∧
    ∃ s, Qr.Reach { qrClient with lockS := true, lockR := true, status := true } s ∧ Overlap s.use .send := by
  constructor
  · obtain ⟨s, h1, h2, _⟩ := qr_witness (cfg := { qrClient with status := true }) [.connect 1, .connSend, .appStat 0] .send .conn (.app 0) .count (by decide) (by decide)
    exact ⟨s, h1, h2⟩
  · obtain ⟨s, h1, h2, _⟩ := qr_witness (cfg := { qrClient with lockS := true, lockR := true, status := true }) [.connect 1, .connSend, .appStat 0] .send .conn (.app 0) .count (by decide) (by decide)
    exact ⟨s, h1, h2⟩

/-- handled_msg reads the byte count of the receive queue in rw_strand while dis_strand takes a message out: with lock_queue and the default dispatching, without any status request. -/
theorem C89_fails_count : ∃ s, Qr.Reach { qrPong with lockS := true, lockR := true } s ∧ Overlap s.use .recv := by
  obtain ⟨s, h1, h2, _⟩ := qr_witness (cfg := { qrPong with lockS := true, lockR := true }) [.connect 0, .connDone, .recv 0 true, .rwLeave, .rwInto 1, .disStart 0 true, .disDeq, .rwCount] .recv .dis .rw .count (by decide) (by decide)
  exact ⟨s, h1, h2⟩

end StAsio
