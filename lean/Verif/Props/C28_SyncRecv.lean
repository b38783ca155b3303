import Verif.Lemmas.SyncRecv
/-!
# C28: the synchronous receive hand-off under every interleaving

`Sr.Run Sr.init as s es`: the actions `as` (of callers of sync_recv_msg, the receiving strand, time-outs, spurious wake-ups, close and restart) lead to the state `s`; `es`
is what could be observed. `IdealSr` (Spec/SyncRecv.lean) is the ideal hand-off.
-/
set_option autoImplicit false
namespace StAsio

/-- A caller waits, a batch is handed over to it while a second caller gets DUPLICATE; the next batch, with nobody waiting, goes the asynchronous way; a third caller
times out, a fourth one is released by an error on the connection, which is then closed. -/
def srDemo : List SAct :=
  [.start, .call false false, .park, .read [[1], [2]] false, .handle false, .strandPark, .call true false, .callerRun, .strandRun false, .read [[3]] false, .handle true,
   .moveAsync true, .resumeRead, .call true false, .park, .timeout, .call false false, .park, .readFail, .handle false, .strandPark, .callerRun, .strandRun false,
   .closeSet, .closeNotify]

/-- C28. Whatever the schedule, what can be observed is what the ideal hand-off allows. -/
theorem C28_ideal_handoff (as : List SAct) (s : Sr) (es : List SEv) (h : Sr.Run Sr.init as s es) :
    (IdealSr.mk [] false false).monitor es = some ⟨s.temp, s.caller != .none, s.sr == .responded⟩ := (Sr.run_inv Sr.init_inv h).2

/-- C28: each message received goes to exactly one caller, or the asynchronous way, in the order received; none is lost, none is handed out twice. -/
theorem C28_exactly_once (as : List SAct) (s : Sr) (es : List SEv) (h : Sr.Run Sr.init as s es) : sReceived es = sHandedOut es ++ s.temp := by
  have := (sMonitor_messages (C28_ideal_handoff as s es h)).1
  simpa using this

/-- C28: once nothing runs any more, everything received has been handed out. -/
theorem C28_all_handed_out (as : List SAct) (s : Sr) (es : List SEv) (h : Sr.Run Sr.init as s es) (hq : s.Quiet) : sReceived es = sHandedOut es := by
  have hi := (Sr.run_inv Sr.init_inv h).1
  have h1 := C28_exactly_once as s es h
  have ht : s.temp = [] := by
    rcases Classical.em (s.temp = []) with ht | ht
    · exact ht
    · have hq' := Sr.quiet hi hq
      rcases hi.left ht with h2 | h2
      · rw [hq'.1] at h2; cases h2
      · have h3 := hi.resp (Or.inl h2)
        rcases hq'.2 with h4 | h4
        · rw [h3] at h4; cases h4
        · rw [h2] at h4; cases h4
  simpa [ht] using h1

/-- C28: at most one caller is admitted at any moment. -/
theorem C28_one_caller (as : List SAct) (s : Sr) (es1 es2 : List SEv) (h : Sr.Run Sr.init as s (es1 ++ es2)) :
    sReturned es1 ≤ sCalled es1 ∧ sCalled es1 ≤ sReturned es1 + 1 := by
  have h1 := C28_ideal_handoff as s _ h
  rw [sMonitor_append] at h1
  cases h2 : (IdealSr.mk [] false false).monitor es1 with
  | none => simp [h2] at h1
  | some t =>
    have := (sMonitor_messages h2).2
    have hb : t.waiting.toNat ≤ 1 := Bool.toNat_le _
    simp at this
    omega

/-- C28: a call made while another one is admitted returns DUPLICATE and changes nothing; a call made while nobody is admitted does not. -/
theorem C28_duplicate (as : List SAct) (s s' : Sr) (es es' : List SEv) (timed : Bool) (h : Sr.Run Sr.init as s es)
    (hs : s.step (.call timed false) = some (s', es')) :
    (sReturned es < sCalled es → es' = [.duplicate] ∧ s' = s) ∧ (sReturned es = sCalled es → .duplicate ∉ es') := by
  have hi := (Sr.run_inv Sr.init_inv h).1
  have h2 := (sMonitor_messages (C28_ideal_handoff as s es h)).2
  simp at h2
  simp only [Sr.step] at hs
  by_cases hl : s.locked = true
  · simp [hl] at hs
  · simp only [Bool.false_eq_true, if_false, hl] at hs
    constructor
    · intro hlt
      have hne : s.sr ≠ .notRequested := by
        intro hc
        have := hi.active.2 hc
        simp [this] at h2
        omega
      rw [if_pos hne] at hs
      cases hs
      exact ⟨rfl, rfl⟩
    · intro heq
      have hno : s.caller = .none := by
        cases hc : s.caller <;> simp_all
      have hsr := hi.active.1 hno
      rw [if_neg (by simp [hsr])] at hs
      simp only [Sr.callerCheck, Sr.finish] at hs
      cases hst : s.started <;> simp [hst] at hs <;> obtain ⟨rfl, rfl⟩ := hs <;> simp

/-- C28: TIMEOUT and NOT_APPLICABLE are returned only by a call to which nothing was handed over: if the strand answered with messages, a SUCCESS comes before the
next TIMEOUT or NOT_APPLICABLE. -/
theorem C28_timeout (as : List SAct) (s : Sr) (es1 es2 es3 : List SEv) (r : SEv) (hr : r = .timeout ∨ r = .notApplicable)
    (h : Sr.Run Sr.init as s (es1 ++ .offered :: (es2 ++ r :: es3))) : ∃ ms, .success ms ∈ es2 := by
  have h1 := C28_ideal_handoff as s _ h
  rw [sMonitor_append] at h1
  cases h2 : (IdealSr.mk [] false false).monitor es1 with
  | none => simp [h2] at h1
  | some t =>
    simp only [h2, Option.bind_some, IdealSr.monitor, IdealSr.event] at h1
    by_cases hc : t.waiting = true ∧ t.answered = false
    · simp only [hc, and_self, if_true] at h1
      refine sMonitor_answered (t := { t with answered := true }) (es' := es3) hr hc.1 rfl ?_
      rw [hc.1, h1]; simp
    · simp [hc] at h1

/-- C28, no deadlock: every run of internal steps is finite, and as long as not all is quiet there is one more. When all is quiet, the strand is not
waiting for anybody, and a caller that still waits has not been answered. -/
theorem C28_no_deadlock (as : List SAct) (s : Sr) (es : List SEv) (h : Sr.Run Sr.init as s es) :
    ∀ as' s' es', Sr.Run s as' s' es' → (∀ a ∈ as', SAct.Internal a) →
      as'.length ≤ s.work ∧ (¬ s'.Quiet → ∃ a s'' es'', SAct.Internal a ∧ s'.step a = some (s'', es'')) ∧
      (s'.Quiet → s'.strand = .idle ∧ (s'.caller = .none ∨ s'.sr = .requested)) := by
  intro as' s' es' hr ha
  have hi := (Sr.run_inv Sr.init_inv h).1
  have hi' := (Sr.run_inv hi hr).1
  exact ⟨by have := Sr.run_work hi hr ha; omega, Sr.progress hi', Sr.quiet hi'⟩

/-- C28, errors release: when a read fails (as an outstanding one does when the socket is closed), then once all is quiet nobody waits. -/
theorem C28_error_releases (as : List SAct) (s : Sr) (es : List SEv) (h : Sr.Run Sr.init as s es) (he : s.strand = .erring)
    (as' : List SAct) (s' : Sr) (es' : List SEv) (hr : Sr.Run s as' s' es') (ha : ∀ a ∈ as', SAct.Internal a) (hq : s'.Quiet) : s'.caller = .none := by
  have hi := (Sr.run_inv (Sr.run_inv Sr.init_inv h).1 hr).1
  have h1 := Sr.err_run hr ha (Or.inl he)
  have h2 := Sr.quiet hi hq
  rcases h2.2 with h3 | h3
  · exact h3
  · rw [h2.1, h3] at h1; simp at h1

/-- C28, close releases every waiter - unless its notification fell into the moment between the waiter's test and its blocking.

Missing: that moment, see `C28_fails_close`. -/
theorem C28_close_releases_partial (as : List SAct) (s : Sr) (es : List SEv) (h : Sr.Run Sr.init as s es) (hc : s.started = false) (hq : s.Quiet)
    (hl : s.late = false) : s.caller = .none := by
  have hi := (Sr.run_inv Sr.init_inv h).1
  rcases hq.2.1 with h1 | h1
  · exact h1
  · have := hi.late hc hq.1 (Or.inl h1); rw [hl] at this; cases this

/-- C28: the strand never touches the received messages while a caller may take them, unless the socket was started again before an answered caller woke up.

Missing: that case, see `C28_fails_restart`. -/
theorem C28_no_race_partial (as : List SAct) (s : Sr) (es : List SEv) (h : Sr.Run Sr.init as s es) (ho : s.overlap = false) : s.race = false :=
  (Sr.run_inv Sr.init_inv h).1.race ho

theorem srDemo_run : ∃ s es, Sr.Run Sr.init srDemo s es ∧ s.Quiet ∧ s.started = false ∧ s.late = false ∧ s.overlap = false ∧ s.caller = .none ∧
    es = [.called, .received [[1], [2]], .offered, .duplicate, .success [[1], [2]], .received [[3]], .async [[3]], .called, .timeout, .called, .notApplicable, .recvError] := by
  have h : ∃ r, Sr.exec Sr.init srDemo = some r := by exact ⟨_, rfl⟩
  obtain ⟨⟨s, es⟩, h⟩ := h
  have hr := Sr.exec_run h
  have e : some (s, es) = some _ := h.symm.trans rfl
  cases e
  exact ⟨_, _, hr, ⟨by decide, Or.inl (by decide), Or.inl (by decide)⟩, by decide, by decide, by decide, by decide, by decide⟩

/-- Non-vacuity: the run is possible (so the hypotheses of the theorems above can be met), and a state with a failed read and a waiting caller can be reached. -/
example : ∃ s es, Sr.Run Sr.init (srDemo.take 19) s es ∧ s.strand = .erring ∧ s.caller = .blocked := by
  have h : ∃ r, Sr.exec Sr.init (srDemo.take 19) = some r := by exact ⟨_, rfl⟩
  obtain ⟨⟨s, es⟩, h⟩ := h
  have hr := Sr.exec_run h
  have e : some (s, es) = some _ := h.symm.trans rfl
  cases e
  exact ⟨_, _, hr, by decide, by decide⟩

/-- "Closing releases every waiter" is false of the code: close() neither takes the mutex when it clears `started_` nor when it notifies. If this falls between the caller's
test and its blocking, and no read is outstanding (reception was suspended because the receive buffer was full), the caller waits for ever, and all
later callers get DUPLICATE. -/
theorem C28_fails_close : ∃ as s es, Sr.Run Sr.init as s es ∧ s.started = false ∧ s.Quiet ∧ s.rd = .off ∧ s.caller = .blocked ∧ s.timed = false ∧
    s.step (.call false false) = some (s, [.duplicate]) := by
  have h : ∃ r, Sr.exec Sr.init [.start, .read [[1]] false, .handle true, .moveAsync true, .call false false, .closeSet, .closeNotify, .park] = some r := by exact ⟨_, rfl⟩
  obtain ⟨⟨s, es⟩, h⟩ := h
  have hr := Sr.exec_run h
  have e : some (s, es) = some _ := h.symm.trans rfl
  cases e
  exact ⟨_, _, _, hr, by decide, ⟨by decide, Or.inr (by decide), Or.inl (by decide)⟩, by decide, by decide, by decide, by decide⟩

/-- If the socket is closed and started again before an answered caller woke up, the strand writes the received messages to the list the caller is about to take: a data race. In
this run the caller also gets SUCCESS without any message. -/
theorem C28_fails_restart : ∃ as s es, Sr.Run Sr.init as s es ∧ s.race = true ∧ SEv.success [] ∈ es := by
  have h : ∃ r, Sr.exec Sr.init [.start, .call false false, .park, .read [[1]] false, .handle false, .strandPark, .closeSet, .closeNotify, .strandRun false, .start,
    .read [[2]] false, .handle false, .moveAsync false, .callerRun] = some r := by exact ⟨_, rfl⟩
  obtain ⟨⟨s, es⟩, h⟩ := h
  have hr := Sr.exec_run h
  have e : some (s, es) = some _ := h.symm.trans rfl
  cases e
  exact ⟨_, _, _, hr, by decide, by decide⟩

/-- SUCCESS does not mean there is a message: a read that completes no message (a part of one, or heartbeats) releases the caller with an empty list. -/
theorem C28_success_may_be_empty : ∃ as s es, Sr.Run Sr.init as s es ∧ es = [.called, .offered, .success []] := by
  have h : ∃ r, Sr.exec Sr.init [.start, .call false false, .park, .read [] false, .handle false, .strandPark, .callerRun, .strandRun false] = some r := by exact ⟨_, rfl⟩
  obtain ⟨⟨s, es⟩, h⟩ := h
  have hr := Sr.exec_run h
  have e : some (s, es) = some _ := h.symm.trans rfl
  cases e
  exact ⟨_, _, _, hr, by decide⟩

/-- The strand works on a read that failed, on_recv_error has not been called for it yet. -/
def SPc.failing : SPc → Nat
  | .idle => 0
  | .parsed ec | .parking ec | .blocked ec | .woken ec | .async ec => if ec then 1 else 0
  | .erring | .eparking | .eblocked | .ewoken => 1

/-- Reads completed with an error, with or without data. -/
def SAct.fails : SAct → Nat
  | .read _ true => 1
  | .readFail => 1
  | _ => 0

theorem Sr.step_failing {s s' : Sr} {a : SAct} {es : List SEv} (h : s.step a = some (s', es)) : s.strand.failing + a.fails = es.count .recvError + s'.strand.failing := by
  cases a <;> simp only [Sr.step, Sr.callerCheck, Sr.finish, Sr.notifyStrand, Sr.notifyCaller, Sr.strandCheck, Sr.errCheck, Sr.leave] at h <;> (repeat' split at h) <;> (try cases h) <;>
    simp_all (config := { decide := true }) [SPc.failing, SAct.fails] <;> grind [SPc.failing, SAct.fails]

/-- C28: on_recv_error is called once for each read that failed, whether or not somebody waits for messages, and for nothing else; at most one such call is still to come. -/
theorem C28_error_reported (as : List SAct) (s : Sr) (es : List SEv) (h : Sr.Run Sr.init as s es) : (as.map SAct.fails).sum = es.count .recvError + s.strand.failing ∧ s.strand.failing ≤ 1 := by
  refine ⟨?_, by cases s.strand <;> simp only [SPc.failing] <;> (try split) <;> omega⟩
  induction h with
  | nil => rfl
  | snoc s1 s2 as a es es' _ hs ih =>
    have := Sr.step_failing hs
    simp only [List.map_append, List.sum_append, List.map_cons, List.map_nil, List.sum_cons, List.sum_nil, List.count_append]
    omega

end StAsio
