import Verif.Lemmas.RecvDispatch2
/-!
# C25, C26, C27: dispatching received messages, and back-pressure, under every interleaving

`Rx.Run limit Rx.init as s es`: the actions `as` (of the receiving chain, the dispatching strand, the timers, users popping messages, close, reconnect and
reset) lead to the state `s`; `es` is what could be observed. `limit` is ST_ASIO_MAX_RECV_BUF. `IdealRx` (Spec/Dispatch.lean) is the ideal dispatcher.
-/
set_option autoImplicit false
namespace StAsio

instance : DecidablePred RPlainEv := fun e => by cases e <;> simp only [RPlainEv] <;> infer_instance

/-- Limit 4. Three messages arrive (one read), the receive buffer is full, so reading stops; the first message is refused twice (the retry
timer and a stale post), then all are accepted; reading is resumed, and a fourth message arrives. -/
def rxDemo : List RAct :=
  [.linkUp, .read [[1], [2, 2], [3, 3, 3]], .loadDisp, .handled, .checkTimer, .run, .begin, .ret false, .dis, .dtimer, .checkTimer, .run, .begin, .ret false, .dis,
   .dtimer, .run, .begin, .ret true, .dis, .dis, .run, .begin, .checkTimer, .resume, .read [[4]], .ret true, .dis, .loadDisp, .handled, .dis, .run, .begin, .ret true,
   .dis, .dis, .run, .begin, .ret true, .dis, .dis, .run, .run, .checkTimer, .resume]

/-- C25. Whatever the schedule, what can be observed is what the ideal dispatcher allows: messages are taken in order of arrival, a message is taken
only if none is being handled, on_msg_handle is called only for the taken message and only if it is not running, and the
message is dropped exactly when on_msg_handle returned true. -/
theorem C25_ideal_dispatcher (limit : Nat) (as : List RAct) (s : Rx) (es : List REv) (h : Rx.Run limit Rx.init as s es) :
    (IdealRx.mk [] none false).monitor es = some ⟨s.buf.items, s.cur, s.pc == .handling⟩ ∧ s.bad = false :=
  ⟨(Rx.run_inv Rx.init_inv h).2, (Rx.run_inv Rx.init_inv h).1.bad⟩

/-- C25, order and exactly once: without pop and reset the accepted messages, the one in work, and the waiting ones are, in this order, exactly the
received ones. -/
theorem C25_order (limit : Nat) (as : List RAct) (s : Rx) (es : List REv) (h : Rx.Run limit Rx.init as s es) (hp : ∀ e ∈ es, RPlainEv e) :
    rAccepted es ++ s.cur.toList ++ s.buf.items = rReceived es := by
  have := rMonitor_plain (C25_ideal_dispatcher limit as s es h).1 hp
  simpa using this.symm

/-- C25, every single call: on_msg_handle is always called with the first received message that was not accepted before. -/
theorem C25_call (limit : Nat) (as : List RAct) (s : Rx) (es1 es2 : List REv) (m : Bytes) (h : Rx.Run limit Rx.init as s (es1 ++ .call m :: es2))
    (hp : ∀ e ∈ es1, RPlainEv e) : ∃ rest, rReceived es1 = rAccepted es1 ++ m :: rest := by
  have h1 := (C25_ideal_dispatcher limit as s _ h).1
  rw [rMonitor_append] at h1
  cases h2 : (IdealRx.mk [] none false).monitor es1 with
  | none => simp [h2] at h1
  | some t =>
    simp only [h2, Option.bind_some, IdealRx.monitor, IdealRx.event] at h1
    have ht : t.taken = some m := by
      by_cases hc : t.taken = some m ∧ t.busy = false
      · exact hc.1
      · simp [hc] at h1
    have := rMonitor_plain h2 hp
    refine ⟨t.waiting, ?_⟩
    simpa [ht] using this

/-- C25, never two at the same time: at any moment at most one call of on_msg_handle has not returned. -/
theorem C25_one_at_a_time (limit : Nat) (as : List RAct) (s : Rx) (es1 es2 : List REv) (h : Rx.Run limit Rx.init as s (es1 ++ es2)) :
    rRets es1 ≤ rCalls es1 ∧ rCalls es1 ≤ rRets es1 + 1 := by
  have h1 := (C25_ideal_dispatcher limit as s _ h).1
  rw [rMonitor_append] at h1
  cases h2 : (IdealRx.mk [] none false).monitor es1 with
  | none => simp [h2] at h1
  | some t =>
    have := rMonitor_calls h2
    have hb : t.busy.toNat ≤ 1 := Bool.toNat_le _
    simp at this
    omega

/-- C25, until it is accepted: as long as the retry timer runs, a refused message is tried again. From every state with a refused message there
are internal steps (no user action, no reception) after which on_msg_handle is called with this message. -/
theorem C25_retry (limit : Nat) (as : List RAct) (s : Rx) (es : List REv) (m : Bytes) (h : Rx.Run limit Rx.init as s es)
    (hc : s.cur = some m) (hpc : s.pc = .idle) (hl : s.dlost = false) :
    ∃ as' s', Rx.Run limit s as' s' [.call m] ∧ (∀ a ∈ as', RAct.Internal a) := by
  have hi := (Rx.run_inv Rx.init_inv h).1
  have hd : s.dispatching = true := by have := hi.idle hpc; simpa [hc] using this.symm
  have hrun : ∀ t : Rx, t.posted ≠ 0 → t.pc = .idle → t.dispatching = true → t.cur = some m →
      ∃ as' s', Rx.Run limit t as' s' [.call m] ∧ (∀ a ∈ as', RAct.Internal a) := by
    intro t h1 h2 h3 h4
    have e1 : t.step limit .run = some ({ t with posted := t.posted - 1, pc := .got, bad := t.bad || t.cur.isNone }, []) := by
      simp only [Rx.step]; rw [if_neg (by simp [h1, h2]), if_pos h3]
    have e2 : Rx.step limit { t with posted := t.posted - 1, pc := .got, bad := t.bad || t.cur.isNone } .begin =
        some ({ t with posted := t.posted - 1, bad := t.bad || t.cur.isNone, dispatching := true, pc := .handling }, [.call m]) := by
      simp only [Rx.step]; rw [if_neg (by simp)]; simp [h4]
    exact ⟨_, _, Rx.run_trans (Rx.run_one e1) (Rx.run_one e2), by simp [RAct.Internal]⟩
  by_cases hp : s.posted = 0
  · have := hi.wakeD hpc hd
    simp [hp, hl] at this
    have e0 : s.step limit .dtimer = some ({ s with dtimer := false, posted := s.posted + 1 }, []) := by simp only [Rx.step]; rw [if_pos this]
    obtain ⟨as', s', hr, ha⟩ := hrun { s with dtimer := false, posted := s.posted + 1 } (by simp) hpc hd hc
    exact ⟨[.dtimer] ++ as', s', by simpa using Rx.run_trans (Rx.run_one e0) hr, by simpa [RAct.Internal] using ha⟩
  · exact hrun s hp hpc hd hc

/-- C26, the part that holds: if nothing runs and nothing is scheduled (but polling for room in the receive buffer), and the retry timer was not
stopped by a close after the last refusal, no received message waits.

Missing: after a close that stopped the retry timer, see `C26_fails_after_reconnect`. -/
theorem C26_nothing_left_partial (limit : Nat) (as : List RAct) (s : Rx) (es : List REv) (h : Rx.Run limit Rx.init as s es)
    (hq : s.Quiet limit) (hl : s.dlost = false) : s.buf.items = [] ∧ s.cur = none := Rx.quiet_empty (Rx.run_inv Rx.init_inv h).1 hq hl

/-- C26/C27, the library gets there by itself when on_msg_handle accepts: from every reachable state the internal steps lead, in a number of steps bounded by the
work left, to a state where nothing is left to do; everything received has then been accepted, and if reception was going on or suspended, the socket is reading
again. -/
theorem C26_drains_partial (limit : Nat) (hlim : 0 < limit) (as : List RAct) (s : Rx) (es : List REv) (h : Rx.Run limit Rx.init as s es) (hl : s.dlost = false)
    (hp : ∀ e ∈ es, RPlainEv e) :
    ∃ as' s' es', Rx.Run limit s as' s' es' ∧ (∀ a ∈ as', RAct.Internal a) ∧ as'.length ≤ s.work ∧ s'.Quiet limit ∧
      rAccepted (es ++ es') = rReceived (es ++ es') ∧ rReceived es' = [] ∧ (s.rd ≠ .off → s'.rd = .reading) := by
  have hi := (Rx.run_inv Rx.init_inv h).1
  obtain ⟨as', s', es', hr, ha, hq, hlen⟩ := Rx.drain limit s.work s hi (Nat.le_refl _)
  obtain ⟨i1, i2, i3, i4⟩ := Rx.internal_run hr ha
  have he := Rx.quiet_empty (Rx.run_inv hi hr).1 hq (i1 hl)
  refine ⟨as', s', es', hr, ha, hlen, hq, ?_, i3, ?_⟩
  · have := C25_order limit (as ++ as') s' (es ++ es') (Rx.run_trans h hr) (by
      intro e hm
      rw [List.mem_append] at hm
      rcases hm with hm | hm
      · exact hp e hm
      · exact i4 e hm)
    simpa [he.1, he.2] using this
  · intro hrd
    have := i2 hrd
    rcases hq.2.2.2 with h1 | h1 | ⟨_, h1⟩
    · exact h1
    · exact absurd h1 this
    · have hex := (Rx.run_inv hi hr).1.exact
      simp only [Rx.available, Q.Exact, he.1, sumSize] at h1 hex
      simp [hex] at h1
      omega

/-- C26, no livelock: an internal step either leaves less work, or it is the poll of the receive buffer that finds it still full. -/
theorem C26_no_livelock (limit : Nat) (as : List RAct) (s : Rx) (es : List REv) (h : Rx.Run limit Rx.init as s es) (a : RAct) (s' : Rx) (es' : List REv)
    (ha : a.Internal) (hs : s.step limit a = some (s', es')) : s'.work < s.work ∨ (a = .checkTimer ∧ s' = s) :=
  Rx.step_work (Rx.run_inv Rx.init_inv h).1 ha hs

/-- Non-vacuity: the run above is possible, refuses, polls, resumes, and ends quiet. -/
example : ∃ s es, Rx.Run 4 Rx.init rxDemo s es ∧ s.Quiet 4 ∧ s.dlost = false ∧ (∀ e ∈ es, RPlainEv e) ∧ s.rd = .reading ∧
    rAccepted es = [[1], [2, 2], [3, 3, 3], [4]] ∧ rCalls es = 6 := by
  have h : ∃ r, Rx.exec 4 Rx.init rxDemo = some r := by exact ⟨_, rfl⟩
  obtain ⟨⟨s, es⟩, h⟩ := h
  have hr := Rx.exec_run h
  have e : some (s, es) = some _ := h.symm.trans rfl
  cases e
  refine ⟨_, _, hr, ?_, by decide, ?_, by decide, by decide, by decide⟩
  · unfold Rx.Quiet; decide
  · intro e he
    revert e
    decide

/-- Non-vacuity of C25_retry. -/
example : ∃ s es, Rx.Run 4 Rx.init (rxDemo.take 9) s es ∧ s.cur = some [1] ∧ s.pc = .idle ∧ s.dlost = false := by
  have h : ∃ r, Rx.exec 4 Rx.init (rxDemo.take 9) = some r := by exact ⟨_, rfl⟩
  obtain ⟨⟨s, es⟩, h⟩ := h
  have hr := Rx.exec_run h
  have e : some (s, es) = some _ := h.symm.trans rfl
  cases e
  exact ⟨_, _, hr, by decide, by decide, by decide⟩

/-- C26 is false of the code after a reconnect: a client socket refuses a message, the link breaks (close stops the retry timer), the client
reconnects without reset(): `dispatching` is still true, so nothing received later is ever dispatched, although the socket is up and reading, and nothing
is scheduled. -/
theorem C26_fails_after_reconnect : ∃ as s es, Rx.Run 100 Rx.init as s es ∧ s.Quiet 100 ∧ s.rd = .reading ∧ s.cur = some [1] ∧ s.buf.items = [[2], [3]] ∧
    (∀ as' s' es', Rx.Run 100 s as' s' es' → (∀ a ∈ as', a.Internal ∨ ∃ ms, a = .read ms) → rCalls es' = 0) := by
  have h : ∃ r, Rx.exec 100 Rx.init [.linkUp, .read [[1]], .loadDisp, .handled, .run, .begin, .ret false, .dis, .readError, .loseDispatch, .linkUp,
    .read [[2]], .loadDisp, .handled, .read [[3]], .loadDisp, .handled] = some r := by exact ⟨_, rfl⟩
  obtain ⟨⟨s, es⟩, h⟩ := h
  have hr := Rx.exec_run h
  have e : some (s, es) = some _ := h.symm.trans rfl
  cases e
  refine ⟨_, _, _, hr, ?_, by decide, by decide, by decide, ?_⟩
  · unfold Rx.Quiet; decide
  · intro as' s' es' hr' ha
    have key : ∀ (s0 s' : Rx) as' es', Rx.Run 100 s0 as' s' es' → (∀ a ∈ as', a.Internal ∨ ∃ ms, a = .read ms) →
        (s0.posted = 0 ∧ s0.pc = .idle ∧ s0.dtimer = false ∧ s0.dispatching = true) →
        rCalls es' = 0 ∧ (s'.posted = 0 ∧ s'.pc = .idle ∧ s'.dtimer = false ∧ s'.dispatching = true) := by
      intro s0 s' as' es' hr
      induction hr with
      | nil => intro _ h; exact ⟨rfl, h⟩
      | snoc s1 s2 as a es es' hr hs ih =>
        intro ha h0
        obtain ⟨ih1, p1, p2, p3, p4⟩ := ih (fun x hx => ha x (by simp [hx])) h0
        have ha := ha a (by simp)
        have : rCalls (es ++ es') = rCalls es + rCalls es' := by
          clear ih1 ih hs hr
          induction es with
          | nil => simp [rCalls]
          | cons e es ih => cases e <;> simp [rCalls, ih]; omega
        rw [this, ih1]
        cases a <;> simp [RAct.Internal] at ha <;> simp only [Rx.step] at hs
        · split at hs
          · cases hs
          · split at hs
            · cases hs; simp [rCalls, p1, p2, p3, p4]
            · split at hs <;> (cases hs; simp [rCalls, p1, p2, p3, p4])
        · split at hs
          · cases hs
          · cases hs; simp [rCalls, p1, p2, p3, p4]
        · split at hs
          · cases hs
          · cases hs; simp [rCalls, p1, p2, p3, p4]
        · split at hs
          · cases hs
          · cases hs; simp [rCalls, p1, p2, p3, p4]
        · split at hs
          · cases hs
          · cases hs; simp [rCalls, p1, p2, p3, p4]
        · simp [p1] at hs
        · simp [p2] at hs
        · simp [p2] at hs
        · simp [p2] at hs
        · simp [p3] at hs
    exact (key _ _ _ _ hr' ha ⟨by decide, by decide, by decide, by decide⟩).1

/-- C27, the bound: if every read yields at most `r` bytes and the link came up `n` times, the receive buffer never holds more than
`limit - 1 + n * r` bytes. So within the first link it is `limit - 1` plus one read. (Hypothesis: sizes fit in size_t.) -/
theorem C27_bound (limit r : Nat) (as : List RAct) (s : Rx) (es : List REv) (h : Rx.Run limit Rx.init as s es) (hw : ReadsWithin r as)
    (hn : limit + rLinks as * r < 2 ^ 64) : sumSize rsz s.buf.items ≤ limit - 1 + rLinks as * r := (Rx.run_bnd h hw hn).all

/-- C27, the claim itself, for a socket whose link came up once: pending bytes never exceed limit - 1 + one read.

Missing: the same bound after reconnects; it is false, see `C27_fails_after_reconnects`. -/
theorem C27_bound_one_link_partial (limit r : Nat) (as : List RAct) (s : Rx) (es : List REv) (h : Rx.Run limit Rx.init as s es) (hw : ReadsWithin r as)
    (h1 : rLinks as ≤ 1) (hn : limit + r < 2 ^ 64) : sumSize rsz s.buf.items ≤ limit - 1 + r := by
  have h2 : rLinks as * r ≤ 1 * r := Nat.mul_le_mul_right _ h1
  have := C27_bound limit r as s es h hw (by omega)
  omega

/-- C27, reception stops only at the limit: when a read has been handled, the next one is started at once if and only if less than `limit` bytes wait. -/
theorem C27_stops_iff (limit : Nat) (as : List RAct) (s s' : Rx) (es es' : List REv) (h : Rx.Run limit Rx.init as s es)
    (hs : s.step limit .handled = some (s', es')) (hn : sumSize rsz s.buf.items < 2 ^ 64) :
    (s'.rd = .reading ↔ sumSize rsz s.buf.items < limit) ∧ (s'.rd = .timer ↔ limit ≤ sumSize rsz s.buf.items) := by
  have he := (Rx.run_inv Rx.init_inv h).1.exact
  unfold Q.Exact at he
  rw [Nat.mod_eq_of_lt hn] at he
  simp only [Rx.step] at hs
  split at hs
  · cases hs
  · cases hs
    simp only [Rx.available, he]
    by_cases hc : sumSize rsz s.buf.items < limit
    · simp [hc]
    · simp [hc]; omega

/-- C27, reception is never stopped for good: whenever reception is suspended, it is resumed by internal steps, and at the latest when all was accepted.

Missing: the case of `C26_fails_after_reconnect`, where nothing is dispatched any more, so the buffer stays full. -/
theorem C27_resumes_partial (limit : Nat) (hlim : 0 < limit) (as : List RAct) (s : Rx) (es : List REv) (h : Rx.Run limit Rx.init as s es) (hl : s.dlost = false)
    (hrd : s.rd ≠ .off) : ∃ as' s' es', Rx.Run limit s as' s' es' ∧ (∀ a ∈ as', RAct.Internal a) ∧ as'.length ≤ s.work ∧ s'.rd = .reading := by
  have hi := (Rx.run_inv Rx.init_inv h).1
  obtain ⟨as', s', es', hr, ha, hq, hlen⟩ := Rx.drain limit s.work s hi (Nat.le_refl _)
  obtain ⟨i1, i2, i3, i4⟩ := Rx.internal_run hr ha
  have he := Rx.quiet_empty (Rx.run_inv hi hr).1 hq (i1 hl)
  refine ⟨as', s', es', hr, ha, hlen, ?_⟩
  rcases hq.2.2.2 with h1 | h1 | ⟨_, h1⟩
  · exact h1
  · exact absurd h1 (i2 hrd)
  · have hex := (Rx.run_inv hi hr).1.exact
    simp only [Rx.available, Q.Exact, he.1, sumSize] at h1 hex
    simp [hex] at h1
    omega

/-- Non-vacuity: with limit 4 the run `rxDemo` has one link and reads within 6 bytes; after its first read the buffer holds 6 > 4 bytes and reception waits. -/
example : rLinks rxDemo ≤ 1 ∧ ReadsWithin 6 rxDemo ∧ ∃ s es, Rx.Run 4 Rx.init (rxDemo.take 4) s es ∧ s.rd = .timer ∧ sumSize rsz s.buf.items = 6 := by
  refine ⟨by decide, ?_, ?_⟩
  · intro ms hm
    simp [rxDemo] at hm
    rcases hm with rfl | rfl <;> decide
  · have h : ∃ r, Rx.exec 4 Rx.init (rxDemo.take 4) = some r := by exact ⟨_, rfl⟩
    obtain ⟨⟨s, es⟩, h⟩ := h
    have hr := Rx.exec_run h
    have e : some (s, es) = some _ := h.symm.trans rfl
    cases e
    exact ⟨_, _, hr, by decide, by decide⟩

/-- C27's bound is false after reconnects: do_start() receives without looking at the receive buffer, so each reconnect can add one more read. Limit 4, reads of 5
bytes, three links: 10 > 4 - 1 + 5. -/
theorem C27_fails_after_reconnects : ∃ as s es, Rx.Run 4 Rx.init as s es ∧ ReadsWithin 5 as ∧ 4 - 1 + 5 < sumSize rsz s.buf.items := by
  have h : ∃ r, Rx.exec 4 Rx.init [.linkUp, .read [[1, 1, 1, 1, 1]], .loadDisp, .handled, .run, .begin, .ret false, .dis, .loseDispatch, .loseCheck, .linkUp,
    .read [[2, 2, 2, 2, 2]], .loadDisp, .handled, .loseCheck, .linkUp, .read [[3, 3, 3, 3, 3]]] = some r := by exact ⟨_, rfl⟩
  obtain ⟨⟨s, es⟩, h⟩ := h
  have hr := Rx.exec_run h
  have e : some (s, es) = some _ := h.symm.trans rfl
  cases e
  refine ⟨_, _, _, hr, ?_, by decide⟩
  intro ms hm
  simp at hm
  rcases hm with rfl | rfl | rfl <;> decide

end StAsio
