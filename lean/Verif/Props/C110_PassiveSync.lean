import Verif.Lemmas.PassiveSyncRest
/-!
C110: sync_recv_msg with ST_ASIO_PASSIVE_RECV. `Spec/SyncRecv` says what callers and the asynchronous way get, `spReads` counts the reads from the link.
-/
set_option autoImplicit false
namespace StAsio

/-- Each message received goes to exactly one caller, or the asynchronous way, in the order received, and calls exclude each other, as in C28. -/
theorem C110_handoff {as : List SpAct} {s : Sp} {es : List SpEv} (hr : Sp.Run Sp.any Sp.init as s es) :
    sReceived (spSync es) = sHandedOut (spSync es) ++ s.sr.temp ∧ sReturned (spSync es) ≤ sCalled (spSync es) ∧ sCalled (spSync es) ≤ sReturned (spSync es) + 1 := by
  have h := sMonitor_messages (Sp.good_run hr).mon
  have hb : s.sr.ideal.waiting.toNat ≤ 1 := Bool.toNat_le _
  refine ⟨by simpa [Sr.ideal] using h.1, ?_, ?_⟩ <;> simp at h <;> omega

/-- Nothing is read from the link unless sync_recv_msg was called for it. -/
theorem C110_asked {as : List SpAct} {s : Sp} {es : List SpEv} (hr : Sp.Run Sp.any Sp.init as s es) : spReads es ≤ sCalled (spSync es) := by
  have := (Sp.good_run hr).asked
  omega

/-- What the library and the callers do by themselves comes to rest, after at most `Sp.work` steps, and as long as it has not, it can go on. -/
theorem C110_rests {as : List SpAct} {s : Sp} {es : List SpEv} (hr : Sp.Run Sp.any Sp.init as s es) :
    (∀ a s' fs, SpAct.Internal a → s.step a = some (s', fs) → s'.work < s.work) ∧ (¬ s.AtRest → ∃ a s' fs, SpAct.Internal a ∧ s.step a = some (s', fs)) :=
  ⟨fun _ _ _ ha hs => Sp.step_work (Sp.good_run hr) ha hs, Sp.progress (Sp.good_run hr)⟩

/-- When everything has come to rest and a caller still waits on a link that is up, then a read is outstanding, and whatever it brings will be for this caller: provided that sync_recv_msg is not called before the link is established. -/
theorem C110_reads_partial {as : List SpAct} {s : Sp} {es : List SpEv} (hr : Sp.Run Sp.ready Sp.init as s es) (hq : s.AtRest) (hw : sReturned (spSync es) < sCalled (spSync es)) (hu : s.link = .up) :
    s.sr.rd = .reading ∧ ∀ ms, ((s.step (.sr (.read ms false))).bind fun r => r.1.step (.sr (.handle false))).map (·.2) = some [.sr .offered] := by
  have hg := Sp.good_run hr
  have hm := (sMonitor_messages hg.mon).2
  have hc : s.sr.caller ≠ .none := by
    intro hc
    simp [Sr.ideal, hc] at hm
    omega
  have hq1 := Sr.quiet hg.inv hq.1
  have hreq : s.sr.sr = .requested := hq1.2.resolve_left hc
  have hrd : s.sr.rd = .reading := by
    rcases (Sp.awake_run hr).1 hreq hu with h | h | h | ⟨ec, h⟩
    · have := hq.2; omega
    · exact h
    · rw [hq1.1] at h; cases h
    · rw [hq1.1] at h; cases h
  refine ⟨hrd, fun ms => ?_⟩
  have hb : s.sr.caller = .blocked := hq.1.2.1.resolve_left hc
  simp [Sp.step, Sp.may, Sr.step, SAct.noRead, Sr.locked, hb, hreq, hq1.1, hrd, Sp.idle]

/-- If callers wait as long as it takes, on a link that works, nothing goes the asynchronous way: sync_recv_msg returns everything received, once and in order. -/
theorem C110_all_partial {as : List SpAct} {s : Sp} {es : List SpEv} (hr : Sp.Run Sp.patient Sp.init as s es) :
    sReceived (spSync es) = spReturned (spSync es) ++ s.sr.temp ∧ SpEv.nothing ∉ es ∧ (s.AtRest → s.sr.temp = []) := by
  have hg := Sp.good_run hr
  have h := Sp.pat_run hr
  have h1 := (sMonitor_messages hg.mon).1
  refine ⟨?_, h.2.2, ?_⟩
  · rw [← sHandedOut_returned _ ?_]
    · simpa [Sr.ideal] using h1
    · intro ms hm
      simp only [spSync, List.mem_filterMap] at hm
      obtain ⟨e, he, hx⟩ := hm
      cases e <;> simp at hx
      subst hx
      exact h.2.1 ms he
  · intro hq
    have hq1 := Sr.quiet hg.inv hq.1
    by_cases ht : s.sr.temp = []
    · exact ht
    · exfalso
      rcases hg.inv.left ht with h2 | h2
      · rw [hq1.1] at h2; cases h2
      · have := h.1.answered h2
        rw [hq1.1] at this; cases this

/-- False of the code: a caller without a duration that calls sync_recv_msg after start() of a client and before it is connected waits although the link is up and whatever is sent to it, until the socket is closed, because neither it nor
the establishing of the link starts a read. -/
theorem C110_fails_early : ∃ as s es, Sp.Run Sp.any Sp.init as s es ∧ s.AtRest ∧ s.link = .up ∧ sReturned (spSync es) < sCalled (spSync es) ∧
    ∀ (p : Sp → SpAct → Bool) bs s' fs, (∀ x, p x (.sr .closeSet) = false) → Sp.Run p s bs s' fs → spReads fs = 0 ∧ sReturned (spSync fs) = 0 := by
  obtain ⟨s, es, hr, h⟩ := Sp.run_of (p := Sp.any) [.sr .start, .sr (.call false false), .sr .park, .connect]
    (fun s es => decide (s = { sr := { Sr.init with sr := .requested, started := true, caller := .blocked }, posted := 0, link := .up }) && decide (es = [.sr .called])) (by decide +kernel)
  simp only [Bool.and_eq_true, decide_eq_true_eq] at h
  obtain ⟨rfl, rfl⟩ := h
  refine ⟨_, _, _, hr, ⟨⟨rfl, .inr rfl, .inl rfl⟩, rfl⟩, rfl, by decide, ?_⟩
  intro p bs s' fs hp hb
  have : s'.Stuck ∧ ∀ e ∈ fs, e = .sr .duplicate := by
    induction hb with
    | nil => exact ⟨⟨rfl, by simp, rfl, rfl, rfl, rfl, rfl, rfl⟩, by simp⟩
    | snoc hb hpa hs ih =>
      have h1 := Sp.stuck_step ih.1 (by rintro rfl; simp [hp] at hpa) hs
      refine ⟨h1.1, ?_⟩
      intro e he
      rcases List.mem_append.mp he with he | he
      · exact ih.2 e he
      · exact h1.2 e he
  have h2 := this.2
  clear this hb
  induction fs with
  | nil => exact ⟨rfl, rfl⟩
  | cons e fs ih =>
    have he := h2 e (List.mem_cons_self ..)
    subst he
    have := ih fun e he => h2 e (List.mem_cons_of_mem _ he)
    simpa [spReads, spSync, sReturned] using this

/-- False of the code: with a duration, as in udp_test, a message that arrives between two calls goes to on_msg_handle although the program receives by sync_recv_msg only. -/
theorem C110_fails_mixed : ∃ as s es, Sp.Run Sp.ready Sp.init as s es ∧ spSync es = [.called, .timeout, .received [[1]], .async [[1]]] := by
  obtain ⟨s, es, hr, h⟩ := Sp.run_of (p := Sp.ready) [.sr .start, .connect, .sr (.call true false), .sr .park, .ask, .sr .timeout, .sr (.read [[1]] false), .sr (.handle false), .sr (.moveAsync false)]
    (fun _ es => decide (spSync es = [.called, .timeout, .received [[1]], .async [[1]]])) (by decide +kernel)
  exact ⟨_, s, es, hr, by simpa using h⟩

/-- Two calls without a duration, two reads; a third caller waits and a read is outstanding for it. -/
theorem C110_demo : ∃ as s es, Sp.Run (fun s a => s.ready a && s.patient a) Sp.init as s es ∧ s.AtRest ∧ s.link = .up ∧
    es = [.sr .called, .read, .sr (.received [[1], [2]]), .sr .offered, .sr (.success [[1], [2]]), .sr .called, .read, .sr (.received [[3]]), .sr .offered, .sr .duplicate, .sr (.success [[3]]), .sr .called, .read] := by
  obtain ⟨s, es, hr, h⟩ := Sp.run_of (p := fun s a => s.ready a && s.patient a)
    [.sr .start, .connect, .sr (.call false false), .sr .park, .ask, .sr (.read [[1], [2]] false), .sr (.handle false), .sr .strandPark, .sr .callerRun, .sr (.strandRun false),
      .sr (.call false false), .sr .park, .ask, .sr (.read [[3]] false), .sr (.handle false), .sr .strandPark, .sr (.call false false), .sr .callerRun, .sr (.strandRun false), .sr (.call false false), .sr .park, .ask]
    (fun s es => decide (s = { sr := { Sr.init with sr := .requested, started := true, caller := .blocked, rd := .reading }, posted := 0, link := .up }) &&
      decide (es = [.sr .called, .read, .sr (.received [[1], [2]]), .sr .offered, .sr (.success [[1], [2]]), .sr .called, .read, .sr (.received [[3]]), .sr .offered, .sr .duplicate, .sr (.success [[3]]), .sr .called, .read]))
    (by decide +kernel)
  simp only [Bool.and_eq_true, decide_eq_true_eq] at h
  obtain ⟨rfl, rfl⟩ := h
  exact ⟨_, _, _, hr, ⟨⟨rfl, .inr rfl, .inl rfl⟩, rfl⟩, rfl, rfl⟩

end StAsio
