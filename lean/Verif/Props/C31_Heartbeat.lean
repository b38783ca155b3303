import Verif.Lemmas.Heartbeat
/-!
C31: the heartbeat decision (include/socket.h). Times are full seconds, so a period of `P` seconds is recognised between `P - 1` and `P` seconds of real time.
-/
set_option autoImplicit false
namespace StAsio

/-- The configuration is sensible: positive, and the product fits into int. -/
structure HbCfg.Ok (c : HbCfg) : Prop where
  interval : 0 < c.interval
  absence : 0 < c.maxAbsence
  fits : c.interval * c.maxAbsence < 2 ^ 31

/-- **C31** (time-out decision, TCP): check_heartbeat reports a time-out exactly if the link is up, reception was started, and the full seconds since the last reception reach interval * max_absence; it returns false exactly then. -/
theorem C31_timeout {c : HbCfg} (hc : c.Ok) (hk : c.kind = .tcp) {t0 : Nat} (ht : 1000 ≤ t0) {as : List HbAct} {s : Hb} {es : List HbEv} (hr : Hb.Run c (Hb.init t0) as s es) :
    ∃ s' b fs, s.check c = some (s', b, fs) ∧ (b = false ↔ HbEv.timeout ∈ fs) ∧
      (HbEv.timeout ∈ fs ↔ linkIsUp as = true ∧ ∃ d, silentFor as = some d ∧ (s.clock - d) / 1000 + c.interval * c.maxAbsence ≤ s.clock / 1000) := by
  obtain ⟨h1, ⟨h2, h3⟩, ⟨h4, h5⟩, h6, h7⟩ := Hb.run_inv ht hr
  cases hx : silentFor as with
  | none =>
    have := h2 hx
    exact ⟨s, true, [], by simp [Hb.check, this], by simp, by simp⟩
  | some d =>
    have hd := h3 d hx
    have he := hd.2.2.2 hk
    have hpos : 0 < s.lastRecv := by omega
    cases hrd : s.ready with
    | false =>
      rw [← h6]
      exact ⟨s, true, [], by simp [Hb.check, hrd], by simp, by simp [hrd]⟩
    | true =>
      have hfit := hc.fits
      by_cases hdead : ((c.interval * c.maxAbsence : Nat) : Int) ≤ (s.time : Int) - s.lastRecv
      · refine ⟨s, false, [.timeout], ?_, by simp, ?_⟩
        · simp only [Hb.check]; rw [if_pos ⟨hpos, hrd⟩, if_pos hfit, decide_eq_true hdead, if_pos ⟨rfl, hk⟩]
        · simp only [List.mem_singleton, true_iff]
          rw [← h6]
          refine ⟨hrd, d, rfl, ?_⟩
          simp only [Hb.time] at hdead
          omega
      · refine ⟨s, true, if c.always = true ∨ ((c.interval : Int) ≤ (s.time : Int) - s.lastSend ∧ s.sending = false) then [.heartbeat] else [], ?_, ?_, ?_⟩
        · simp only [Hb.check]; rw [if_pos ⟨hpos, hrd⟩, if_pos hfit, decide_eq_false hdead]; simp
        · simp only [Bool.true_eq_false, false_iff]
          split <;> simp
        · constructor
          · intro h; revert h; split <;> simp
          · rintro ⟨_, d', hd', hle⟩
            cases hd'
            exfalso
            apply hdead
            simp only [Hb.time]
            omega

/-- **C31** (heartbeat decision, TCP): a heartbeat is sent exactly if the link is up, reception was started, the link has not timed out, nothing was sent for interval seconds and no send is in progress (without
ST_ASIO_ALWAYS_SEND_HEARTBEAT). -/
theorem C31_heartbeat {c : HbCfg} (hc : c.Ok) (hk : c.kind = .tcp) (ha : c.always = false) {t0 : Nat} (ht : 1000 ≤ t0) (ht' : 1000 * c.interval ≤ t0) {as : List HbAct} {s : Hb} {es : List HbEv} (hr : Hb.Run c (Hb.init t0) as s es) :
    ∃ s' b fs, s.check c = some (s', b, fs) ∧ (HbEv.heartbeat ∈ fs ↔ linkIsUp as = true ∧ silentFor as ≠ none ∧ HbEv.timeout ∉ fs ∧ sendInProgress as = false ∧
      ∀ d, quietFor as = some d → (s.clock - d) / 1000 + c.interval ≤ s.clock / 1000) := by
  obtain ⟨h1, ⟨h2, h3⟩, ⟨h4, h5⟩, h6, h7⟩ := Hb.run_inv ht hr
  cases hx : silentFor as with
  | none =>
    have := h2 hx
    exact ⟨s, true, [], by simp [Hb.check, this], by simp⟩
  | some d =>
    have hd := h3 d hx
    have he := hd.2.2.2 hk
    have hpos : 0 < s.lastRecv := by omega
    cases hrd : s.ready with
    | false =>
      rw [← h6]
      exact ⟨s, true, [], by simp [Hb.check, hrd], by simp [hrd]⟩
    | true =>
      have hfit := hc.fits
      by_cases hdead : ((c.interval * c.maxAbsence : Nat) : Int) ≤ (s.time : Int) - s.lastRecv
      · refine ⟨s, false, [.timeout], ?_, by simp⟩
        simp only [Hb.check]; rw [if_pos ⟨hpos, hrd⟩, if_pos hfit, decide_eq_true hdead, if_pos ⟨rfl, hk⟩]
      · refine ⟨s, true, if c.always = true ∨ ((c.interval : Int) ≤ (s.time : Int) - s.lastSend ∧ s.sending = false) then [.heartbeat] else [], ?_, ?_⟩
        · simp only [Hb.check]; rw [if_pos ⟨hpos, hrd⟩, if_pos hfit, decide_eq_false hdead]; simp
        · rw [← h6, ← h7]
          have hq : ((c.interval : Int) ≤ (s.time : Int) - s.lastSend) ↔ ∀ d, quietFor as = some d → (s.clock - d) / 1000 + c.interval ≤ s.clock / 1000 := by
            simp only [Hb.time]
            cases hy : quietFor as with
            | none =>
              have := h4 hy
              simp only [this]
              constructor
              · intro _ d hd; cases hd
              · intro _; omega
            | some q =>
              have := h5 q hy
              rw [this.2]
              constructor
              · intro h d hd; cases hd; omega
              · intro h; have := h q rfl; omega
          rw [ha, ← hq]
          by_cases hcond : (false = true) ∨ ((c.interval : Int) ≤ (s.time : Int) - s.lastSend ∧ s.sending = false)
          · rw [if_pos hcond]
            rcases hcond with h | h
            · cases h
            · simp [hrd, h]
          · rw [if_neg hcond]
            simp only [List.not_mem_nil, false_iff]
            rintro ⟨_, _, _, h8, h9⟩
            exact hcond (Or.inr ⟨h9, h8⟩)

/-- **C31** (never declared dead): a peer from which something was received within the last interval * max_absence - 1 seconds is not declared dead, TCP or UDP. -/
theorem C31_alive {c : HbCfg} (hc : c.Ok) {t0 : Nat} (ht : 1000 ≤ t0) {as : List HbAct} {s : Hb} {es : List HbEv} (hr : Hb.Run c (Hb.init t0) as s es) {d : Nat} (hd : silentFor as = some d)
    (hle : d ≤ 1000 * (c.interval * c.maxAbsence - 1)) : ∃ s' fs, s.check c = some (s', true, fs) ∧ HbEv.timeout ∉ fs := by
  obtain ⟨h1, ⟨h2, h3⟩, ⟨h4, h5⟩, h6, h7⟩ := Hb.run_inv ht hr
  have h := h3 d hd
  have hfit := hc.fits
  have hpos : 0 < c.interval * c.maxAbsence := Nat.mul_pos hc.interval hc.absence
  have hdead : ¬ ((c.interval * c.maxAbsence : Nat) : Int) ≤ (s.time : Int) - s.lastRecv := by
    simp only [Hb.time]
    generalize c.interval * c.maxAbsence = P at *
    omega
  simp only [Hb.check]
  rw [if_pos hfit, decide_eq_false hdead]
  by_cases hg : 0 < s.lastRecv ∧ s.ready = true
  · rw [if_pos hg]
    simp only [Bool.false_eq_true, false_and, if_false]
    refine ⟨_, _, rfl, ?_⟩
    simp only [List.nil_append]
    split <;> simp
  · rw [if_neg hg]
    exact ⟨_, _, rfl, by simp⟩

/-- **C31** (dead peers are detected, TCP): if nothing was received for interval * max_absence seconds on a link that is up, the next check reports it. -/
theorem C31_detects {c : HbCfg} (hc : c.Ok) (hk : c.kind = .tcp) {t0 : Nat} (ht : 1000 ≤ t0) {as : List HbAct} {s : Hb} {es : List HbEv} (hr : Hb.Run c (Hb.init t0) as s es) {d : Nat} (hd : silentFor as = some d)
    (hup : linkIsUp as = true) (hle : 1000 * (c.interval * c.maxAbsence) ≤ d) : ∃ s', s.check c = some (s', false, [.timeout]) := by
  obtain ⟨h1, ⟨h2, h3⟩, ⟨h4, h5⟩, h6, h7⟩ := Hb.run_inv ht hr
  have h := h3 d hd
  have he := h.2.2.2 hk
  have hpos : 0 < s.lastRecv := by omega
  have hdead : ((c.interval * c.maxAbsence : Nat) : Int) ≤ (s.time : Int) - s.lastRecv := by
    simp only [Hb.time]
    generalize c.interval * c.maxAbsence = P at *
    omega
  refine ⟨s, ?_⟩
  simp only [Hb.check]; rw [if_pos ⟨hpos, h6.trans hup⟩, if_pos hc.fits, decide_eq_true hdead, if_pos ⟨rfl, hk⟩]

/-- C31_alive is about receptions. Data that has arrived but was not received does not count: a peer that sends something every second is declared dead if the reads are not completed (a long message still being read) or not issued
(reception suspended because the receive buffer is full). -/
theorem C31_fails_backpressure : ∃ (c : HbCfg) (as : List HbAct) (s : Hb), c.Ok ∧ Hb.Run c (Hb.init 1000000) as s [] ∧ peerSilentFor as = some 1000 ∧ c.interval * c.maxAbsence = 3 ∧
    ∃ s', s.check c = some (s', false, [.timeout]) := by
  have h : ∃ r, Hb.exec ⟨.tcp, 1, 3, true⟩ (Hb.init 1000000) [.start, .linkUp, .recv, .pass 1000, .arrive, .pass 1000, .arrive, .pass 1000] = some r := ⟨_, rfl⟩
  obtain ⟨⟨s, es⟩, h⟩ := h
  have hr := Hb.exec_run h
  have e : some (s, es) = some _ := h.symm.trans rfl
  cases e
  exact ⟨_, _, _, ⟨by decide, by decide, by decide⟩, hr, by decide +kernel, rfl, _, rfl⟩

/-! ### the hypotheses can be met -/

/-- A TCP link that received something 14 seconds ago: alive; 15 seconds ago: dead. -/
example : ∃ s s' : Hb, Hb.Run ⟨.tcp, 5, 3, false⟩ (Hb.init 1000000) [.start, .linkUp, .pass 700, .recv, .pass 14000] s [] ∧ silentFor [.start, .linkUp, .pass 700, .recv, .pass 14000] = some 14000 ∧
    s.check ⟨.tcp, 5, 3, false⟩ = some (s, true, [.heartbeat]) ∧
    Hb.Run ⟨.tcp, 5, 3, false⟩ (Hb.init 1000000) [.start, .linkUp, .pass 700, .recv, .pass 15000] s' [] ∧ s'.check ⟨.tcp, 5, 3, false⟩ = some (s', false, [.timeout]) :=
  ⟨⟨1014700, 1000, 0, true, false⟩, ⟨1015700, 1000, 0, true, false⟩, Hb.exec_run rfl, rfl, by decide +kernel, Hb.exec_run rfl, by decide +kernel⟩

/-- From a UDP time-out on, the time of the last reception is not before it. -/
theorem Hb.after_udp_timeout {c : HbCfg} {s s' : Hb} {as : List HbAct} {es : List HbEv} {t : Nat} (h1 : t ≤ s.lastRecv) (h2 : t ≤ s.time) (hr : Hb.Run c s as s' es) : t ≤ s'.lastRecv ∧ t ≤ s'.time := by
  induction hr with
  | nil => exact ⟨h1, h2⟩
  | snoc s1 s2 as a es es' _ hs ih =>
    obtain ⟨i1, i2⟩ := ih
    cases a <;> simp only [Hb.step] at hs
    case pass d => cases hs; simp only [Hb.time] at i2 ⊢; exact ⟨i1, by omega⟩
    case check =>
      simp only [Hb.check] at hs
      split at hs
      · cases hs
      · rename_i x b fs hx
        cases hs
        split at hx
        · split at hx
          · split at hx
            · cases hx; exact ⟨i1, i2⟩
            · cases hx
              split
              · exact ⟨i2, i2⟩
              · exact ⟨i1, i2⟩
          · cases hx
        · cases hx; exact ⟨i1, i2⟩
    all_goals (cases hs; first | exact ⟨i1, i2⟩ | exact ⟨i2, i2⟩)

/-- **C31** (UDP): after a time-out the peer has the full period again: whatever happens in between, on_heartbeat_error is not called again before interval * max_absence further seconds have passed. -/
theorem C31_udp_spacing {c : HbCfg} (hk : c.kind = .udp) {s s1 s2 s3 : Hb} {as : List HbAct} {es fs gs : List HbEv} (h1 : s.step c .check = some (s1, es)) (hes : .timeout ∈ es) (hr : Hb.Run c s1 as s2 fs)
    (h2 : s2.step c .check = some (s3, gs)) (hgs : .timeout ∈ gs) : s1.clock / 1000 + c.interval * c.maxAbsence ≤ s2.clock / 1000 := by
  have k : ∀ {t t' : Hb} {l : List HbEv}, t.step c .check = some (t', l) → HbEv.timeout ∈ l →
      t'.clock = t.clock ∧ t'.lastRecv = t.time ∧ ((c.interval * c.maxAbsence : Nat) : Int) ≤ (t.time : Int) - t.lastRecv := by
    intro t t' l h hl
    simp only [Hb.step, Hb.check] at h
    split at h
    · cases h
    · rename_i x b l' hx
      cases h
      split at hx
      · split at hx
        · rw [if_neg (by rw [hk]; simp)] at hx
          cases hx
          by_cases hd : ((c.interval * c.maxAbsence : Nat) : Int) ≤ (t.time : Int) - t.lastRecv
          · refine ⟨?_, ?_, hd⟩ <;> rw [decide_eq_true hd] <;> rfl
          · exfalso
            rw [decide_eq_false hd, if_neg (by simp), List.nil_append] at hl
            split at hl <;> simp at hl
        · cases hx
      · cases hx; simp at hl
  obtain ⟨a1, a2, a3⟩ := k h1 hes
  obtain ⟨b1, b2, b3⟩ := k h2 hgs
  have h := Hb.after_udp_timeout (t := s.time) (by omega) (by simp only [Hb.time, a1]; omega) hr
  simp only [Hb.time] at h b3
  rw [a1]
  omega

/-- Non-vacuity: two time-outs of a UDP socket. -/
theorem C31_udp_demo : ∃ (s1 s2 s3 s4 : Hb) (es : List HbEv), Hb.Run ⟨.udp, 1, 3, false⟩ (Hb.init 1000000) [.start, .linkUp, .pass 3500] s1 es ∧ s1.step ⟨.udp, 1, 3, false⟩ .check = some (s2, [.timeout, .heartbeat]) ∧
    Hb.Run ⟨.udp, 1, 3, false⟩ s2 [.pass 2400, .check, .pass 100] s3 [.heartbeat] ∧ s3.step ⟨.udp, 1, 3, false⟩ .check = some (s4, [.timeout, .heartbeat]) :=
  ⟨_, _, _, _, _, Hb.exec_run rfl, rfl, Hb.exec_run rfl, rfl⟩

end StAsio
