import Verif.Lemmas.UdpHeartbeat
import Verif.Model.Packer
import Verif.Lemmas.Simple
/-!
# C107: heartbeats of UDP sockets over a network that loses datagrams

`cT` and `cL` are the settings of the talker and the listener (interval in seconds, max_absence, always), `n` bounds the delays and the losses (Spec/UdpHeartbeat.lean). `Ub.Run cT cL n (Ub.init a b) as s es`: the actions `as` of the programs,
the library, the kernels and the network, in any order and at any time the bounds allow, lead to `s`; `es` tells when the listener started, received a datagram and called on_heartbeat_error. The clocks show `a` and `b` ms at first.
-/
set_option autoImplicit false
namespace StAsio

/-- C107, no false alarm: if the talker's interval is short enough for the delays and the losses of the network, the listener never reports that the peer is not available. -/
theorem C107_quiet {cT cL : HbCfg} (hcT : USettings cT) (hcL : USettings cL) {n : UbNet} (hK : 0 < n.K) {a b : Nat} (ha : 1000 ≤ a) (hb : 1000 ≤ b)
    (hlong : longestSilence n cT.interval + 1000 ≤ 1000 * (cL.interval * cL.maxAbsence)) {as : List UbAct} {s : Ub} {es : List UbEv} (hr : Ub.Run cT cL n (Ub.init a b) as s es) (t : Nat) : UbEv.warn t ∉ es := by
  generalize he : Ub.init a b = s0 at hr
  induction hr with
  | nil => simp
  | snoc s1 s2 as act es fs h0 hs ih =>
    subst he
    simp only [List.mem_append, not_or]
    refine ⟨ih, ?_⟩
    have hi := Ub.inv_run hcT hcL hK ha hb h0
    cases act with
    | checkL =>
      simp only [Ub.step] at hs
      split at hs
      · rename_i hg
        have hc := hi.1.1
        obtain ⟨l1, l2, l3, r, l4, l5, l6, l7⟩ := hi.1.2.2 hg.1
        obtain ⟨h', ev, c1, c2, c3, c4, c5, c6, c7, c8, c9⟩ := Hb.check_udp hcL (h := s1.ls) (by omega) l1
        rw [c1] at hs
        simp only [Option.some.injEq, Prod.mk.injEq] at hs
        obtain ⟨rfl, rfl⟩ := hs
        have := hi.silence l4
        rw [if_neg (by rw [c6]; omega)]
        simp
      · cases hs
    | pass d | startT d | startL d | heard | deliver i | stray => simp only [Ub.step] at hs; split at hs <;> cases hs <;> simp
    | send ar =>
      simp only [Ub.step] at hs
      split at hs
      · simp only [Option.map_eq_some_iff] at hs
        obtain ⟨_, _, he⟩ := hs
        cases he; simp
      · cases hs
    | sent ok ar =>
      simp only [Ub.step] at hs
      split at hs
      · cases hs
      · split at hs
        · simp only [Option.map_eq_some_iff] at hs
          obtain ⟨_, _, he⟩ := hs
          cases he; simp
        · cases hs; simp
    | checkT ar =>
      simp only [Ub.step] at hs
      split at hs
      · split at hs
        · cases hs
        · split at hs
          · simp only [Option.map_eq_some_iff] at hs
            obtain ⟨_, _, he⟩ := hs
            cases he; simp
          · cases hs; simp
      · cases hs

/-- C107, a peer that is gone is noticed, again and again: the listener's last news (its start, a datagram, or a report that the peer is not available) is never older than interval * (max_absence + 1) and the delay of a timer. -/
theorem C107_noticed {cT cL : HbCfg} (hcT : USettings cT) (hcL : USettings cL) {n : UbNet} (hK : 0 < n.K) {a b : Nat} (ha : 1000 ≤ a) (hb : 1000 ≤ b) {as : List UbAct} {s : Ub} {es : List UbEv}
    (hr : Ub.Run cT cL n (Ub.init a b) as s es) (r : Nat) (h : heardAt es = some r) : s.now ≤ r + 1000 * (cL.interval * (cL.maxAbsence + 1)) + n.J := by
  have hi := Ub.inv_run hcT hcL hK ha hb hr
  have hu : s.upL = true := by
    cases hu : s.upL with
    | true => rfl
    | false => have := hi.1.2.1 hu; rw [h] at this; cases this
  obtain ⟨l1, l2, l3, r', l4, l5, l6, l7⟩ := hi.1.2.2 hu
  rw [h] at l4
  cases l4
  rw [Nat.mul_add, Nat.mul_one, Nat.mul_add]
  omega

/-- C107, the truth of the report: between it and the news before there is a silence of interval * max_absence, up to the second the clock counts. -/
theorem C107_truthful {cT cL : HbCfg} (hcT : USettings cT) (hcL : USettings cL) {n : UbNet} (hK : 0 < n.K) {a b : Nat} (ha : 1000 ≤ a) (hb : 1000 ≤ b) {as : List UbAct} {s : Ub} {es : List UbEv}
    (hr : Ub.Run cT cL n (Ub.init a b) as s es) (pre post : List UbEv) (t : Nat) (h : es = pre ++ .warn t :: post) : ∃ r, heardAt pre = some r ∧ r + 1000 * (cL.interval * cL.maxAbsence) < t + 1000 := by
  generalize he : Ub.init a b = s0 at hr
  induction hr generalizing post with
  | nil => simp at h
  | snoc s1 s2 as act es fs h0 hs ih =>
    subst he
    by_cases hin : ∃ p, es = pre ++ .warn t :: p
    · obtain ⟨p, hp⟩ := hin
      exact ih p hp
    have hi := Ub.inv_run hcT hcL hK ha hb h0
    have hlen : es.length ≤ pre.length := by
      apply Nat.le_of_not_lt
      intro hlt
      apply hin
      have h2 := congrArg (List.take es.length) h
      rw [List.take_left, List.take_append] at h2
      rw [List.take_of_length_le (Nat.le_of_lt hlt)] at h2
      obtain ⟨k, hk⟩ : ∃ k, es.length - pre.length = k + 1 := ⟨es.length - pre.length - 1, by omega⟩
      rw [hk, List.take_succ_cons] at h2
      exact ⟨_, h2⟩
    obtain ⟨mid, hmid⟩ : ∃ mid, pre = es ++ mid := by
      have h2 := congrArg (List.take pre.length) h
      rw [List.take_left, List.take_append, List.take_of_length_le hlen] at h2
      exact ⟨_, h2.symm⟩
    rw [hmid, List.append_assoc] at h
    have h := List.append_cancel_left h
    have none_of : ∀ f, fs = [] ∨ (fs = [f] ∧ f ≠ .warn t) → False := by
      intro f hf
      rcases hf with hf | ⟨hf, hne⟩
      · rw [hf] at h; simp at h
      · have : UbEv.warn t ∈ fs := by rw [h]; simp
        rw [hf] at this
        exact hne (List.mem_singleton.mp this).symm
    cases act with
    | checkL =>
      simp only [Ub.step] at hs
      split at hs
      · rename_i hg
        have hc := hi.1.1
        obtain ⟨l1, l2, l3, r, l4, l5, l6, l7⟩ := hi.1.2.2 hg.1
        obtain ⟨h', ev, c1, c2, c3, c4, c5, c6, c7, c8, c9⟩ := Hb.check_udp hcL (h := s1.ls) (by omega) l1
        rw [c1] at hs
        simp only [Option.some.injEq, Prod.mk.injEq] at hs
        obtain ⟨rfl, rfl⟩ := hs
        by_cases hto : HbEv.timeout ∈ ev
        · rw [if_pos hto] at h
          have hmid' : mid = [] ∧ t = s1.now := by
            cases mid with
            | nil => simp at h; exact ⟨rfl, h.1.symm⟩
            | cons x xs => simp at h
          obtain ⟨rfl, rfl⟩ := hmid'
          rw [hmid, List.append_nil]
          have := c6.mp hto
          exact ⟨r, l4, by omega⟩
        · rw [if_neg hto] at h; simp at h
      · cases hs
    | pass d | startT d | heard => simp only [Ub.step] at hs; split at hs <;> cases hs; exact (none_of (.beat 0) (Or.inl rfl)).elim
    | startL d => simp only [Ub.step] at hs; split at hs <;> cases hs; exact (none_of (.up s1.now) (Or.inr ⟨rfl, by simp⟩)).elim
    | deliver i | stray => simp only [Ub.step] at hs; split at hs <;> cases hs; exact (none_of (.got s1.now) (Or.inr ⟨rfl, by simp⟩)).elim
    | send ar =>
      simp only [Ub.step] at hs
      split at hs
      · simp only [Option.map_eq_some_iff] at hs
        obtain ⟨_, _, he⟩ := hs
        cases he; exact (none_of (.beat 0) (Or.inl rfl)).elim
      · cases hs
    | sent ok ar =>
      simp only [Ub.step] at hs
      split at hs
      · cases hs
      · split at hs
        · simp only [Option.map_eq_some_iff] at hs
          obtain ⟨_, _, he⟩ := hs
          cases he; exact (none_of (.beat 0) (Or.inl rfl)).elim
        · cases hs; exact (none_of (.beat 0) (Or.inl rfl)).elim
    | checkT ar =>
      simp only [Ub.step] at hs
      split at hs
      · split at hs
        · cases hs
        · split at hs
          · simp only [Option.map_eq_some_iff] at hs
            obtain ⟨_, _, he⟩ := hs
            cases he; exact (none_of (.beat s1.now) (Or.inr ⟨rfl, by simp⟩)).elim
          · cases hs; exact (none_of (.beat 0) (Or.inl rfl)).elim
      · cases hs

/-- The bounds can be kept: whatever happened so far, the library, the kernels and the network can go on so that time passes (if async_send may take a millisecond). -/
theorem C107_time_goes_on {cT cL : HbCfg} (hcT : USettings cT) (hcL : USettings cL) {n : UbNet} (hK : 0 < n.K) (hW : 0 < n.W) {a b : Nat} (ha : 1000 ≤ a) (hb : 1000 ≤ b) {as : List UbAct} {s : Ub} {es : List UbEv}
    (hr : Ub.Run cT cL n (Ub.init a b) as s es) : ∃ bs s' es', Ub.Run cT cL n (Ub.init a b) bs s' es' ∧ (∃ cs, bs = as ++ cs) ∧ s'.now = s.now + 1 := by
  have i1 := hcT.interval
  have i2 := hcL.interval
  -- the talker is started
  obtain ⟨as1, s1, es1, hr1, ⟨x1, hx1⟩, hn1, hu1⟩ : ∃ bs s' es', Ub.Run cT cL n (Ub.init a b) bs s' es' ∧ (∃ cs, bs = as ++ cs) ∧ s'.now = s.now ∧ s'.upT = true := by
    cases h : s.upT with
    | true => exact ⟨_, _, _, hr, ⟨[], by simp⟩, rfl, h⟩
    | false => exact ⟨_, _, _, .snoc _ _ { s with upT := true, dueT := s.now + 0, tk := { s.tk with lastRecv := s.tk.time, ready := true } } _ (.startT 0) _ [] hr (by simp only [Ub.step]; rw [if_pos ⟨h, Nat.zero_le _⟩]), ⟨_, rfl⟩, rfl, rfl⟩
  -- async_send ends
  have hwrite : ∀ x : Ub, ∃ y, Ub.write n x true = some y ∧ y.now = x.now ∧ y.upT = x.upT ∧ y.wr = some x.now ∧ y.dueT = x.dueT ∧ y.dueL = x.dueL ∧ y.upL = x.upL := fun x => ⟨{ x with tk := { x.tk with sending := true }, wr := some x.now, fly := x.fly ++ [x.now], misses := 0 }, rfl, rfl, rfl, rfl, rfl, rfl, rfl⟩
  obtain ⟨as2, s2, es2, hr2, ⟨x2, hx2⟩, hn2, hu2, hw2⟩ : ∃ bs s' es', Ub.Run cT cL n (Ub.init a b) bs s' es' ∧ (∃ cs, bs = as1 ++ cs) ∧ s'.now = s1.now ∧ s'.upT = true ∧ (∀ w, s'.wr = some w → w = s1.now) := by
    cases h : s1.wr with
    | none => exact ⟨_, _, _, hr1, ⟨[], by simp⟩, rfl, hu1, fun w hw => by rw [h] at hw; cases hw⟩
    | some w =>
      by_cases hq : 0 < s1.queue
      · obtain ⟨y, hy, y1, y2, y3, y4⟩ := hwrite { s1 with wr := none, tk := { s1.tk with sending := false, lastSend := if true = true then s1.tk.time else s1.tk.lastSend }, queue := s1.queue - 1 }
        refine ⟨_, _, _, .snoc _ _ y _ (.sent true true) _ [] hr1 ?_, ⟨_, rfl⟩, y1, y2.trans hu1, fun w' hw => ?_⟩
        · simp only [Ub.step, h]; rw [if_pos hq]; simp only [Option.map_eq_some_iff]; exact ⟨y, hy, rfl⟩
        · rw [y3] at hw; cases hw; rfl
      · refine ⟨_, _, _, .snoc _ _ { s1 with wr := none, tk := { s1.tk with sending := false, lastSend := if true = true then s1.tk.time else s1.tk.lastSend } } _ (.sent true true) _ [] hr1 (by simp only [Ub.step, h]; rw [if_neg hq]), ⟨_, rfl⟩, rfl, hu1, fun w' hw => by cases hw⟩
  -- the talker's timer
  obtain ⟨as3, s3, es3, hr3, ⟨x3, hx3⟩, hn3, hu3, hw3, hd3⟩ : ∃ bs s' es', Ub.Run cT cL n (Ub.init a b) bs s' es' ∧ (∃ cs, bs = as2 ++ cs) ∧ s'.now = s2.now ∧ s'.upT = true ∧ (∀ w, s'.wr = some w → w = s1.now) ∧ s'.now + 1 ≤ s'.dueT + n.J := by
    by_cases hd : s2.now + 1 ≤ s2.dueT + n.J
    · exact ⟨_, _, _, hr2, ⟨[], by simp⟩, rfl, hu2, hw2, hd⟩
    · have hi := Ub.inv_run hcT hcL hK ha hb hr2
      rcases hi.2.2 with ⟨h1, _⟩ | ⟨h1, B, D, ht, hw, hl⟩
      · rw [h1] at hu2; cases hu2
      · obtain ⟨h', ev, c1, c2, c3, c4, c5, c6, c7, c8, c9⟩ := Hb.check_udp hcT ht.recv ht.ready
        have hdue : s2.upT = true ∧ s2.dueT ≤ s2.now := ⟨hu2, by omega⟩
        by_cases hbt : HbEv.heartbeat ∈ ev
        · cases hwr : s2.wr with
          | none =>
            obtain ⟨y, hy, y1, y2, y3, y4, y5, y6⟩ := hwrite { s2 with tk := h', dueT := s2.now + 1000 * cT.interval }
            refine ⟨_, _, _, .snoc _ _ y _ (.checkT true) _ [.beat s2.now] hr2 ?_, ⟨_, rfl⟩, y1, y2.trans hu2, fun w' hw => ?_, ?_⟩
            · simp only [Ub.step]; rw [if_pos hdue, c1]; simp only; rw [if_pos hbt]; simp only [Option.map_eq_some_iff, Ub.send, hwr]; exact ⟨y, hy, rfl⟩
            · rw [y3] at hw; cases hw; exact hn2
            · rw [y1, y4]; show s2.now + 1 ≤ s2.now + 1000 * cT.interval + n.J; omega
          | some w =>
            refine ⟨_, _, _, .snoc _ _ { s2 with tk := h', dueT := s2.now + 1000 * cT.interval, queue := s2.queue + 1 } _ (.checkT true) _ [.beat s2.now] hr2 ?_, ⟨_, rfl⟩, rfl, hu2, hw2, ?_⟩
            · simp only [Ub.step]; rw [if_pos hdue, c1]; simp only; rw [if_pos hbt]; simp only [Option.map_eq_some_iff, Ub.send, hwr]; exact ⟨_, rfl, rfl⟩
            · show s2.now + 1 ≤ s2.now + 1000 * cT.interval + n.J; omega
        · refine ⟨_, _, _, .snoc _ _ { s2 with tk := h', dueT := s2.now + 1000 * cT.interval } _ (.checkT true) _ [] hr2 ?_, ⟨_, rfl⟩, rfl, hu2, hw2, ?_⟩
          · simp only [Ub.step]; rw [if_pos hdue, c1]; simp only; rw [if_neg hbt]
          · show s2.now + 1 ≤ s2.now + 1000 * cT.interval + n.J; omega
  -- the listener's timer
  obtain ⟨as4, s4, es4, hr4, ⟨x4, hx4⟩, hn4, hu4, hw4, hd4, hl4⟩ : ∃ bs s' es', Ub.Run cT cL n (Ub.init a b) bs s' es' ∧ (∃ cs, bs = as3 ++ cs) ∧ s'.now = s3.now ∧ s'.upT = true ∧ (∀ w, s'.wr = some w → w = s1.now) ∧ s'.now + 1 ≤ s'.dueT + n.J ∧
      (s'.upL = true → s'.now + 1 ≤ s'.dueL + n.J) := by
    by_cases hd : s3.upL = true → s3.now + 1 ≤ s3.dueL + n.J
    · exact ⟨_, _, _, hr3, ⟨[], by simp⟩, rfl, hu3, hw3, hd3, hd⟩
    · have hi := Ub.inv_run hcT hcL hK ha hb hr3
      have hup : s3.upL = true := by
        cases h : s3.upL with
        | true => rfl
        | false => exact absurd (fun h' => by rw [h] at h'; cases h') hd
      have hc := hi.1.1
      obtain ⟨l1, l2, l3, r, l4, l5, l6, l7⟩ := hi.1.2.2 hup
      obtain ⟨h', ev, c1, c2, c3, c4, c5, c6, c7, c8, c9⟩ := Hb.check_udp hcL (h := s3.ls) (by omega) l1
      have hdue : s3.upL = true ∧ s3.dueL ≤ s3.now := ⟨hup, by apply Nat.le_of_not_lt; intro h; exact hd (fun _ => by omega)⟩
      refine ⟨_, _, _, .snoc _ _ { s3 with ls := h', dueL := s3.now + 1000 * cL.interval } _ .checkL _ _ hr3 (by simp only [Ub.step]; rw [if_pos hdue, c1]), ⟨_, rfl⟩, rfl, hu3, hw3, hd3, fun _ => ?_⟩
      show s3.now + 1 ≤ s3.now + 1000 * cL.interval + n.J
      omega
  -- the datagrams under way arrive
  have hdel : ∀ (k : Nat) (x : Ub) (xs : List UbAct) (fs : List UbEv), x.upL = true → x.fly.length = k → Ub.Run cT cL n (Ub.init a b) xs x fs →
      ∃ ys y gs, Ub.Run cT cL n (Ub.init a b) ys y gs ∧ (∃ cs, ys = xs ++ cs) ∧ y.now = x.now ∧ y.upT = x.upT ∧ y.wr = x.wr ∧ y.dueT = x.dueT ∧ y.dueL = x.dueL ∧ y.fly = [] := by
    intro k
    induction k with
    | zero => intro x xs fs h1 h2 h3; exact ⟨_, _, _, h3, ⟨[], by simp⟩, rfl, rfl, rfl, rfl, rfl, List.length_eq_zero_iff.mp h2⟩
    | succ k ih =>
      intro x xs fs h1 h2 h3
      obtain ⟨ys, y, gs, y1, ⟨cs, y2⟩, y3, y4, y5, y6, y7, y8⟩ := ih { x with fly := x.fly.eraseIdx 0, ls := { x.ls with lastRecv := x.ls.time } } (xs ++ [.deliver 0]) (fs ++ [.got x.now]) h1
        (by show (x.fly.eraseIdx 0).length = k; rw [List.length_eraseIdx, if_pos (by omega)]; omega)
        (.snoc _ _ _ _ _ _ _ h3 (by simp only [Ub.step]; rw [if_pos ⟨h1, by omega⟩]))
      exact ⟨ys, y, gs, y1, ⟨.deliver 0 :: cs, by rw [y2]; simp⟩, y3, y4, y5, y6, y7, y8⟩
  obtain ⟨as5, s5, es5, hr5, ⟨x5, hx5⟩, hn5, hu5, hw5, hd5, hl5, hf5⟩ : ∃ bs s' es', Ub.Run cT cL n (Ub.init a b) bs s' es' ∧ (∃ cs, bs = as4 ++ cs) ∧ s'.now = s4.now ∧ s'.upT = true ∧ (∀ w, s'.wr = some w → w = s1.now) ∧ s'.now + 1 ≤ s'.dueT + n.J ∧
      (s'.upL = true → s'.now + 1 ≤ s'.dueL + n.J) ∧ (s'.upL = true → s'.fly = []) := by
    cases hup : s4.upL with
    | false => exact ⟨_, _, _, hr4, ⟨[], by simp⟩, rfl, hu4, hw4, hd4, hl4, fun h => by rw [hup] at h; cases h⟩
    | true =>
      obtain ⟨ys, y, gs, y1, y2, y3, y4, y5, y6, y7, y8⟩ := hdel _ s4 _ _ hup rfl hr4
      exact ⟨ys, y, gs, y1, y2, y3, y4.trans hu4, fun w h => hw4 w (by rw [← y5]; exact h), by rw [y3, y6]; exact hd4, fun _ => by rw [y3, y7]; exact hl4 hup, fun _ => y8⟩
  refine ⟨_, _, _, .snoc _ _ { s5 with now := s5.now + 1, tk := { s5.tk with clock := s5.tk.clock + 1 }, ls := { s5.ls with clock := s5.ls.clock + 1 } } _ (.pass 1) _ [] hr5 ?_, ⟨x1 ++ x2 ++ x3 ++ x4 ++ x5 ++ [.pass 1], ?_⟩, ?_⟩
  · simp only [Ub.step]
    rw [if_pos]
    simp only [Ub.canPass, hu5, if_true, Bool.and_eq_true, decide_eq_true_eq]
    refine ⟨⟨hd5, ?_⟩, ?_⟩
    · split
      · rename_i w hw
        have := hw5 w hw
        simp only [decide_eq_true_eq]
        omega
      · rfl
    · cases hup : s5.upL with
      | false => rfl
      | true => simp [hf5 hup, hl5 hup]
  · simp [hx5, hx4, hx3, hx2, hx1]
  · show s5.now + 1 = _
    omega

/-- Heartbeats every 5 seconds (a usual value), and the default max_absence 3 (config.h). -/
def ubCfg : HbCfg := { kind := .udp, interval := 5, maxAbsence := 3, always := false }

theorem ubCfg_settings : USettings ubCfg := ⟨rfl, by decide, by decide, by decide⟩

/-- A run, from its events. -/
theorem Ub.run_of_exec {cT cL : HbCfg} {n : UbNet} {s0 : Ub} {as : List UbAct} {es : List UbEv} (h : (Ub.exec cT cL n s0 as).map (·.2) = some es) : ∃ as s es', Ub.Run cT cL n s0 as s es' ∧ es' = es := by
  simp only [Option.map_eq_some_iff] at h
  obtain ⟨⟨s, es'⟩, h, rfl⟩ := h
  exact ⟨_, _, _, Ub.exec_run (.nil _) h, rfl⟩

/-- Bounds of the delays; of `K` datagrams in a row one arrives. -/
def ubNet (K : Nat) : UbNet := { J := 100, L := 1000, W := 100, S := 1000, K := K }

/-- C107 needs more than the defaults (interval 5, max_absence 3): they are good for a network that loses nothing, but one lost datagram leads to a false alarm: the seconds of the clock make the talker skip every other check, so that it sends every
10 seconds; the datagram of second 15 is lost, and in second 20 the listener has heard nothing for 15 seconds. -/
theorem C107_fails_loss : longestSilence (ubNet 1) ubCfg.interval + 1000 ≤ 1000 * (ubCfg.interval * ubCfg.maxAbsence) ∧
    ∃ as s es, Ub.Run ubCfg ubCfg (ubNet 2) (Ub.init 5950 5950) as s es ∧ es = [.up 0, .beat 5000, .got 5000, .beat 15000, .warn 20000] := by
  refine ⟨by decide, ?_⟩
  exact Ub.run_of_exec (as := [.startT 5000, .startL 5000, .pass 5000, .checkT true, .deliver 0, .checkL, .pass 100, .sent true true, .pass 4900, .checkT true, .checkL, .pass 5000, .checkT false, .checkL,
      .pass 100, .sent true true, .pass 4900, .checkL]) (by decide +kernel)

/-- The hypotheses of C107_quiet are met: a talker with heartbeats every second, over a network that loses every other datagram, and a listener with the defaults. -/
theorem C107_demo : USettings { ubCfg with interval := 1 } ∧ USettings ubCfg ∧ longestSilence (ubNet 2) 1 + 1000 ≤ 1000 * (ubCfg.interval * ubCfg.maxAbsence) ∧
    ∃ as s es, Ub.Run { ubCfg with interval := 1 } ubCfg (ubNet 2) (Ub.init 5950 8000) as s es ∧ es = [.up 0, .beat 1000, .beat 3000, .got 3500] := by
  refine ⟨⟨rfl, by decide, by decide, by decide⟩, ubCfg_settings, by decide, ?_⟩
  exact Ub.run_of_exec (as := [.startT 1000, .startL 5000, .pass 1000, .checkT false, .pass 100, .sent true true, .pass 900, .checkT true, .pass 1000, .checkT true, .pass 100, .sent true true,
      .pass 400, .deliver 0]) (by decide +kernel)

/-- C107 fails for the receiver's program: with the default packer and unpacker of UDP sockets (ext/udp.h:22-32) a heartbeat is a datagram of a head without a body, and the peer's program gets it as a message that nobody sent. -/
theorem C107_fails_seen (c : Cfg) (hv : c.Valid) (nd : Bool) (raw : Bytes) (hraw : raw.length = c.bufSize) : ∃ hb, packHeartbeat c nd = some hb ∧ hb ≠ [] ∧ Udp.datagrams c raw [hb] = some [hb] := by
  have h1 : 0 < c.headLen ∧ c.headLen % 256 ^ c.headLen = c.headLen := by unfold Cfg.headLen; split <;> decide
  have h2 := hv.1
  refine ⟨be c.headLen c.headLen, ?_, ?_, ?_⟩
  · simp only [packHeartbeat, packHeader, Nat.add_zero, h1.2]
    cases nd <;> simp [h2, Nat.lt_of_lt_of_le h1.1 h2]
  · intro h
    have := congrArg List.length h
    rw [be_length] at this
    simp only [List.length_nil] at this
    omega
  · have hl := be_length c.headLen c.headLen
    have hn : be c.headLen c.headLen ≠ [] := by intro h; rw [h] at hl; simp at hl; omega
    rw [udp_datagrams c _ raw hraw, List.map_cons, List.take_of_length_le (by omega)]
    simp [hn]

end StAsio
