import Verif.Lemmas.KcpClock
/-!
**C106**: KCP is told the time correctly, and is updated when it wants to be, from start() to close().
-/
set_option autoImplicit false
namespace StAsio

/-- Every update is told the low 32 bits of the current time in ms, and time does not go back. -/
theorem Ku.updates_run {al : Bool} {J C t0 : Nat} {as : List KuAct} {s : Ku} {es : List KuEv} (hr : Ku.Run al J C (Ku.init t0) as s es) :
    (updatesOf es).Pairwise (fun p q => p.1 ≤ q.1) ∧ ∀ p ∈ updatesOf es, p.1 ≤ s.now ∧ p.2 = p.1 / 1000 % 2 ^ 32 := by
  generalize he : Ku.init t0 = s0 at hr
  induction hr with
  | nil => simp [updatesOf]
  | snoc s1 s2 as a es fs _ hs ih =>
    obtain ⟨i1, i2⟩ := ih
    have hnow : s1.now ≤ s2.now ∧ (updatesOf fs = [] ∨ updatesOf fs = [(s1.now, kuClock s1.now)]) := by
      simp only [Ku.step] at hs
      split at hs
      · cases hs
      cases a <;> simp only [Ku.live] at hs <;> (repeat' split at hs) <;> cases hs <;> simp [updatesOf]
    have e : updatesOf (es ++ fs) = updatesOf es ++ updatesOf fs := by simp [updatesOf]
    rw [e]
    have hk : kuClock s1.now = s1.now / 1000 % 2 ^ 32 := by rw [kuClock, kuClock64_eq]
    rcases hnow with ⟨h1, h2 | h2⟩
    · rw [h2, List.append_nil]
      exact ⟨i1, fun p hp => ⟨Nat.le_trans (i2 p hp).1 h1, (i2 p hp).2⟩⟩
    · rw [h2]
      refine ⟨List.pairwise_append.mpr ⟨i1, by simp, fun p hp q hq => ?_⟩, fun p hp => ?_⟩
      · simp only [List.mem_singleton] at hq
        subst hq
        exact (i2 p hp).1
      · rcases List.mem_append.mp hp with hp | hp
        · exact ⟨Nat.le_trans (i2 p hp).1 h1, (i2 p hp).2⟩
        · simp only [List.mem_singleton] at hp
          subst hp
          exact ⟨h1, hk⟩

/-- **C106** (the clock): of any two updates of a socket, however many there are between them and whenever the 32-bit clock wraps, the difference that KCP computes is the time that passed, to the millisecond, if that was less than
7 weeks (2^32 - 1 ms). -/
theorem C106_clock {al : Bool} {J C t0 : Nat} {as : List KuAct} {s : Ku} {es : List KuEv} (hr : Ku.Run al J C (Ku.init t0) as s es) :
    (updatesOf es).Pairwise (fun p q => p.1 ≤ q.1 ∧ (q.1 - p.1 < (2 ^ 32 - 1) * 1000 → 1000 * clockDiff q.2 p.2 < q.1 - p.1 + 1000 ∧ q.1 - p.1 < 1000 * clockDiff q.2 p.2 + 1000)) := by
  obtain ⟨h1, h2⟩ := Ku.updates_run hr
  refine List.Pairwise.imp_of_mem ?_ h1
  intro p q hp hq hle
  refine ⟨hle, fun hlt => ?_⟩
  have e1 := (h2 p hp).2
  have e2 := (h2 q hq).2
  simp only [clockDiff]
  omega

/-- **C106** (in time): a program asked for a KCP control block after on_close of the last use of the socket, and started the socket: then KCP was asked when it wants to be updated, and until it is, no more time passes than it asked for, and
the delay `J` of the timer's call back and twice the time `C` that a call back takes. -/
theorem C106_in_time {al : Bool} {J C t0 : Nat} (hC : C < 4294967296 * 1000) {as : List KuAct} {s : Ku} {es : List KuEv} (hr : Ku.Run al J C (Ku.init t0) as s es) (hf : AsksFit es) (ho : Orderly es) (hc : KuEv.crash ∉ es)
    (hw : wantsKcp es = true) (hop : isOpen es = true) : ∃ t ms, lastAsk es = some (t, ms) ∧ s.now ≤ t + 1000 * ms + J + 2 * C := by
  have hcr : s.crashed = false := by
    generalize he : Ku.init t0 = s0 at hr
    cases hr with
    | nil => subst he; rfl
    | snoc s1 s2 as a es fs _ hs =>
      have h0 := Ku.not_crashed hs
      simp only [Ku.step, h0, Bool.false_eq_true, if_false] at hs
      cases a <;> simp only [Ku.live] at hs <;> (repeat' split at hs) <;> cases hs <;> first
        | exact h0
        | exact absurd (by simp) hc
  obtain ⟨h1, h2, h3, h4, h5, h6⟩ := Ku.inv_run hC hr hf hcr
  obtain ⟨w1, w2⟩ := Ku.winv_run hC hr hf ho
  have hcl : s.closing = false := by
    cases hcl : s.closing with
    | false => rfl
    | true => exact absurd ⟨h1.trans hop, hcl⟩ h3
  have ht := h5 (h1.trans hop) ((w1 hcl).trans hw)
  cases hti : s.timer with
  | idle => exact absurd hti ht
  | armed due =>
    simp only [hti] at h6
    obtain ⟨_, g1, t, ms, g2, g3, g4⟩ := h6
    exact ⟨t, ms, g2, by omega⟩
  | running b at_ =>
    simp only [hti] at h6
    cases at_ with
    | updated =>
      obtain ⟨g1, g2, t, ms, g3, g4, g5, g6⟩ := h6
      exact ⟨t, ms, g3, by omega⟩
    | entered =>
      obtain ⟨g1, g2, t, ms, g3, g4, g5⟩ := h6
      exact ⟨t, ms, g3, by omega⟩
    | inside =>
      obtain ⟨g1, g2, t, ms, g3, g4, g5⟩ := h6
      exact ⟨t, ms, g3, by omega⟩

/-- **C106** (not early): the update timer does not update KCP before the time it asked for (with ST_ASIO_ALIGNED_TIMER: not more than the time `C` of a call back before it). -/
theorem C106_not_early {al : Bool} {J C t0 : Nat} (hC : C < 4294967296 * 1000) {as : List KuAct} {s : Ku} {es : List KuEv} (hr : Ku.Run al J C (Ku.init t0) as s es) (hf : AsksFit es) {pre post : List KuEv} {t c : Nat}
    (he : es = pre ++ .timed t c :: post) : ∃ t1 ms, lastAsk pre = some (t1, ms) ∧ t1 + 1000 * ms ≤ t + (if al then C else 0) := by
  obtain ⟨bs, s1, ds, a, s2, fs, p, q, h1, h2, h3, h4⟩ := Ku.run_at hr he
  have hfd : AsksFit ds := by
    refine AsksFit.left (fs := p ++ .timed t c :: post) ?_
    rw [← List.append_assoc, ← h4, ← he]
    exact hf
  have hi := Ku.inv_run hC h1 hfd (Ku.not_crashed h2)
  obtain ⟨-, -, -, -, -, h6⟩ := hi
  simp only [Ku.step, Ku.not_crashed h2, Bool.false_eq_true, if_false] at h2
  have hp : p = [] ∧ t = s1.now ∧ ∃ b, s1.timer = .running b .inside := by
    cases a <;> simp only [Ku.live] at h2 <;> (repeat' split at h2) <;> cases h2 <;> first
      | (exfalso; revert h3; rcases p with _ | ⟨x, _ | ⟨y, _ | ⟨z, p⟩⟩⟩ <;> simp <;> done)
      | (rename_i ht
         rcases p with _ | ⟨x, _ | ⟨y, _ | ⟨z, p⟩⟩⟩ <;> simp at h3
         exact ⟨rfl, h3.1.1.symm, _, ht⟩)
  obtain ⟨rfl, rfl, b, hb⟩ := hp
  rw [hb] at h6
  obtain ⟨g1, g2, t1, ms, g3, g4, g5⟩ := h6
  refine ⟨t1, ms, by rw [h4, List.append_nil]; exact g3, by omega⟩

/-- **C106** (no crash): the update timer divides by zero at most with ST_ASIO_ALIGNED_TIMER, and only if KCP asked to be updated at once. -/
theorem C106_no_crash {al : Bool} {J C t0 : Nat} (hC : C < 4294967296 * 1000) {as : List KuAct} {s : Ku} {es : List KuEv} (hr : Ku.Run al J C (Ku.init t0) as s es) (hf : AsksFit es) {pre post : List KuEv}
    (he : es = pre ++ .crash :: post) : al = true ∧ ∃ t, lastAsk pre = some (t, 0) := by
  obtain ⟨bs, s1, ds, a, s2, fs, p, q, h1, h2, h3, h4⟩ := Ku.run_at hr he
  have hfd : AsksFit ds := by
    refine AsksFit.left (fs := p ++ .crash :: post) ?_
    rw [← List.append_assoc, ← h4, ← he]
    exact hf
  have hi := Ku.inv_run hC h1 hfd (Ku.not_crashed h2)
  obtain ⟨-, -, -, -, -, h6⟩ := hi
  simp only [Ku.step, Ku.not_crashed h2, Bool.false_eq_true, if_false] at h2
  have hp : p = [] ∧ al = true ∧ s1.interval = 0 ∧ ∃ b, s1.timer = .running b .updated := by
    cases a with
    | finish =>
      simp only [Ku.live] at h2
      split at h2
      · rename_i b ht
        split at h2
        · split at h2
          · rename_i hw
            cases h2
            rcases p with _ | ⟨x, p⟩ <;> simp at h3
            cases al with
            | false => cases hw
            | true => exact ⟨rfl, rfl, kuAligned_none hw, b, ht⟩
          · cases h2; simp at h3
        · cases h2; simp at h3
      · cases h2
    | _ =>
      simp only [Ku.live] at h2
      (repeat' split at h2) <;> cases h2 <;> (exfalso; revert h3; rcases p with _ | ⟨x, _ | ⟨y, _ | ⟨z, p⟩⟩⟩ <;> simp <;> done)
  obtain ⟨rfl, hal, hz, b, hb⟩ := hp
  rw [hb] at h6
  obtain ⟨g1, g2, t, ms, g3, g4, g5, g6⟩ := h6
  refine ⟨hal, t, ?_⟩
  rw [h4, List.append_nil, g3, ← g6, hz]

/-- **C106** (no misuse, if the program is orderly): the control block is not released while it is in use. -/
theorem C106_no_misuse_partial {al : Bool} {J C t0 : Nat} (hC : C < 4294967296 * 1000) {as : List KuAct} {s : Ku} {es : List KuEv} (hr : Ku.Run al J C (Ku.init t0) as s es) (hf : AsksFit es) (ho : Orderly es) :
    KuEv.misuse ∉ es := by
  generalize he : Ku.init t0 = s0 at hr
  induction hr with
  | nil => simp
  | snoc s1 s2 as a es fs hr hs ih =>
    subst he
    intro hm
    rcases List.mem_append.mp hm with hm | hm
    · exact ih hf.left ho.left hm
    obtain ⟨i1, i2, i3, i4, i5, i6⟩ := Ku.inv_run hC hr hf.left (Ku.not_crashed hs)
    simp only [Ku.step, Ku.not_crashed hs, Bool.false_eq_true, if_false] at hs
    cases a with
    | create =>
      simp only [Ku.live] at hs
      split at hs
      · cases hs
      · rename_i hop
        split at hs
        · rename_i b ht
          cases hs
          have h1 := ho (es ++ [.misuse]) [] (by simp)
          rw [awaiting_append] at h1
          rcases (i4 (by rw [ht]; simp)).2 with h | h
          · exact hop h
          · rw [i2] at h
            rw [show List.foldl awaitAfter (awaitingOnClose es) [KuEv.misuse] = awaitingOnClose es from rfl, h] at h1
            cases h1
        · cases hs
          simp at hm
    | _ =>
      simp only [Ku.live] at hs
      (repeat' split at hs) <;> cases hs <;> simp at hm

/-- **C106** (not without a control block): after on_close nothing is updated until a new control block was asked for. -/
theorem C106_released {al : Bool} {J C t0 : Nat} (hC : C < 4294967296 * 1000) {as : List KuAct} {s : Ku} {es : List KuEv} (hr : Ku.Run al J C (Ku.init t0) as s es) (hf : AsksFit es) {pre post : List KuEv}
    (he : es = pre ++ .onClosed :: post) (hn : KuEv.created ∉ post) : updatesOf post = [] ∧ s.kcp = false := by
  generalize hs0 : Ku.init t0 = s0 at hr
  induction hr generalizing post with
  | nil => simp at he
  | snoc s1 s2 as a es fs hr hs ih =>
    subst hs0
    have hnc := Ku.not_crashed hs
    rcases List.append_eq_append_iff.mp he with ⟨x, h1, h2⟩ | ⟨x, h1, h2⟩
    · simp only [Ku.step, hnc, Bool.false_eq_true, if_false] at hs
      cases a <;> simp only [Ku.live] at hs <;> (repeat' split at hs) <;> cases hs <;> first
        | (exfalso; revert h2; rcases x with _ | ⟨x, _ | ⟨y, _ | ⟨z, p⟩⟩⟩ <;> simp <;> done)
        | (rcases x with _ | ⟨x, _ | ⟨y, _ | ⟨z, p⟩⟩⟩ <;> simp at h2
           subst h2
           exact ⟨rfl, rfl⟩)
    · cases x with
      | nil =>
        simp only [List.nil_append] at h2
        simp only [Ku.step, hnc, Bool.false_eq_true, if_false] at hs
        cases a <;> simp only [Ku.live] at hs <;> (repeat' split at hs) <;> cases hs <;> first
          | (exfalso; revert h2; simp <;> done)
          | (simp at h2
             subst h2
             exact ⟨rfl, rfl⟩)
      | cons y ys =>
        simp only [List.cons_append, List.cons.injEq] at h2
        obtain ⟨rfl, rfl⟩ := h2
        obtain ⟨i1, i2⟩ := ih hf.left h1 (fun h => hn (List.mem_append_left _ h))
        have hi := Ku.inv_run hC hr hf.left hnc
        have e : updatesOf (ys ++ fs) = updatesOf ys ++ updatesOf fs := by simp [updatesOf]
        rw [e, i1, List.nil_append]
        have hidle : s1.timer = .idle := Decidable.byContradiction fun h => by
          have := (hi.2.2.2.1 h).1
          rw [i2] at this
          cases this
        simp only [Ku.step, hnc, Bool.false_eq_true, if_false] at hs
        cases a <;> simp only [Ku.live, hidle, i2] at hs <;> (repeat' split at hs) <;> first
          | (cases hs; done)
          | (rename_i hx; exact absurd hx.1 Bool.false_ne_true)
          | (cases hs; exact ⟨rfl, i2⟩)
          | (cases hs; exact ⟨rfl, rfl⟩)
          | (cases hs; exact absurd (by simp) hn)
          | (simp at hs; done)

/-- All the time that passes in an execution. -/
def kuPassed (as : List KuAct) : Nat := (as.map fun | .tick d => d | _ => 0).sum

/-- **C106** (the assumptions about delays can always be met): from every state that can occur, with KCP asking for any wait of at least a millisecond, time can go on. -/
theorem C106_time_goes_on {J C t0 m : Nat} (hC : C < 4294967296 * 1000) (hm : 0 < m) (hm2 : m < 2 ^ 32) {as : List KuAct} {s : Ku} {es : List KuEv} (hr : Ku.Run false J C (Ku.init t0) as s es) (hf : AsksFit es) :
    ∃ bs s' fs, Ku.Run false J C (Ku.init t0) (as ++ bs) s' (es ++ fs) ∧ kuPassed bs = 1 ∧ AsksFit (es ++ fs) ∧ ∀ b ∈ bs, b = .tick 1 ∨ b = .begin ∨ b = .enter ∨ b = .update m ∨ b = .finish := by
  have hcr : s.crashed = false := by
    generalize he : Ku.init t0 = s0 at hr
    cases hr with
    | nil => subst he; rfl
    | snoc s1 s2 as a es fs _ hs =>
      have h0 := Ku.not_crashed hs
      simp only [Ku.step, h0, Bool.false_eq_true, if_false] at hs
      cases a <;> simp only [Ku.live] at hs <;> (repeat' split at hs) <;> cases hs <;> first
        | exact h0
        | (rename_i hw; cases hw)
  have hi := Ku.inv_run hC hr hf hcr
  obtain ⟨h1, h2, h3, h4, h5, h6⟩ := hi
  obtain ⟨now, kcp, opened, closing, timer, interval, crashed⟩ := s
  simp only at h1 h2 h3 h4 h5 h6 hcr
  subst hcr
  have hwt : ∀ n, kuWait (kuClock n) m = m := fun n => kuWait_eq (kuClock_lt _) hm2
  have hfit : ∀ fs : List KuEv, (∀ t ms, KuEv.ask t ms ∈ fs → ms = m) → AsksFit (es ++ fs) := by
    intro fs hfs t ms h
    rcases List.mem_append.mp h with h | h
    · exact hf t ms h
    · rw [hfs t ms h]; exact hm2
  have hfin : ∀ bs s' fs, Ku.exec false J C ⟨now, kcp, opened, closing, timer, interval, false⟩ bs = some (s', fs) → kuPassed bs = 1 → (∀ t ms, KuEv.ask t ms ∈ fs → ms = m) →
      (∀ b ∈ bs, b = .tick 1 ∨ b = .begin ∨ b = .enter ∨ b = .update m ∨ b = .finish) →
      ∃ bs s' fs, Ku.Run false J C (Ku.init t0) (as ++ bs) s' (es ++ fs) ∧ kuPassed bs = 1 ∧ AsksFit (es ++ fs) ∧ ∀ b ∈ bs, b = .tick 1 ∨ b = .begin ∨ b = .enter ∨ b = .update m ∨ b = .finish :=
    fun bs s' fs h1 h2 h3 h4 => ⟨bs, s', fs, Ku.exec_run hr h1, h2, hfit fs h3, h4⟩
  have hle : now + 1 ≤ now + m * 1000 + J := by omega
  cases timer with
  | idle => exact hfin [.tick 1] _ [] (by simp [Ku.exec, Ku.step, Ku.live, Ku.canTick]; rfl) rfl (by simp) (by simp)
  | armed due =>
    obtain ⟨g0, g1, -⟩ := h6
    have hk := (h4 (by simp)).1
    subst hk g0
    by_cases hd : now + 1 ≤ due + J
    · exact hfin [.tick 1] _ [] (by simp [Ku.exec, Ku.step, Ku.live, Ku.canTick, hd]; rfl) rfl (by simp) (by simp)
    · have hd2 : due ≤ now := by omega
      exact hfin [.begin, .enter, .update m, .finish, .tick 1] _ [.began now, .timed now (kuClock now), .ask now m] (by simp [Ku.exec, Ku.step, Ku.live, Ku.canTick, hd2, hwt, hle]; rfl) rfl (by simp) (by simp)
  | running b at_ =>
    have hk := (h4 (by simp)).1
    subst hk
    cases at_ with
    | updated =>
      cases opened with
      | false => exact hfin [.finish, .tick 1] _ [] (by simp [Ku.exec, Ku.step, Ku.live, Ku.canTick]; rfl) rfl (by simp) (by simp)
      | true =>
        by_cases hd : now + 1 ≤ now + interval * 1000 + J
        · exact hfin [.finish, .tick 1] _ [] (by simp [Ku.exec, Ku.step, Ku.live, Ku.canTick, hd]; rfl) rfl (by simp) (by simp)
        · have hz : interval = 0 := by omega
          subst hz
          exact hfin [.finish, .begin, .enter, .update m, .finish, .tick 1] _ [.began now, .timed now (kuClock now), .ask now m] (by simp [Ku.exec, Ku.step, Ku.live, Ku.canTick, hwt, hle]; rfl) rfl (by simp) (by simp)
    | entered =>
      cases opened with
      | false => exact hfin [.enter, .update m, .finish, .tick 1] _ [.timed now (kuClock now), .ask now m] (by simp [Ku.exec, Ku.step, Ku.live, Ku.canTick]; rfl) rfl (by simp) (by simp)
      | true => exact hfin [.enter, .update m, .finish, .tick 1] _ [.timed now (kuClock now), .ask now m] (by simp [Ku.exec, Ku.step, Ku.live, Ku.canTick, hwt, hle]; rfl) rfl (by simp) (by simp)
    | inside =>
      cases opened with
      | false => exact hfin [.update m, .finish, .tick 1] _ [.timed now (kuClock now), .ask now m] (by simp [Ku.exec, Ku.step, Ku.live, Ku.canTick]; rfl) rfl (by simp) (by simp)
      | true => exact hfin [.update m, .finish, .tick 1] _ [.timed now (kuClock now), .ask now m] (by simp [Ku.exec, Ku.step, Ku.live, Ku.canTick, hwt, hle]; rfl) rfl (by simp) (by simp)

/-- `Orderly`, checked event by event. -/
def orderlyFrom (r : Bool) : List KuEv → Bool
  | [] => true
  | e :: es => (e ≠ .created || !r) && orderlyFrom (awaitAfter r e) es

theorem orderlyFrom_sound (es : List KuEv) (h : orderlyFrom false es = true) : Orderly es := by
  have key : ∀ (es : List KuEv) (r : Bool), orderlyFrom r es = true → ∀ pre post, es = pre ++ .created :: post → pre.foldl awaitAfter r = false := by
    intro es
    induction es with
    | nil => intro r _ pre post he; simp at he
    | cons e es ih =>
      intro r hr pre post he
      simp only [orderlyFrom, Bool.and_eq_true] at hr
      cases pre with
      | nil =>
        simp only [List.nil_append, List.cons.injEq] at he
        rw [he.1] at hr
        simpa using hr.1
      | cons x pre =>
        simp only [List.cons_append, List.cons.injEq] at he
        rw [← he.1, List.foldl_cons]
        exact ih _ hr.2 pre post he.2
  exact key es false h

/-! ### where it fails -/

/-- With ST_ASIO_ALIGNED_TIMER (and a KCP that asks to be updated at once, which it does when a segment is due but not the next flush): the call back takes a millisecond, and the process dies of a division by zero. -/
theorem C106_fails_aligned : ∃ as s es, Ku.Run true 1000 5000 (Ku.init 1000000) as s es ∧ Orderly es ∧
    es = [.created, .started, .ask 1000000 0, .began 1000000, .timed 1000000 1000, .ask 1000000 0, .crash] := by
  refine ⟨[.create, .start 0, .begin, .enter, .update 0, .tick 1000, .finish], _, _, Ku.exec_run (.nil _) rfl, ?_, rfl⟩
  exact orderlyFrom_sound _ rfl

/-- A control block that was asked for between close() and on_close is lost: the socket is started again, but KCP is never updated. -/
theorem C106_fails_lost : ∃ as s es, Ku.Run false 1000 5000 (Ku.init 1000000) as s es ∧ wantsKcp es = true ∧ isOpen es = true ∧ s.now = 61000000 ∧ s.kcp = false ∧
    es = [.created, .started, .ask 1000000 0, .closed, .created, .onClosed, .started] :=
  ⟨[.create, .start 0, .close, .create, .onClose, .start 0, .tick 60000000], _, _, Ku.exec_run (.nil _) rfl, rfl, rfl, rfl, rfl, rfl⟩

/-- A control block that is asked for while the update timer's call back is running after close(): the one in use is released. -/
theorem C106_fails_misuse : ∃ as s es, Ku.Run false 1000 5000 (Ku.init 1000000) as s es ∧ es = [.created, .started, .ask 1000000 0, .began 1000000, .closed, .misuse, .created] :=
  ⟨[.create, .start 0, .begin, .enter, .close, .create], _, _, Ku.exec_run (.nil _) rfl, rfl⟩

/-! ### the hypotheses can be met -/

/-- A socket that is used twice, with the 32-bit clock wrapping in between, and with updates by the timer and in between. -/
theorem C106_demo : ∃ as s es, Ku.Run false 1000 5000 (Ku.init 4294967290000) as s es ∧ Orderly es ∧ AsksFit es ∧ wantsKcp es = true ∧ isOpen es = true ∧
    es = [.created, .started, .ask 4294967290000 0, .began 4294967290000, .timed 4294967290000 4294967290, .ask 4294967290000 10, .began 4294967300500, .timed 4294967301000 5, .ask 4294967301000 20, .closed, .onClosed,
      .created, .started, .ask 4294967301000 0, .extra 4294967301000 5] ∧ clockDiff 5 4294967290 = 11 := by
  refine ⟨[.create, .start 0, .begin, .enter, .update 10, .tick 500, .finish, .tick 10000, .begin, .tick 500, .enter, .update 20, .close, .finish, .onClose, .create, .start 0, .extra], _, _, Ku.exec_run (.nil _) rfl, orderlyFrom_sound _ rfl, ?_, rfl, rfl, rfl, rfl⟩
  intro t ms h
  have h : KuEv.ask t ms ∈ [KuEv.created, .started, .ask 4294967290000 0, .began 4294967290000, .timed 4294967290000 4294967290, .ask 4294967290000 10, .began 4294967300500, .timed 4294967301000 5, .ask 4294967301000 20, .closed,
    .onClosed, .created, .started, .ask 4294967301000 0, .extra 4294967301000 5] := h
  simp at h
  omega

end StAsio
