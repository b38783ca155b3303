import Verif.Model.KcpClock
/-! Invariants for C106. -/
set_option autoImplicit false
namespace StAsio

theorem kuClock64_eq (t : Nat) : kuClock64 t = t / 1000 := by
  simp only [kuClock64, kuTimeOfDay]
  omega

theorem kuClock_lt (t : Nat) : kuClock t < 2 ^ 32 := Nat.mod_lt _ (by decide)

theorem kuWait_eq {now ms : Nat} (h : now < 2 ^ 32) (hm : ms < 2 ^ 32) : kuWait now ms = ms := by
  simp only [kuWait, kuCheck]
  omega

theorem Ku.exec_run {al : Bool} {J C : Nat} {s0 : Ku} {bs : List KuAct} {s : Ku} {ds : List KuEv} (h0 : Ku.Run al J C s0 bs s ds) {as : List KuAct} {s' : Ku} {es : List KuEv}
    (h : Ku.exec al J C s as = some (s', es)) : Ku.Run al J C s0 (bs ++ as) s' (ds ++ es) := by
  induction as generalizing bs s ds es with
  | nil =>
    simp only [Ku.exec, Option.some.injEq, Prod.mk.injEq] at h
    obtain ⟨rfl, rfl⟩ := h
    simpa using h0
  | cons a as ih =>
    simp only [Ku.exec, bind, Option.bind_eq_some_iff] at h
    obtain ⟨⟨s1, e1⟩, h1, ⟨s2, e2⟩, h2, h3⟩ := h
    simp only [Option.some.injEq, Prod.mk.injEq] at h3
    obtain ⟨rfl, rfl⟩ := h3
    have := ih (.snoc _ _ _ _ _ _ _ h0 h1) h2
    simpa using this

theorem lastAsk_append (es fs : List KuEv) : lastAsk (es ++ fs) = fs.foldl askAfter (lastAsk es) := by
  simp only [lastAsk, List.foldl_append]
theorem awaiting_append (es fs : List KuEv) : awaitingOnClose (es ++ fs) = fs.foldl awaitAfter (awaitingOnClose es) := by
  simp only [awaitingOnClose, List.foldl_append]
theorem wants_append (es fs : List KuEv) : wantsKcp (es ++ fs) = fs.foldl wantAfter (wantsKcp es) := by
  simp only [wantsKcp, List.foldl_append]
theorem isOpen_append (es fs : List KuEv) : isOpen (es ++ fs) = fs.foldl openAfter (isOpen es) := by
  simp only [isOpen, List.foldl_append]

theorem AsksFit.left {es fs : List KuEv} (h : AsksFit (es ++ fs)) : AsksFit es := fun t ms hm => h t ms (List.mem_append_left _ hm)

theorem Orderly.left {es fs : List KuEv} (h : Orderly (es ++ fs)) : Orderly es := fun pre post he => h pre (post ++ fs) (by rw [he]; simp)

/-- The wait of the aligned timer, for a call back from `b` to `n`. -/
theorem kuAligned_spec {i b n w : Nat} (hb : b ≤ n) (hl : n < b + 4294967296 * 1000) (h : alignedWait 1000 i (b : Int) (n : Int) = some w) : w ≤ i ∧ b + 1000 * i ≤ n + w * 1000 := by
  have he : elapsedMs 1000 (b : Int) (n : Int) = (n - b) / 1000 := by
    simp only [elapsedMs]
    have : ((n : Int) - b).tdiv ((1000 : Nat) : Int) = (((n - b) / 1000 : Nat) : Int) := by
      have h1 : (n : Int) - b = ((n - b : Nat) : Int) := by omega
      rw [h1, Int.ofNat_tdiv]
    rw [this]
    omega
  simp only [alignedWait, he] at h
  split at h
  · split at h
    · cases h
    · rename_i h1 h2
      simp only [Option.some.injEq] at h
      have := Nat.mod_lt ((n - b) / 1000) (Nat.pos_of_ne_zero h2)
      omega
  · simp only [Option.some.injEq] at h
    omega

theorem kuAligned_none {i : Nat} {b n : Int} (h : alignedWait 1000 i b n = none) : i = 0 := by
  simp only [alignedWait] at h
  split at h
  · split at h
    · assumption
    · cases h
  · cases h

/-- What holds at all times, as long as KCP's waits fit. -/
def Ku.Inv (al : Bool) (J C : Nat) (s : Ku) (es : List KuEv) : Prop :=
  s.opened = isOpen es ∧ s.closing = awaitingOnClose es ∧ ¬(s.opened = true ∧ s.closing = true)
  ∧ (s.timer ≠ .idle → s.kcp = true ∧ (s.opened = true ∨ s.closing = true))
  ∧ (s.opened = true → s.kcp = true → s.timer ≠ .idle)
  ∧ match s.timer with
    | .idle => True
    | .armed due => s.opened = true ∧ s.now ≤ due + J ∧ ∃ t ms, lastAsk es = some (t, ms) ∧ t + 1000 * ms ≤ due + (if al then C else 0) ∧ due ≤ t + 1000 * ms + C
    | .running b .updated => b ≤ s.now ∧ s.now ≤ b + C ∧ ∃ t ms, lastAsk es = some (t, ms) ∧ b ≤ t ∧ t ≤ s.now ∧ s.interval = ms
    | .running b _ => b ≤ s.now ∧ s.now ≤ b + C ∧ ∃ t ms, lastAsk es = some (t, ms) ∧ t + 1000 * ms ≤ b + (if al then C else 0) ∧ b ≤ t + 1000 * ms + C + J

theorem Ku.inv_step {al : Bool} {J C : Nat} (hC : C < 4294967296 * 1000) {s s' : Ku} {a : KuAct} {es fs : List KuEv} (hf : AsksFit (es ++ fs)) (hi : s.Inv al J C es) (hs : s.step al J C a = some (s', fs))
    (hc : s'.crashed = false) : s'.Inv al J C (es ++ fs) := by
  simp only [Ku.step] at hs
  split at hs
  · cases hs
  obtain ⟨h1, h2, h3, h4, h5, h6⟩ := hi
  obtain ⟨now, kcp, opened, closing, timer, interval, crashed⟩ := s
  simp only at h1 h2 h3 h4 h5 h6
  cases a with
  | tick d =>
    simp only [Ku.live] at hs
    split at hs
    · rename_i hg
      cases hs
      simp only [Ku.canTick] at hg
      simp only [List.append_nil]
      refine ⟨h1, h2, h3, h4, h5, ?_⟩
      cases timer with
      | idle => trivial
      | armed due =>
        simp only [decide_eq_true_eq] at hg
        exact ⟨h6.1, hg, h6.2.2⟩
      | running b at_ =>
        simp only [decide_eq_true_eq] at hg
        cases at_ with
        | updated =>
          obtain ⟨g1, g2, t, ms, g3, g4, g5, g6⟩ := h6
          exact ⟨by show b ≤ now + d; omega, hg, t, ms, g3, g4, by show t ≤ now + d; omega, g6⟩
        | entered => exact ⟨by show b ≤ now + d; omega, hg, h6.2.2⟩
        | inside => exact ⟨by show b ≤ now + d; omega, hg, h6.2.2⟩
    · cases hs
  | create =>
    simp only [Ku.live] at hs
    split at hs
    · cases hs
    · rename_i ho
      have ho : opened = false := by simpa using ho
      subst ho
      have key : Ku.Inv al J C { now, kcp := true, opened := false, closing, timer, interval, crashed } (es ++ fs) := by
        have hfs : fs = [.created] ∨ fs = [.misuse, .created] := by
          (repeat' split at hs) <;> cases hs <;> simp
        have e1 : lastAsk (es ++ fs) = lastAsk es := by rw [lastAsk_append]; rcases hfs with rfl | rfl <;> rfl
        have e2 : isOpen (es ++ fs) = isOpen es := by rw [isOpen_append]; rcases hfs with rfl | rfl <;> rfl
        have e3 : awaitingOnClose (es ++ fs) = awaitingOnClose es := by rw [awaiting_append]; rcases hfs with rfl | rfl <;> rfl
        refine ⟨by rw [e2]; exact h1, by rw [e3]; exact h2, h3, fun hn => ⟨rfl, (h4 hn).2⟩, fun h => by simp at h, ?_⟩
        simp only [e1]
        exact h6
      (repeat' split at hs) <;> cases hs <;> exact key
  | start ms =>
    simp only [Ku.live] at hs
    split at hs
    · cases hs
    · rename_i hg
      have hg1 : opened = false := by cases opened <;> simp at hg ⊢
      have hg2 : closing = false := by cases closing <;> simp at hg ⊢
      subst hg1 hg2
      split at hs
      · cases hs
        have hm : ms < 2 ^ 32 := hf now ms (by simp)
        have e1 : lastAsk (es ++ [.started, .ask now ms]) = some (now, ms) := by rw [lastAsk_append]; rfl
        rw [kuWait_eq (kuClock_lt _) hm]
        refine ⟨by rw [isOpen_append]; rfl, by rw [awaiting_append]; exact h2, by simp, fun _ => ⟨by assumption, Or.inl rfl⟩, fun _ _ => by simp, ?_⟩
        refine ⟨rfl, by show now ≤ now + ms * 1000 + J; omega, now, ms, e1, ?_, ?_⟩
        · show now + 1000 * ms ≤ now + ms * 1000 + _; omega
        · show now + ms * 1000 ≤ now + 1000 * ms + C; omega
      · cases hs
        rename_i hk
        have ht : timer = .idle := Decidable.byContradiction fun hn => by have := h4 hn; simp at this
        subst ht
        exact ⟨by rw [isOpen_append]; rfl, by rw [awaiting_append]; exact h2, by simp, fun h => absurd rfl h, fun _ hk' => absurd hk' hk, trivial⟩
  | begin =>
    simp only [Ku.live] at hs
    split at hs
    · rename_i due
      split at hs
      · rename_i hd
        cases hs
        obtain ⟨g1, g2, t, ms, g3, g4, g5⟩ := h6
        have e1 : lastAsk (es ++ [.began now]) = lastAsk es := by rw [lastAsk_append]; rfl
        refine ⟨by rw [isOpen_append]; exact h1, by rw [awaiting_append]; exact h2, h3, fun _ => h4 (by simp), fun _ _ => by simp, Nat.le_refl _, Nat.le_add_right _ _, t, ms, by rw [e1]; exact g3, ?_, ?_⟩
        · show t + 1000 * ms ≤ now + _; omega
        · show now ≤ t + 1000 * ms + C + J; omega
      · cases hs
    · cases hs
  | enter =>
    simp only [Ku.live] at hs
    split at hs
    · split at hs
      · cases hs
        simp only [List.append_nil]
        exact ⟨h1, h2, h3, fun _ => h4 (by simp), fun _ _ => by simp, h6⟩
      · cases hs
    · cases hs
  | update ms =>
    simp only [Ku.live] at hs
    split at hs
    · rename_i b
      cases hs
      have hm : ms < 2 ^ 32 := hf now ms (by simp)
      obtain ⟨g1, g2, -⟩ := h6
      refine ⟨by rw [isOpen_append]; exact h1, by rw [awaiting_append]; exact h2, h3, fun _ => h4 (by simp), fun _ _ => by simp, g1, g2, now, ms, by rw [lastAsk_append]; rfl, g1, Nat.le_refl _,
        kuWait_eq (kuClock_lt _) hm⟩
    · cases hs
  | finish =>
    simp only [Ku.live] at hs
    split at hs
    · rename_i b
      obtain ⟨g1, g2, t, ms, g3, g4, g5, g6⟩ := h6
      split at hs
      · rename_i ho
        split at hs
        · cases hs; cases hc
        · rename_i w hw
          cases hs
          simp only [List.append_nil]
          refine ⟨h1, h2, h3, fun _ => h4 (by simp), fun _ _ => by simp, ho, by show now ≤ now + w * 1000 + J; omega, t, ms, g3, ?_⟩
          cases al with
          | false =>
            simp only [Bool.false_eq_true, if_false, Option.some.injEq] at hw ⊢
            constructor <;> omega
          | true =>
            simp only [if_true] at hw ⊢
            have := kuAligned_spec g1 (by omega) hw
            constructor <;> omega
      · cases hs
        rename_i ho
        simp only [List.append_nil]
        exact ⟨h1, h2, h3, fun h => absurd rfl h, fun h => absurd h ho, trivial⟩
    · cases hs
  | extra =>
    simp only [Ku.live] at hs
    split at hs
    · cases hs
      have e1 : lastAsk (es ++ [.extra now (kuClock now)]) = lastAsk es := by rw [lastAsk_append]; rfl
      refine ⟨by rw [isOpen_append]; exact h1, by rw [awaiting_append]; exact h2, h3, h4, h5, ?_⟩
      simp only [e1]
      exact h6
    · cases hs
  | close =>
    simp only [Ku.live] at hs
    split at hs
    · rename_i ho
      cases hs
      have e1 : lastAsk (es ++ [.closed]) = lastAsk es := by rw [lastAsk_append]; rfl
      refine ⟨by rw [isOpen_append]; rfl, by rw [awaiting_append]; rfl, by simp, ?_, by simp, ?_⟩
      · intro hn
        refine ⟨(h4 ?_).1, Or.inr rfl⟩
        intro h
        subst h
        exact hn rfl
      · simp only [e1]
        cases timer with
        | idle => trivial
        | armed due => trivial
        | running b at_ => cases at_ <;> exact h6
    · cases hs
  | onClose =>
    simp only [Ku.live] at hs
    split at hs
    · rename_i hg
      cases hs
      have ho : opened = false := by cases opened <;> simp_all
      subst ho
      have ht := hg.2
      subst ht
      exact ⟨by rw [isOpen_append]; exact h1, by rw [awaiting_append]; rfl, by simp, fun h => absurd rfl h, by simp, trivial⟩
    · cases hs

/-- A process that crashed does nothing. -/
theorem Ku.not_crashed {al : Bool} {J C : Nat} {s s' : Ku} {a : KuAct} {fs : List KuEv} (hs : s.step al J C a = some (s', fs)) : s.crashed = false := by
  simp only [Ku.step] at hs
  split at hs
  · cases hs
  · rename_i h; simpa using h

/-- As long as the program is orderly, a socket has a KCP control block when the program wants one. -/
def Ku.WInv (s : Ku) (es : List KuEv) : Prop := (s.closing = false → s.kcp = wantsKcp es) ∧ (s.closing = true → wantsKcp es = false)

theorem Ku.winv_step {al : Bool} {J C : Nat} {s s' : Ku} {a : KuAct} {es fs : List KuEv} (hw : s.closing = awaitingOnClose es) (ho : Orderly (es ++ fs)) (hi : s.WInv es) (hs : s.step al J C a = some (s', fs)) :
    s'.WInv (es ++ fs) := by
  simp only [Ku.step] at hs
  split at hs
  · cases hs
  obtain ⟨h1, h2⟩ := hi
  obtain ⟨now, kcp, opened, closing, timer, interval, crashed⟩ := s
  simp only at h1 h2 hw
  unfold Ku.WInv
  rw [wants_append]
  cases a with
  | create =>
    have hfs : fs = [.created] ∨ fs = [.misuse, .created] := by
      simp only [Ku.live] at hs
      (repeat' split at hs) <;> cases hs <;> simp
    have hcl : closing = false := by
      rw [hw]
      rcases hfs with rfl | rfl
      · exact ho es [] rfl
      · have := ho (es ++ [.misuse]) [] (by simp)
        rw [awaiting_append] at this
        exact this
    simp only [Ku.live] at hs
    (repeat' split at hs) <;> cases hs <;> exact ⟨fun _ => rfl, fun h => by rw [hcl] at h; cases h⟩
  | close =>
    simp only [Ku.live] at hs
    by_cases hg : opened = true
    · rw [if_pos hg] at hs
      cases hs
      exact ⟨fun h => (Bool.noConfusion (show true = false from h)), fun _ => rfl⟩
    · rw [if_neg hg] at hs
      cases hs
  | onClose =>
    simp only [Ku.live] at hs
    by_cases hg : closing = true ∧ timer = .idle
    · rw [if_pos hg] at hs
      cases hs
      exact ⟨fun _ => (h2 hg.1).symm, fun h => (Bool.noConfusion (show false = true from h))⟩
    · rw [if_neg hg] at hs
      cases hs
  | _ =>
    simp only [Ku.live] at hs
    (repeat' split at hs) <;> cases hs <;> exact ⟨h1, h2⟩

theorem Ku.inv_run {al : Bool} {J C : Nat} (hC : C < 4294967296 * 1000) {t0 : Nat} {as : List KuAct} {s : Ku} {es : List KuEv} (hr : Ku.Run al J C (Ku.init t0) as s es) (hf : AsksFit es) (hc : s.crashed = false) :
    s.Inv al J C es := by
  generalize he : Ku.init t0 = s0 at hr
  induction hr with
  | nil =>
    subst he
    exact ⟨rfl, rfl, by simp [Ku.init], fun h => absurd rfl h, by simp [Ku.init], trivial⟩
  | snoc s1 s2 as a es fs _ hs ih => exact Ku.inv_step hC hf (ih hf.left (Ku.not_crashed hs)) hs hc

theorem Ku.winv_run {al : Bool} {J C : Nat} (hC : C < 4294967296 * 1000) {t0 : Nat} {as : List KuAct} {s : Ku} {es : List KuEv} (hr : Ku.Run al J C (Ku.init t0) as s es) (hf : AsksFit es) (ho : Orderly es) : s.WInv es := by
  generalize he : Ku.init t0 = s0 at hr
  induction hr with
  | nil => subst he; exact ⟨fun _ => rfl, fun h => by cases h⟩
  | snoc s1 s2 as a es fs hr hs ih =>
    subst he
    exact Ku.winv_step (Ku.inv_run hC hr hf.left (Ku.not_crashed hs)).2.1 ho (ih hf.left ho.left) hs

/-- The step in which an event happened. -/
theorem Ku.run_at {al : Bool} {J C : Nat} {s0 : Ku} {as : List KuAct} {s : Ku} {es : List KuEv} (hr : Ku.Run al J C s0 as s es) {pre : List KuEv} {e : KuEv} {post : List KuEv} (he : es = pre ++ e :: post) :
    ∃ bs s1 ds a s2 fs p q, Ku.Run al J C s0 bs s1 ds ∧ s1.step al J C a = some (s2, fs) ∧ fs = p ++ e :: q ∧ pre = ds ++ p := by
  induction hr generalizing post with
  | nil => simp at he
  | snoc s1 s2 as a es fs hr hs ih =>
    rcases List.append_eq_append_iff.mp he with ⟨x, h1, h2⟩ | ⟨x, h1, h2⟩
    · exact ⟨as, s1, es, a, s2, fs, x, post, hr, hs, h2, h1⟩
    · cases x with
      | nil =>
        simp only [List.append_nil, List.nil_append] at h1 h2
        exact ⟨as, s1, es, a, s2, fs, [], post, hr, hs, h2.symm, by simp [h1]⟩
      | cons y ys =>
        simp only [List.cons_append, List.cons.injEq] at h2
        obtain ⟨rfl, h2⟩ := h2
        exact ih h1

end StAsio
