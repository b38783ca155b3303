import Verif.Lemmas.SyncSendTime

/-!
# C114: synchronous sending returns in time, and what TIMEOUT means
-/

set_option autoImplicit false

namespace StAsio

/-- C114, all at once: someone with a stop watch who follows any one call accepts whatever they see of synchronous sending. -/
theorem C114_watch (batch : Nat) (as : List SqAct) (s : Sq) (es : List SqEv) (h : Sq.Run batch Sq.init as s es) (p : Nat) : ((SqWatch.mk none none).seeAll p es).isSome = true := by
  rw [(Sq.run_inv h).watch p]; rfl

private theorem see_step {p : Nat} {w w1 : SqWatch} {e : SqEv} {k d : Nat} (hw : w.wait = some (k, d)) (hr : e.returns p = false) (h : w.see p e = some w1) :
    w1.wait = some (k + (if e = .tick then 1 else 0), d) ∧ (e = .tick → w.outcome = none ∧ (d ≠ 0 → k < d)) ∧
    (w.outcome ≠ none → w1.outcome ≠ none) ∧ (∀ r, e = .ev (.resolved p r) → w1.outcome ≠ none) := by
  cases e with
  | tick =>
    simp only [SqWatch.see, hw] at h
    split at h
    · cases h
    · rename_i hn
      cases h
      refine ⟨by simp, fun _ => ⟨?_, fun hd => ?_⟩, fun hx => hx, fun r hx => by cases hx⟩
      · cases hx : w.outcome with
        | none => rfl
        | some r => exact absurd (Or.inl (by simp [hx])) hn
      · exact Nat.lt_of_not_le fun hx => hn (Or.inr ⟨hd, hx⟩)
  | called q d' =>
    simp only [SqWatch.see, hw] at h
    split at h
    · simp at h
    · cases h; exact ⟨by simpa using hw, fun hx => (by cases hx), fun hx => hx, fun r hx => by cases hx⟩
  | declined q => simp only [SqWatch.see, Option.some.injEq] at h; subst h; exact ⟨by simpa using hw, fun hx => (by cases hx), fun hx => hx, fun r hx => by cases hx⟩
  | ret q r =>
    simp only [SqEv.returns, beq_eq_false_iff_ne, ne_eq] at hr
    simp only [SqWatch.see, hr, if_false, Option.some.injEq] at h; subst h
    exact ⟨by simpa using hw, fun hx => (by cases hx), fun hx => hx, fun r hx => by cases hx⟩
  | timedOut q =>
    simp only [SqEv.returns, beq_eq_false_iff_ne, ne_eq] at hr
    simp only [SqWatch.see, hr, if_false, Option.some.injEq] at h; subst h
    exact ⟨by simpa using hw, fun hx => (by cases hx), fun hx => hx, fun r hx => by cases hx⟩
  | ev f =>
    cases f with
    | resolved q r =>
      simp only [SqWatch.see] at h
      split at h
      · cases h
        refine ⟨by simpa using hw, fun hx => (by cases hx), fun _ => ?_, fun _ _ => ?_⟩ <;> (cases w.outcome <;> simp)
      · rename_i hq
        cases h
        exact ⟨by simpa using hw, fun hx => (by cases hx), fun hx => hx, fun r hx => absurd (by cases hx; rfl) hq⟩
    | _ => simp only [SqWatch.see, Option.some.injEq] at h; subst h; exact ⟨by simpa using hw, fun hx => (by cases hx), fun hx => hx, fun r hx => by cases hx⟩

private theorem see_waiting (p : Nat) (es : List SqEv) : ∀ (w w' : SqWatch) (k d : Nat), w.wait = some (k, d) → (∀ e ∈ es, SqEv.returns p e = false) → w.seeAll p es = some w' →
    w'.wait = some (k + sqTime es, d) ∧ (d ≠ 0 → k ≤ d → k + sqTime es ≤ d) ∧ (w.outcome ≠ none → sqTime es = 0 ∧ w'.outcome ≠ none) ∧ (∀ r, SqEv.ev (.resolved p r) ∈ es → w'.outcome ≠ none) := by
  induction es with
  | nil =>
    intro w w' k d hw _ h
    simp only [SqWatch.seeAll, Option.some.injEq] at h
    subst h
    exact ⟨by simpa [sqTime] using hw, fun _ hk => by simpa [sqTime] using hk, fun ha => ⟨rfl, ha⟩, fun r hm => by simp at hm⟩
  | cons e es ih =>
    intro w w' k d hw hr h
    simp only [SqWatch.seeAll] at h
    cases h1 : w.see p e with
    | none => rw [h1] at h; cases h
    | some w1 =>
      rw [h1] at h
      obtain ⟨a1, a2, a3, a4⟩ := see_step hw (hr e (List.mem_cons_self ..)) h1
      obtain ⟨i1, i2, i3, i4⟩ := ih w1 w' _ d a1 (fun e he => hr e (List.mem_cons_of_mem _ he)) h
      have et : sqTime (e :: es) = (if e = .tick then 1 else 0) + sqTime es := by
        simp only [sqTime, List.count_cons, beq_iff_eq]; omega
      rw [et]
      refine ⟨by rw [i1]; congr 2; omega, fun hd hk => ?_, fun ho => ?_, fun r hm => ?_⟩
      · by_cases ht : e = .tick
        · have := (a2 ht).2 hd
          simp only [ht, if_true] at i2 ⊢
          have := i2 hd (by omega); omega
        · simp only [ht, if_false, Nat.add_zero] at i2 ⊢
          have := i2 hd hk; omega
      · have := i3 (a3 ho)
        refine ⟨?_, this.2⟩
        by_cases ht : e = .tick
        · exact absurd (a2 ht).1 ho
        · simp only [ht, if_false]; omega
      · simp only [List.mem_cons] at hm
        rcases hm with hm | hm
        · exact (i3 (a4 r hm.symm)).2
        · exact i4 r hm

private theorem see_called {p d : Nat} {es1 es2 : List SqEv} {w' : SqWatch} (h : (SqWatch.mk none none).seeAll p (es1 ++ .called p d :: es2) = some w') :
    ∃ o, (SqWatch.mk (some (0, d)) o).seeAll p es2 = some w' := by
  rw [SqWatch.seeAll_append] at h
  cases h1 : (SqWatch.mk none none).seeAll p es1 with
  | none => rw [h1] at h; cases h
  | some w =>
    rw [h1] at h
    simp only [Option.bind_some, SqWatch.seeAll, SqWatch.see, if_true] at h
    split at h
    · exact ⟨_, h⟩
    · cases h

/-- C114: a call with a duration returns within it: at no time has it been waiting longer, whatever happens to the link, to its message and to other calls (together with C114_time_goes_on). -/
theorem C114_in_time (batch : Nat) (as : List SqAct) (s : Sq) (es1 es2 : List SqEv) (p d : Nat) (hd : d ≠ 0) (h : Sq.Run batch Sq.init as s (es1 ++ .called p d :: es2))
    (hr : ∀ e ∈ es2, SqEv.returns p e = false) : sqTime es2 ≤ d := by
  obtain ⟨o, hw⟩ := see_called ((Sq.run_inv h).watch p)
  have := (see_waiting p es2 _ _ 0 d rfl hr hw).2.1 hd (by omega)
  omega

/-- C114: TIMEOUT is returned only to a caller that gave a duration, exactly at the end of it, and only if its message was neither sent, nor failed, nor popped (its promise was not set). -/
theorem C114_timeout (batch : Nat) (as : List SqAct) (s : Sq) (es1 es2 es3 : List SqEv) (p d : Nat) (h : Sq.Run batch Sq.init as s (es1 ++ .called p d :: (es2 ++ .timedOut p :: es3)))
    (hr : ∀ e ∈ es2, SqEv.returns p e = false) : d ≠ 0 ∧ sqTime es2 = d ∧ ∀ r, SqEv.ev (.resolved p r) ∉ es2 := by
  obtain ⟨o, hw⟩ := see_called ((Sq.run_inv h).watch p)
  rw [SqWatch.seeAll_append] at hw
  cases h1 : (SqWatch.mk (some (0, d)) o).seeAll p es2 with
  | none => rw [h1] at hw; cases hw
  | some w =>
    rw [h1] at hw
    obtain ⟨i1, i2, i3, i4⟩ := see_waiting p es2 _ _ 0 d rfl hr h1
    simp only [Option.bind_some, SqWatch.seeAll, SqWatch.see, i1, if_true] at hw
    split at hw
    · rename_i hc
      exact ⟨hc.1, by omega, fun r hm => i4 r hm hc.2.2⟩
    · cases hw

/-- C114: as soon as the promise of a message is set its caller returns: no time passes before, with or without a duration. -/
theorem C114_prompt (batch : Nat) (as : List SqAct) (s : Sq) (es1 es2 es3 : List SqEv) (p d : Nat) (r : SyncRes) (h : Sq.Run batch Sq.init as s (es1 ++ .called p d :: (es2 ++ .ev (.resolved p r) :: es3)))
    (hr2 : ∀ e ∈ es2, SqEv.returns p e = false) (hr3 : ∀ e ∈ es3, SqEv.returns p e = false) : sqTime es3 = 0 := by
  obtain ⟨o, hw⟩ := see_called ((Sq.run_inv h).watch p)
  rw [SqWatch.seeAll_append] at hw
  cases h1 : (SqWatch.mk (some (0, d)) o).seeAll p es2 with
  | none => rw [h1] at hw; cases hw
  | some w =>
    rw [h1] at hw
    obtain ⟨i1, _, _, _⟩ := see_waiting p es2 _ _ 0 d rfl hr2 h1
    simp only [Option.bind_some, SqWatch.seeAll, SqWatch.see, if_true] at hw
    exact ((see_waiting p es3 ⟨w.wait, w.outcome.or (some r)⟩ _ (0 + sqTime es2) d i1 hr3 hw).2.2.1 (by cases w.outcome <;> simp)).1

private theorem outcome_seen (p : Nat) (es : List SqEv) : ∀ (w w' : SqWatch) (r : SyncRes), w.outcome = none → w.seeAll p es = some w' → (w'.outcome = some r ∨ SqEv.ret p r ∈ es) → SqEv.ev (.resolved p r) ∈ es := by
  suffices ∀ (w w' : SqWatch) (r : SyncRes), w.seeAll p es = some w' → (w'.outcome = some r ∨ SqEv.ret p r ∈ es) → w.outcome = some r ∨ SqEv.ev (.resolved p r) ∈ es by
    intro w w' r hw h hx
    rcases this w w' r h hx with a | a
    · rw [hw] at a; cases a
    · exact a
  induction es with
  | nil =>
    intro w w' r h hx
    simp only [SqWatch.seeAll, Option.some.injEq] at h
    subst h
    simpa using hx
  | cons e es ih =>
    intro w w' r h hx
    simp only [SqWatch.seeAll] at h
    cases h1 : w.see p e with
    | none => rw [h1] at h; cases h
    | some w1 =>
      rw [h1] at h
      have hkey : (w1.outcome = some r → w.outcome = some r ∨ e = .ev (.resolved p r)) ∧ (e = .ret p r → w.outcome = some r) := by
        clear ih h hx
        obtain ⟨x, o⟩ := w
        cases e with
        | ev f => cases f <;> cases o <;> simp only [SqWatch.see] at h1 <;> grind
        | _ => simp only [SqWatch.see] at h1 <;> grind
      have hx' : (w1.outcome = some r ∨ SqEv.ev (.resolved p r) ∈ es) ∨ e = .ret p r := by
        rcases hx with hx | hx
        · exact Or.inl (ih w1 w' r h (Or.inl hx))
        · simp only [List.mem_cons] at hx
          rcases hx with hx | hx
          · exact Or.inr hx.symm
          · exact Or.inl (ih w1 w' r h (Or.inr hx))
      rcases hx' with (hx | hx) | hx
      · rcases hkey.1 hx with a | a
        · exact Or.inl a
        · exact Or.inr (by simp [a])
      · exact Or.inr (List.mem_cons_of_mem _ hx)
      · exact Or.inl (hkey.2 hx)

private theorem done_true {batch : Nat} {as : List SqAct} {s : Sq} {es : List SqEv} (h : Sq.Run batch Sq.init as s es) {p : Nat} {r : SyncRes} (hd : s.done p = some r) : Justified es p r := by
  have hw := outcome_seen p _ _ _ r rfl ((Sq.run_inv h).watch p) (Or.inl hd)
  obtain ⟨bs, ht⟩ := Sq.run_tx h
  have hback : ∀ (e : TxEv) (l : List SqEv), e ∈ l.filterMap SqEv.tx → SqEv.ev e ∈ l := by
    intro e l he
    obtain ⟨x, hx, hxe⟩ := List.mem_filterMap.mp he
    cases x <;> simp only [SqEv.tx] at hxe <;> cases hxe
    exact hx
  obtain ⟨ms, m, h1, h2, h3⟩ := Tx.resolved_true ht p r (List.mem_filterMap.mpr ⟨_, hw, rfl⟩)
  refine ⟨ms, m, h1, h2, ?_⟩
  rcases h3 with ⟨a, b⟩ | ⟨a, b | b⟩
  · exact Or.inl ⟨a, hback _ _ b⟩
  · exact Or.inr ⟨a, Or.inl (hback _ _ b)⟩
  · exact Or.inr ⟨a, Or.inr (hback _ _ b)⟩

private theorem ret_step {batch : Nat} {s s' : Sq} {a : SqAct} {es : List SqEv} (hs : s.step batch a = some (s', es)) {p : Nat} {r : SyncRes} (hm : SqEv.ret p r ∈ es) : es = [.ret p r] ∧ s.done p = some r := by
  cases a <;> simp only [Sq.step] at hs
  · split at hs
    · split at hs
      · split at hs <;> cases hs <;> simp at hm
      · cases hs
    · cases hs
  · split at hs
    · split at hs
      · cases hs; simp at hm
      · cases hs
    · cases hs
  · split at hs
    · rename_i hd
      cases hs
      simp only [List.mem_singleton, SqEv.ret.injEq] at hm
      obtain ⟨rfl, rfl⟩ := hm
      exact ⟨rfl, hd⟩
    · cases hs
  · split at hs
    · split at hs
      · cases hs; simp at hm
      · cases hs
    · cases hs
  · split at hs
    · cases hs
    · cases hs; simp at hm

/-- C114: answers are true. A call that returns SUCCESS had its message reported as sent before; one that waited and returns NOT_APPLICABLE had its message reported as failed or popped before. -/
theorem C114_answer (batch : Nat) (as : List SqAct) (s : Sq) (es1 es2 : List SqEv) (p : Nat) (r : SyncRes) (h : Sq.Run batch Sq.init as s (es1 ++ .ret p r :: es2)) : Justified es1 p r := by
  generalize he : Sq.init = s0 at h
  generalize hes : es1 ++ .ret p r :: es2 = es at h
  induction h generalizing es2 with
  | nil => simp at hes
  | snoc s1 s2 as a es es' hr hs ih =>
    subst he
    rcases List.append_eq_append_iff.mp hes with ⟨l, h1, h2⟩ | ⟨l, h1, h2⟩
    · cases l with
      | nil =>
        simp only [List.append_nil] at h1
        have := ret_step (p := p) (r := r) hs (by rw [← List.nil_append es', ← h2]; simp)
        rw [← h1]; exact done_true hr this.2
      | cons x l =>
        simp only [List.cons_append, List.cons.injEq] at h2
        exact ih l (by rw [h1, ← h2.1])
    · have := ret_step (p := p) (r := r) hs (by rw [h2]; simp)
      rw [this.1] at h2
      cases l with
      | nil => simp only [List.append_nil] at h1; rw [h1]; exact done_true hr this.2
      | cons x l => simp at h2

private theorem put (batch : Nat) (t t' : Tx) (a : TxAct) (p : Nat) (es : List TxEv) (hp : a.promises = [p]) (hs : t.step batch a = some (t', es)) :
    (∃ ms prior, es = [.accept ms prior] ∧ promiseIds ms = [p]) ∨ (es = [] ∧ t'.q = t.q) := by
  cases a with
  | send m prior fits =>
    simp only [TxAct.promises] at hp
    simp only [Tx.step, Option.some.injEq] at hs
    have h1 := congrArg Prod.fst hs
    have h2 := congrArg Prod.snd hs
    simp only at h1 h2
    subst h1 h2
    simp only [Tx.send]
    split
    · exact Or.inr ⟨rfl, rfl⟩
    · split <;> split
      · exact Or.inl ⟨_, _, rfl, hp⟩
      · exact Or.inr ⟨rfl, rfl⟩
      · exact Or.inl ⟨_, _, rfl, hp⟩
      · exact Or.inr ⟨rfl, rfl⟩
  | sendList ms prior =>
    simp only [TxAct.promises] at hp
    simp only [Tx.step, Option.some.injEq] at hs
    have h1 := congrArg Prod.fst hs
    have h2 := congrArg Prod.snd hs
    simp only at h1 h2
    subst h1 h2
    simp only [Tx.sendList]
    split
    · exact Or.inr ⟨rfl, rfl⟩
    · exact Or.inl ⟨_, _, rfl, hp⟩
  | _ => simp [TxAct.promises] at hp

/-- C114: a call waits exactly if its messages were put into the send buffer: one that waits did so when it came, and one that returns at once left the send buffer as it was. -/
theorem C114_admitted (batch : Nat) (s s' : Sq) (p d : Nat) (a : TxAct) (es : List SqEv) (hs : s.step batch (.call p d a) = some (s', es)) :
    (∃ ms prior, es = [.called p d, .ev (.accept ms prior)] ∧ promiseIds ms = [p] ∧ s'.calls p = some (s.now, d)) ∨ (es = [.declined p] ∧ s'.tx.q = s.tx.q ∧ s'.calls = s.calls) := by
  simp only [Sq.step] at hs
  split at hs
  · rename_i hc
    split at hs
    · rename_i t fs ht
      rcases put batch _ _ a p _ hc.1 ht with ⟨ms, prior, rfl, h2⟩ | ⟨rfl, h2⟩
      · have : ¬ acceptedMsgs [.accept ms prior] = [] := by
          simp only [acceptedMsgs, List.append_nil]
          intro hn; rw [hn] at h2; simp [promiseIds] at h2
        rw [if_neg this] at hs
        cases hs
        exact Or.inl ⟨ms, prior, rfl, h2, by simp⟩
      · rw [if_pos (show acceptedMsgs [] = [] from rfl)] at hs
        cases hs
        exact Or.inr ⟨rfl, h2, rfl⟩
    · cases hs
  · cases hs

/-- Returns of callers. -/
def SqAct.own : SqAct → Prop
  | .ret _ | .timeout _ => True
  | _ => False

private theorem to_rest (batch : Nat) (l : List Nat) : ∀ (s0 s : Sq) (as : List SqAct) (es : List SqEv), Sq.Run batch s0 as s es → (∀ a ∈ as, SqAct.own a) → (∀ q, s.due q = true → q ∈ l) →
    ∃ as' s' es', Sq.Run batch s0 as' s' es' ∧ (∀ a ∈ as', SqAct.own a) ∧ ∀ q, s'.due q = false := by
  induction l with
  | nil =>
    intro s0 s as es hr ha hd
    refine ⟨as, s, es, hr, ha, fun q => ?_⟩
    cases hq : s.due q with
    | false => rfl
    | true => exact absurd (hd q hq) (by simp)
  | cons p l ih =>
    intro s0 s as es hr ha hd
    cases hp : s.due p with
    | false =>
      refine ih s0 s as es hr ha fun q hq => ?_
      rcases List.mem_cons.mp (hd q hq) with rfl | h
      · rw [hp] at hq; cases hq
      · exact h
    | true =>
      have : ∃ a es', SqAct.own a ∧ s.step batch a = some ({ s with calls := fun q => if q = p then none else s.calls q }, es') := by
        simp only [Sq.due] at hp
        split at hp
        · cases hp
        · rename_i since d hc
          cases hdn : s.done p with
          | some r => exact ⟨.ret p, [.ret p r], trivial, by simp [Sq.step, hc, hdn]⟩
          | none =>
            simp only [hdn, Option.isSome_none, Bool.false_or, Bool.and_eq_true, bne_iff_ne, decide_eq_true_eq] at hp
            exact ⟨.timeout p, [.timedOut p], trivial, by simp only [Sq.step, hc, hdn]; rw [if_pos hp]⟩
      obtain ⟨a, es', ho, hs⟩ := this
      refine ih s0 _ _ _ (.snoc _ _ _ _ _ _ _ hr hs) ?_ fun q hq => ?_
      · intro x hx
        simp only [List.mem_append, List.mem_singleton] at hx
        rcases hx with hx | rfl
        · exact ha x hx
        · exact ho
      · by_cases e : q = p
        · subst e; simp [Sq.due] at hq
        · have : s.due q = true := by simpa [Sq.due, e] using hq
          rcases List.mem_cons.mp (hd q this) with h | h
          · exact absurd h e
          · exact h

/-- C114: time goes on. In every state finitely many calls return and then time can pass; so the bound of C114_in_time is not met by standing still. -/
theorem C114_time_goes_on (batch : Nat) (as : List SqAct) (s : Sq) (es : List SqEv) (h : Sq.Run batch Sq.init as s es) :
    ∃ as' s' es' s'', Sq.Run batch s as' s' es' ∧ (∀ a ∈ as', SqAct.own a) ∧ s'.step batch .tick = some (s'', [.tick]) := by
  obtain ⟨as', s', es', h1, h2, h3⟩ := to_rest batch s.used s s [] [] (.nil _) (by simp) (fun q hq => by
    refine (Sq.run_inv h).used q ?_
    intro hn; simp [Sq.due, hn] at hq)
  refine ⟨as', s', es', { s' with now := s'.now + 1 }, h1, h2, ?_⟩
  simp only [Sq.step]
  rw [if_neg (by simp [h3])]

private theorem sq_run_of {batch : Nat} (as : List SqAct) (f : List SqEv → Bool) (h : ((Sq.exec batch Sq.init as).map fun x => f x.2) = some true) : ∃ s es, Sq.Run batch Sq.init as s es ∧ f es = true := by
  cases hx : Sq.exec batch Sq.init as with
  | none => rw [hx] at h; cases h
  | some x => rw [hx] at h; exact ⟨x.1, x.2, Sq.exec_run hx, by simpa using h⟩

private def lateActs : List SqAct := [.act .linkUp, .act .loadReady, .act .loadFlag, .call 0 2 (.send ⟨[1], some 0⟩ false true), .act .runPosted, .act .strand, .act .strand, .tick, .tick, .timeout 0,
  .act (.transfer 0 1), .act (.complete 0 true), .act (.handler 0)]

/-- TIMEOUT does not mean that the message is not sent: it stays in the send buffer, or in the hands of the system, and is sent later. A caller that repeats the call sends it twice. -/
theorem C114_timeout_not_final : ∃ s es, Sq.Run 0 Sq.init lateActs s es ∧ es = [.called 0 2, .ev (.accept [⟨[1], some 0⟩] false), .ev (.handOff [⟨[1], some 0⟩]), .tick, .tick, .timedOut 0,
    .ev (.resolved 0 .success), .ev (.sent [⟨[1], some 0⟩])] := by
  obtain ⟨s, es, h1, h2⟩ := sq_run_of (batch := 0) lateActs (fun es => decide (es = [.called 0 2, .ev (.accept [⟨[1], some 0⟩] false), .ev (.handOff [⟨[1], some 0⟩]), .tick, .tick, .timedOut 0,
    .ev (.resolved 0 .success), .ev (.sent [⟨[1], some 0⟩])])) (by decide +kernel)
  exact ⟨s, es, h1, of_decide_eq_true h2⟩

/-- Non-vacuity: of two calls one gets SUCCESS after one unit of time, the other TIMEOUT after three. -/
theorem C114_demo : ∃ as s es, Sq.Run 0 Sq.init as s es ∧ es.filter (fun e => e.tx.isNone) = [.called 0 2, .called 1 3, .tick, .ret 0 .success, .tick, .tick, .timedOut 1] := by
  obtain ⟨s, es, h1, h2⟩ := sq_run_of (batch := 0) [.act .linkUp, .act .loadReady, .act .loadFlag, .call 0 2 (.send ⟨[1], some 0⟩ false true), .act .runPosted, .act .strand, .act .strand,
    .call 1 3 (.send ⟨[2], some 1⟩ false true), .tick, .act (.transfer 0 1), .act (.complete 0 true), .act (.handler 0), .ret 0, .tick, .tick, .timeout 1]
    (fun es => decide (es.filter (fun e => e.tx.isNone) = [.called 0 2, .called 1 3, .tick, .ret 0 .success, .tick, .tick, .timedOut 1])) (by decide +kernel)
  exact ⟨_, s, es, h1, of_decide_eq_true h2⟩

private theorem forever_ticks (batch : Nat) (s : Sq) (as : List SqAct) (es : List SqEv) (h : Sq.Run batch Sq.init as s es) (hd : ∀ q, s.due q = false) (h0 : ∀ q c, s.calls q = some c → c.2 = 0) (n : Nat) :
    Sq.Run batch Sq.init (as ++ List.replicate n .tick) { s with now := s.now + n } (es ++ List.replicate n .tick) := by
  induction n with
  | zero => simpa using h
  | succ n ih =>
    rw [List.replicate_succ', List.replicate_succ', ← List.append_assoc, ← List.append_assoc]
    refine .snoc _ _ _ _ _ _ _ ih ?_
    have hd' : ∀ q, ({ s with now := s.now + n } : Sq).due q = false := by
      intro q
      have := hd q
      simp only [Sq.due] at this ⊢
      cases hc : s.calls q with
      | none => rfl
      | some c =>
        have hz := h0 q c hc
        obtain ⟨a, b⟩ := c
        simp only at hz; subst hz
        simpa [hc] using this
    simp only [Sq.step]
    rw [if_neg (by simp [hd'])]
    rfl

private def lostActs : List SqAct := [.call 0 0 (.send ⟨[1], some 0⟩ false true), .act .loadReady, .act (.shrink 1)]

/-- Without a duration there is no bound: the message is discarded and the caller waits for ever (see C23_fails_discarded). -/
theorem C114_fails_forever (n : Nat) : ∃ as s es, Sq.Run 0 Sq.init as s es ∧ es = [.called 0 0, .ev (.accept [⟨[1], some 0⟩] false), .ev (.discarded [⟨[1], some 0⟩])] ++ List.replicate n .tick ∧ s.tx.q.items = [] ∧ s.calls 0 = some (0, 0) := by
  have hx : ∃ s, Sq.exec 0 Sq.init lostActs = some (s, [.called 0 0, .ev (.accept [⟨[1], some 0⟩] false), .ev (.discarded [⟨[1], some 0⟩])]) ∧ s.tx.q.items = [] ∧ s.calls = (fun q => if q = 0 then some (0, 0) else none) ∧ s.done = fun _ => none := by
    refine ⟨_, rfl, rfl, rfl, rfl⟩
  obtain ⟨s, h1, h2, h3, h4⟩ := hx
  refine ⟨_, _, _, forever_ticks 0 s _ _ (Sq.exec_run h1) ?_ ?_ n, rfl, h2, by simp [h3]⟩
  · intro q
    simp only [Sq.due, h3, h4]
    by_cases e : q = 0 <;> simp [e]
  · intro q c hc
    simp only [h3] at hc
    split at hc
    · cases hc; rfl
    · cases hc

end StAsio
