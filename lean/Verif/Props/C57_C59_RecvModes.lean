import Verif.Lemmas.RecvModes

/-!
# C57, C58, C59: batch dispatching, synchronous dispatching and passive receiving

All theorems hold for every combination of the three macros unless a hypothesis says otherwise.
-/

set_option autoImplicit false

namespace StAsio

set_option linter.unusedSimpArgs false

/-- Every history is accepted by the ideal receiver (Spec/RecvModes), in every mode: one read at a time, everything read goes to on_msg and what it leaves goes to the buffer, one on_msg_handle at a time, in order, and no assertion fails. -/
theorem C57_ideal {c : MCfg} {limit : Nat} {as : List MAct} {s : Rm} {es : List MEv} (h : Rm.Run c limit Rm.init as s es) :
    (∃ t, IdealM.init.monitor c.batch c.sync c.passive es = some t) ∧ s.bad = false :=
  ⟨⟨_, (Rm.run_good h).2.2⟩, (Rm.run_good h).1.bad⟩

theorem mMonitor_plain {b y p : Bool} {t t' : IdealM} {es : List MEv} (h : t.monitor b y p es = some t') (hp : ∀ e ∈ es, MPlainEv e) :
    t.cur.toList ++ t.waiting ++ mQueued es = mHandled es ++ t'.cur.toList ++ t'.waiting ∨ (b = true ∧ t.cur ≠ none) := by
  induction es generalizing t with
  | nil => simp [IdealM.monitor] at h; subst h; simp [mQueued, mHandled]
  | cons e es ih =>
    simp only [IdealM.monitor] at h
    cases he : t.event b y p e with
    | none => rw [he] at h; cases h
    | some t1 =>
      rw [he] at h
      have ih := ih h (fun x hx => hp x (by simp [hx]))
      have hpe := hp e (by simp)
      cases e with
      | ret m ok =>
        simp only [IdealM.event] at he
        split at he
        · cases he
          cases ok <;> simp only [mQueued, mHandled] at ih ⊢ <;> grind
        · cases he
      | _ =>
        simp only [IdealM.event] at he <;> (repeat' split at he) <;> first
        | (cases he; done)
        | (exfalso; exact hpe)
        | (simp only [Option.some.injEq] at he; subst he; simp only [mQueued, mHandled] at ih ⊢; grind)
        | (rw [Option.map_eq_some_iff] at he; obtain ⟨w, h1, rfl⟩ := he; have := mStrip_some h1; simp only [mQueued, mHandled] at ih ⊢; grind)

/-- **C57** (order, in every mode): if the user neither pops nor resets, what on_msg_handle has disposed of, the message being dispatched and what is in the receive buffer are, in this order, exactly what was put into the buffer: nothing lost, nothing twice, nothing out of order. -/
theorem C57_order {c : MCfg} {limit : Nat} {as : List MAct} {s : Rm} {es : List MEv} (h : Rm.Run c limit Rm.init as s es) (hp : ∀ e ∈ es, MPlainEv e) :
    mQueued es = mHandled es ++ s.cur.toList ++ s.buf.items := by
  rcases mMonitor_plain (Rm.run_good h).2.2 hp with h | h
  · simpa [IdealM.init, Rm.ideal] using h
  · simp [IdealM.init] at h

theorem mMonitor_calls {b y p : Bool} {t t' : IdealM} {es : List MEv} (h : t.monitor b y p es = some t') : mCalls es + t.busy.toNat = mRets es + t'.busy.toNat := by
  induction es generalizing t with
  | nil => simp [IdealM.monitor] at h; subst h; simp [mCalls, mRets]
  | cons e es ih =>
    simp only [IdealM.monitor] at h
    cases he : t.event b y p e with
    | none => rw [he] at h; cases h
    | some t1 =>
      rw [he] at h
      have ih := ih h
      cases e <;> simp only [IdealM.event] at he <;> (repeat' split at he) <;> first
        | (cases he; done)
        | (simp only [Option.some.injEq] at he; subst he; simp only [mCalls, mRets] at ih ⊢; grind)
        | (rw [Option.map_eq_some_iff] at he; obtain ⟨w, h1, rfl⟩ := he; simp only [mCalls, mRets] at ih ⊢; grind)

theorem mMonitor_reads {b y p : Bool} {t t' : IdealM} {es : List MEv} (h : t.monitor b y p es = some t') : mReads es + t.reading.toNat = mReadEnds es + t'.reading.toNat := by
  induction es generalizing t with
  | nil => simp [IdealM.monitor] at h; subst h; simp [mReads, mReadEnds]
  | cons e es ih =>
    simp only [IdealM.monitor] at h
    cases he : t.event b y p e with
    | none => rw [he] at h; cases h
    | some t1 =>
      rw [he] at h
      have ih := ih h
      cases e <;> simp only [IdealM.event] at he <;> (repeat' split at he) <;> first
        | (cases he; done)
        | (simp only [Option.some.injEq] at he; subst he; simp only [mReads, mReadEnds] at ih ⊢; grind)
        | (rw [Option.map_eq_some_iff] at he; obtain ⟨w, h1, rfl⟩ := he; simp only [mReads, mReadEnds] at ih ⊢; grind)

theorem mMonitor_prefix {b y p : Bool} {t t' : IdealM} {es fs : List MEv} (h : t.monitor b y p (es ++ fs) = some t') : ∃ u, t.monitor b y p es = some u := by
  rw [mMonitor_append] at h
  cases hu : t.monitor b y p es with
  | none => rw [hu] at h; cases h
  | some u => exact ⟨u, rfl⟩

/-- **C57** (one call at a time): at every moment of every history at most one call of on_msg_handle is running. -/
theorem C57_one_at_a_time {c : MCfg} {limit : Nat} {as : List MAct} {s : Rm} {es fs : List MEv} (h : Rm.Run c limit Rm.init as s (es ++ fs)) : mRets es ≤ mCalls es ∧ mCalls es ≤ mRets es + 1 := by
  obtain ⟨u, hu⟩ := mMonitor_prefix (Rm.run_good h).2.2
  have := mMonitor_calls hu
  have : u.busy.toNat ≤ 1 := by cases u.busy <;> decide
  simp [IdealM.init] at *
  omega

/-- **C57** (nothing is left behind, partial): when the dispatcher is at rest (no task posted, no timer armed), the receive buffer is empty and no message is being dispatched; in every mode. Missing: a re-dispatch timer stopped by a close that was followed by a reconnection (`dlost`), see C57_fails_after_reconnect. -/
theorem C57_nothing_left_partial {c : MCfg} {limit : Nat} {as : List MAct} {s : Rm} {es : List MEv} (h : Rm.Run c limit Rm.init as s es) (hl : s.dlost = false)
    (h1 : s.posted = 0) (h2 : s.pc = .idle) (h3 : s.dtimer = false) (h4 : s.hp ≠ .moved) : s.buf.items = [] ∧ s.cur = none := by
  have hi := (Rm.run_good h).1
  have hd : s.dispatching = false := by
    cases hd : s.dispatching with
    | false => rfl
    | true => have := hi.wakeD h2 hd; simp [h1, h3, hl] at this
  constructor
  · cases hb : s.buf.items with
    | nil => rfl
    | cons m l => have := hi.wakeB (by simp [hb]); simp [h1, h2, hd, h4] at this
  · cases hc : c.batch with
    | true => exact hi.batch hc
    | false =>
      have := hi.idle hc h2
      cases hcu : s.cur with
      | none => rfl
      | some m => simp [hd, hcu] at this

/-! ### draining -/

/-- The steps of the dispatcher, the user's handler accepting: in batch mode it takes all messages. -/
def MAct.dispatch : MAct → Bool
  | .loadDisp | .run | .begin | .ret true | .takeAll | .retAll 1 | .dis | .dtimer => true
  | _ => false

/-- What is left to do for the dispatcher. -/
def Rm.work (c : MCfg) (s : Rm) : Nat :=
  s.posted + (if s.dtimer then 2 else 0) + (if s.hp = .moved then 2 else 0) +
    if c.batch then
      match s.pc with
      | .idle => if s.buf.items = [] then 0 else 8
      | .got => 7
      | .handling => if s.buf.items = [] then 5 else 6
      | .clearing => if s.buf.items = [] then 4 else 12
      | .posting => if s.buf.items = [] then 3 else 11
      | .refused => if s.buf.items = [] then 5 else 13
    else
      8 * s.buf.items.length + match s.pc with
        | .idle => if s.cur = none then 0 else 6
        | .got => 6
        | .handling => 5
        | .clearing => 4
        | .posting => 3
        | .refused => 9

theorem Rm.dispatch_step {c : MCfg} {limit : Nat} {s : Rm} (h : s.Inv c) (hl : s.dlost = false) (hw : 0 < s.work c) :
    ∃ a s' fs, MAct.dispatch a = true ∧ s.step c limit a = some (s', fs) ∧ s'.work c < s.work c ∧ s'.dlost = false := by
  obtain ⟨h1, h2, h3, h4, h5, h6, h7, h8, h9, h10, h11, h12⟩ := h
  by_cases hm : s.hp = .moved
  · refine ⟨.loadDisp, _, _, rfl, by simp only [Rm.step, hm]; rfl, ?_, by exact hl⟩
    simp only [Rm.work, hm]
    cases s.dispatching <;> simp <;> omega
  · cases hpc : s.pc with
    | idle =>
      by_cases hp : 0 < s.posted
      · cases hb : c.batch with
        | true =>
          cases hi : s.buf.items with
          | nil =>
            refine ⟨.run, _, _, rfl, by simp only [Rm.step, hb, hi]; rw [if_neg (by simp [hpc]; omega)]; rfl, ?_, by exact hl⟩
            simp [Rm.work, hb, hpc, hi, hm]; omega
          | cons m l =>
            refine ⟨.run, _, _, rfl, by simp only [Rm.step, hb, hi]; rw [if_neg (by simp [hpc]; omega)]; rfl, ?_, by exact hl⟩
            simp [Rm.work, hb, hpc, hi, hm]; omega
        | false =>
          cases hd : s.dispatching with
          | true =>
            have hc := (h5 hb hpc).1 hd
            refine ⟨.run, _, _, rfl, by simp only [Rm.step, hb, hd]; rw [if_neg (by simp [hpc]; omega)]; rfl, ?_, by exact hl⟩
            simp [Rm.work, hb, hpc, hm, hc]; omega
          | false =>
            cases hi : s.buf.items with
            | nil =>
              refine ⟨.run, _, _, rfl, by simp only [Rm.step, hb, hd, Rm.deq_nil hi]; rw [if_neg (by simp [hpc]; omega)]; rfl, ?_, by exact hl⟩
              simp [Rm.work, hb, hpc, hi, hm]; omega
            | cons m l =>
              refine ⟨.run, _, _, rfl, by simp only [Rm.step, hb, hd, Rm.deq_cons hi]; rw [if_neg (by simp [hpc]; omega)]; rfl, ?_, by exact hl⟩
              simp [Rm.work, hb, hpc, hi, hm]; omega
      · cases ht : s.dtimer with
        | true =>
          refine ⟨.dtimer, _, _, rfl, by simp only [Rm.step, ht]; rfl, ?_, by exact hl⟩
          simp [Rm.work, ht]
        | false =>
          exfalso
          have hd : s.dispatching = false := by
            cases hd : s.dispatching with
            | false => rfl
            | true => have := h11 hpc hd; simp [ht, hl, hp] at this
          have hi : s.buf.items = [] := by
            cases hi : s.buf.items with
            | nil => rfl
            | cons m l => have := h12 (by simp [hi]); simp [hp, hpc, hd, hm] at this
          have hp : s.posted = 0 := by omega
          cases hb : c.batch with
          | true => simp [Rm.work, hb, hi, hp, ht, hm, hpc] at hw
          | false =>
            have hc : s.cur = none := by
              cases hc : s.cur with
              | none => rfl
              | some m => have := (h5 hb hpc).2 (by simp [hc]); simp [hd] at this
            simp [Rm.work, hb, hi, hp, ht, hm, hpc, hc] at hw
    | got =>
      cases hb : c.batch with
      | true =>
        refine ⟨.begin, _, _, rfl, by simp only [Rm.step, hb, hpc]; rfl, ?_, by exact hl⟩
        simp [Rm.work, hb, hpc]; split <;> omega
      | false =>
        cases hc : s.cur with
        | none => exact absurd hc (h6 hb hpc)
        | some m =>
          refine ⟨.begin, _, _, rfl, by simp only [Rm.step, hb, hpc, hc]; rfl, ?_, by exact hl⟩
          simp [Rm.work, hb, hpc]
    | handling =>
      cases hb : c.batch with
      | true =>
        cases hi : s.buf.items with
        | nil =>
          refine ⟨.retAll 1, _, _, rfl, by simp only [Rm.step, hb, hpc]; rfl, ?_, by exact hl⟩
          simp [Rm.work, hb, hpc, hi]
        | cons m l =>
          refine ⟨.takeAll, _, _, rfl, by simp only [Rm.step, hb, hpc]; rfl, ?_, by exact hl⟩
          simp [Rm.work, hb, hpc, hi, Q.swap]
      | false =>
        cases hc : s.cur with
        | none => exact absurd hc ((h7 hpc).2 hb)
        | some m =>
          refine ⟨.ret true, _, _, rfl, by simp only [Rm.step, hb, hpc, hc]; rfl, ?_, by exact hl⟩
          simp [Rm.work, hb, hpc]
    | clearing =>
      refine ⟨.dis, _, _, rfl, by simp only [Rm.step, hpc]; rfl, ?_, by rfl⟩
      simp only [Rm.work, hpc]
      cases c.batch <;> simp
      split <;> omega
    | posting =>
      have hc := (h10 hpc).1
      refine ⟨.dis, _, _, rfl, by simp only [Rm.step, hpc]; rfl, ?_, by exact hl⟩
      simp only [Rm.work, hpc, hc]
      cases c.batch <;> simp
      · omega
      · by_cases hi : s.buf.items = [] <;> simp [hi] <;> omega
    | refused =>
      refine ⟨.dis, _, _, rfl, by simp only [Rm.step, hpc]; rfl, ?_, by rfl⟩
      simp only [Rm.work, hpc]
      cases c.batch <;> simp
      · split <;> split <;> omega
      · split <;> split <;> omega

theorem Rm.work_zero {c : MCfg} {s : Rm} (h : s.Inv c) (hw : s.work c = 0) : s.buf.items = [] ∧ s.cur = none ∧ s.posted = 0 ∧ s.pc = .idle ∧ s.dtimer = false ∧ s.hp ≠ .moved := by
  have hb := h.batch
  simp only [Rm.work] at hw
  cases hpc : s.pc <;> cases hc : c.batch <;> simp [hpc, hc] at hw hb ⊢ <;> grind [List.eq_nil_iff_length_eq_zero]

theorem Rm.drain (c : MCfg) (limit : Nat) : ∀ (n : Nat) (s : Rm), s.Inv c → s.dlost = false → s.work c ≤ n →
    ∃ bs s' fs, Rm.Run c limit s bs s' fs ∧ (∀ b ∈ bs, b.dispatch = true) ∧ s'.work c = 0 ∧ s'.Inv c ∧ s.ideal.monitor c.batch c.sync c.passive fs = some s'.ideal ∧ s'.dlost = false := by
  intro n
  induction n with
  | zero => intro s h hl hw; exact ⟨[], s, [], Rm.Run.nil s, by simp, by omega, h, rfl, hl⟩
  | succ n ih =>
    intro s h hl hw
    by_cases hz : s.work c = 0
    · exact ⟨[], s, [], Rm.Run.nil s, by simp, hz, h, rfl, hl⟩
    · obtain ⟨a, s1, fs, ha, hs, hlt, hl1⟩ := Rm.dispatch_step (limit := limit) h hl (by omega)
      have hh : a.honest s := by cases a <;> simp_all [MAct.dispatch, MAct.honest]
      have hi := Rm.inv_step h hh hs
      obtain ⟨bs, s2, gs, g1, g2, g3, g4, g5, g6⟩ := ih s1 hi hl1 (by omega)
      refine ⟨a :: bs, s2, fs ++ gs, ?_, ?_, g3, g4, ?_, g6⟩
      · exact Rm.run_trans (Rm.run_one hh hs) g1
      · intro b hb; rcases List.mem_cons.1 hb with rfl | hb
        · exact ha
        · exact g2 b hb
      · rw [mMonitor_append, Rm.mon_step h hh hs]; exact g5

theorem Rm.dispatch_plain {c : MCfg} {limit : Nat} {s s' : Rm} {as : List MAct} {fs : List MEv} (h : Rm.Run c limit s as s' fs) (ha : ∀ a ∈ as, a.dispatch = true) : (∀ e ∈ fs, MPlainEv e) ∧ mQueued fs = [] := by
  induction h with
  | nil => simp [mQueued]
  | snoc s1 s2 as a es fs _ hh hs ih =>
    have h1 := ih (fun x hx => ha x (by simp [hx]))
    have h2 := ha a (by simp)
    have hq : ∀ es fs, mQueued (es ++ fs) = mQueued es ++ mQueued fs := by
      intro es fs
      induction es with
      | nil => rfl
      | cons e es ih => cases e <;> simp [mQueued, ih]
    have h3 : (∀ e ∈ fs, MPlainEv e) ∧ mQueued fs = [] := by
      cases a <;> simp only [MAct.dispatch, Bool.false_eq_true] at h2 <;> simp only [Rm.step] at hs <;> (repeat' split at hs) <;>
        first | (cases hs; done) | (simp only [Option.some.injEq, Prod.mk.injEq] at hs; obtain ⟨rfl, rfl⟩ := hs; simp [MPlainEv, mQueued])
    refine ⟨?_, by rw [hq, h1.2, h3.2]; rfl⟩
    intro e he
    rcases List.mem_append.1 he with he | he
    · exact h1.1 e he
    · exact h3.1 e he

/-- **C57** (everything is dispatched, partial): from every reachable state the dispatcher can go on until every message in the receive buffer was handed to on_msg_handle, in order; in every mode, whatever happened before. Missing: as for C57_nothing_left_partial. -/
theorem C57_drains_partial {c : MCfg} {limit : Nat} {as : List MAct} {s : Rm} {es : List MEv} (h : Rm.Run c limit Rm.init as s es) (hl : s.dlost = false) :
    ∃ bs s' fs, Rm.Run c limit s bs s' fs ∧ (∀ b ∈ bs, b.dispatch = true) ∧ s'.buf.items = [] ∧ s'.cur = none ∧ mHandled fs = s.cur.toList ++ s.buf.items := by
  have hi := (Rm.run_good h).1
  obtain ⟨bs, s', fs, g1, g2, g3, g4, g5, _⟩ := Rm.drain c limit _ s hi hl (Nat.le_refl _)
  obtain ⟨e1, e2, _⟩ := Rm.work_zero g4 g3
  obtain ⟨p1, p2⟩ := Rm.dispatch_plain g1 g2
  refine ⟨bs, s', fs, g1, g2, e1, e2, ?_⟩
  rcases mMonitor_plain g5 p1 with hm | hm
  · simpa [Rm.ideal, p2, e1, e2] using hm.symm
  · exact absurd (hi.batch hm.1) hm.2

/-! ### C58: ST_ASIO_SYNC_DISPATCH -/

theorem mReceived_append (es fs : List MEv) : mReceived (es ++ fs) = mReceived es ++ mReceived fs := by
  induction es with
  | nil => rfl
  | cons e es ih => cases e <;> simp [mReceived, ih]

theorem mOnMsg_append (es fs : List MEv) : mOnMsg (es ++ fs) = mOnMsg es ++ mOnMsg fs := by
  induction es with
  | nil => rfl
  | cons e es ih => cases e <;> simp [mOnMsg, ih]

theorem mLeft_append (es fs : List MEv) : mLeft (es ++ fs) = mLeft es ++ mLeft fs := by
  induction es with
  | nil => rfl
  | cons e es ih => cases e <;> simp [mLeft, ih]

theorem mQueued_append (es fs : List MEv) : mQueued (es ++ fs) = mQueued es ++ mQueued fs := by
  induction es with
  | nil => rfl
  | cons e es ih => cases e <;> simp [mQueued, ih]

theorem mReceivedOrEmpty_append (es fs : List MEv) : mReceivedOrEmpty (es ++ fs) = mReceivedOrEmpty es ++ mReceivedOrEmpty fs := by
  induction es with
  | nil => rfl
  | cons e es ih => cases e <;> simp [mReceivedOrEmpty, ih]

/-- What recv_handler holds between parse_msg and handle_msg. -/
def Rm.fresh (s : Rm) : List Bytes := if s.hp = .parsed then s.temp else []

theorem Rm.fresh_step {c : MCfg} {limit : Nat} {s s' : Rm} {a : MAct} {fs : List MEv} (hn : c.sync = false → s.hp ≠ .inMsg) (ha : a.honest s) (hs : s.step c limit a = some (s', fs)) :
    (c.sync = true → s.fresh ++ mReceived fs = mOnMsg fs ++ s'.fresh ∧ mQueued fs = mLeft fs) ∧
      (c.sync = false → c.passive = false → s.fresh ++ mReceived fs = mQueued fs ++ s'.fresh) ∧
      (c.sync = false → c.passive = true → (if s.hp = .parsed then orEmpty s.temp else []) ++ mReceivedOrEmpty fs = mQueued fs ++ (if s'.hp = .parsed then orEmpty s'.temp else [])) ∧
      (c.sync = false → mOnMsg fs = [] ∧ s'.hp ≠ .inMsg) := by
  cases a with
  | handle =>
    obtain ⟨hp, ⟨_, rfl, rfl⟩ | ⟨_, _, rfl, rfl⟩ | ⟨ms, rfl, rfl, hm⟩⟩ := Rm.handle_cases hs
    · simp_all [Rm.fresh, mReceived, mOnMsg, mQueued, mLeft]
    · simp_all [Rm.fresh, mReceived, mOnMsg, mQueued, mLeft]
    · obtain ⟨g1, g2, g3⟩ := hm
      rcases g3 with g3 | ⟨g3, g4, g5⟩
      · subst g3; simp_all [Rm.fresh, mReceived, mReceivedOrEmpty, mOnMsg, mQueued, mLeft, Rm.put, orEmpty]
      · subst g5; simp_all [Rm.fresh, mReceived, mReceivedOrEmpty, mOnMsg, mQueued, mLeft, Rm.put, orEmpty]
  | onMsgRet left n =>
    obtain ⟨hp, ⟨h1, rfl, rfl⟩ | ⟨_, rfl, rfl⟩⟩ := Rm.onMsg_cases ha hs
    · subst h1; simp_all [Rm.fresh, mReceived, mReceivedOrEmpty, mOnMsg, mQueued, mLeft, Rm.put, orEmpty]
    · cases hc : c.sync
      · exact absurd hp (hn hc)
      · simp_all [Rm.fresh, mReceived, mReceivedOrEmpty, mOnMsg, mQueued, mLeft, Rm.put, orEmpty]
  | _ =>
    simp only [Rm.step, Rm.startRead] at hs <;> (repeat' split at hs) <;>
      first | (cases hs; done) | (simp only [Option.some.injEq, Prod.mk.injEq] at hs; obtain ⟨rfl, rfl⟩ := hs; simp_all [Rm.fresh, mReceived, mReceivedOrEmpty, mOnMsg, mQueued, mLeft])

theorem Rm.fresh_run {c : MCfg} {limit : Nat} {as : List MAct} {s : Rm} {es : List MEv} (h : Rm.Run c limit Rm.init as s es) :
    (c.sync = true → mReceived es = mOnMsg es ++ s.fresh ∧ mQueued es = mLeft es) ∧ (c.sync = false → c.passive = false → mReceived es = mQueued es ++ s.fresh) ∧
      (c.sync = false → c.passive = true → mReceivedOrEmpty es = mQueued es ++ (if s.hp = .parsed then orEmpty s.temp else [])) ∧ (c.sync = false → mOnMsg es = [] ∧ s.hp ≠ .inMsg) := by
  generalize h0 : Rm.init = s0 at h
  induction h with
  | nil => subst h0; simp [mReceived, mOnMsg, mQueued, mLeft, mReceivedOrEmpty, Rm.fresh, Rm.init]
  | snoc s1 s2 as a es fs _ ha hs ih =>
    obtain ⟨i1, i2, i3, i4⟩ := ih
    obtain ⟨g1, g2, g3, g4⟩ := Rm.fresh_step (fun hc => (i4 hc).2) ha hs
    refine ⟨?_, ?_, ?_, ?_⟩
    · intro hc
      rw [mReceived_append, mOnMsg_append, mQueued_append, mLeft_append, (i1 hc).1, (i1 hc).2, (g1 hc).2, List.append_assoc, (g1 hc).1, List.append_assoc]
      exact ⟨rfl, rfl⟩
    · intro hc hp
      rw [mReceived_append, mQueued_append, i2 hc hp, List.append_assoc, g2 hc hp, List.append_assoc]
    · intro hc hp
      rw [mReceivedOrEmpty_append, mQueued_append, i3 hc hp, List.append_assoc, g3 hc hp, List.append_assoc]
    · intro hc
      rw [mOnMsg_append, (i4 hc).1, (g4 hc).1]
      exact ⟨rfl, (g4 hc).2⟩

/-- **C58** (with synchronous dispatching): on_msg is called with exactly the messages received, each once and in order, and exactly what it leaves is put into the receive buffer, in order; C57_order then says how this reaches on_msg_handle. -/
theorem C58_sync {c : MCfg} {limit : Nat} {as : List MAct} {s : Rm} {es : List MEv} (h : Rm.Run c limit Rm.init as s es) (hc : c.sync = true) :
    mReceived es = mOnMsg es ++ s.fresh ∧ mQueued es = mLeft es := (Rm.fresh_run h).1 hc

/-- **C58** (without synchronous dispatching): on_msg is never called, and exactly the messages received are put into the receive buffer, in order. -/
theorem C58_async {c : MCfg} {limit : Nat} {as : List MAct} {s : Rm} {es : List MEv} (h : Rm.Run c limit Rm.init as s es) (hc : c.sync = false) (hp : c.passive = false) :
    mReceived es = mQueued es ++ s.fresh ∧ mOnMsg es = [] := ⟨(Rm.fresh_run h).2.1 hc hp, ((Rm.fresh_run h).2.2.2 hc).1⟩

/-- **C58** (from the network to the handler): with or without synchronous dispatching, in both dispatching modes, once recv_handler and the dispatcher are at rest, all messages received were given to on_msg (if it is used) and all that are not left to on_msg were given to on_msg_handle. -/
theorem C58_delivered_partial {c : MCfg} {limit : Nat} {as : List MAct} {s : Rm} {es : List MEv} (h : Rm.Run c limit Rm.init as s es) (hp : ∀ e ∈ es, MPlainEv e) (hl : s.dlost = false)
    (h1 : s.posted = 0) (h2 : s.pc = .idle) (h3 : s.dtimer = false) (h4 : s.hp = .idle) :
    (c.sync = true → mOnMsg es = mReceived es ∧ mHandled es = mLeft es) ∧ (c.sync = false → c.passive = false → mHandled es = mReceived es) ∧ (c.sync = false → c.passive = true → mHandled es = mReceivedOrEmpty es) := by
  obtain ⟨e1, e2⟩ := C57_nothing_left_partial h hl h1 h2 h3 (by simp [h4])
  have ho := C57_order h hp
  rw [e1, e2] at ho
  simp only [Option.toList, List.append_nil] at ho
  obtain ⟨f1, f2, f3, _⟩ := Rm.fresh_run h
  have hf : s.fresh = [] := by simp [Rm.fresh, h4]
  refine ⟨?_, ?_, ?_⟩
  · intro hc
    have := f1 hc
    rw [hf, List.append_nil] at this
    exact ⟨this.1.symm, by rw [← ho, this.2]⟩
  · intro hc hpa
    have := f2 hc hpa
    rw [hf, List.append_nil] at this
    rw [← ho, this]
  · intro hc hpa
    have := f3 hc hpa
    rw [h4] at this
    simp at this
    rw [← ho, this]

/-- on_msg must not return 0 after it has handled messages: the size of the messages is then wrong and an assertion fails (without assertions the receive buffer counts bytes it does not hold, for ever). -/
theorem C58_fails_zero : ∃ s es, Rm.exec ⟨false, true, false⟩ 100 Rm.init [.linkUp, .doRecv true, .read [[1, 2], [3]] false, .handle, .onMsgRet [[3]] 0] = some (s, es) ∧ s.bad = true :=
  ⟨_, _, rfl, by decide⟩

/-! ### C59: ST_ASIO_PASSIVE_RECV -/

/-- **C59** (one read at a time, in every mode): at every moment of every history at most one read is outstanding. -/
theorem C59_one_read {c : MCfg} {limit : Nat} {as : List MAct} {s : Rm} {es fs : List MEv} (h : Rm.Run c limit Rm.init as s (es ++ fs)) : mReadEnds es ≤ mReads es ∧ mReads es ≤ mReadEnds es + 1 := by
  obtain ⟨u, hu⟩ := mMonitor_prefix (Rm.run_good h).2.2
  have := mMonitor_reads hu
  have : u.reading.toNat ≤ 1 := by cases u.reading <;> decide
  simp [IdealM.init] at *
  omega

theorem mReads_append (es fs : List MEv) : mReads (es ++ fs) = mReads es + mReads fs := by
  induction es with
  | nil => simp [mReads]
  | cons e es ih => cases e <;> simp [mReads, ih]; omega

theorem mAsked_append (es fs : List MEv) : mAsked (es ++ fs) = mAsked es + mAsked fs := by
  induction es with
  | nil => simp [mAsked]
  | cons e es ih => cases e <;> simp [mAsked, ih]; omega

theorem mReadOks_append (es fs : List MEv) : mReadOks (es ++ fs) = mReadOks es + mReadOks fs := by
  induction es with
  | nil => simp [mReadOks]
  | cons e es ih => cases e <;> simp [mReadOks, ih]; omega

theorem mGiven_append (y : Bool) (es fs : List MEv) : mGiven y (es ++ fs) = mGiven y es + mGiven y fs := by
  induction es with
  | nil => simp [mGiven]
  | cons e es ih => cases e <;> simp [mGiven, ih] <;> omega

theorem Rm.asked_step {c : MCfg} {limit : Nat} {s s' : Rm} {a : MAct} {fs : List MEv} (hp : c.passive = true) (hn : c.sync = false → s.hp ≠ .inMsg) (hc : s.ctimer = false) (ha : a.honest s) (hs : s.step c limit a = some (s', fs)) :
    mReads fs + s'.rposted ≤ mAsked fs + s.rposted ∧ mReadOks fs + (if s.hp = .parsed then 1 else 0) = mGiven c.sync fs + (if s'.hp = .parsed then 1 else 0) ∧ s'.ctimer = false := by
  cases a with
  | handle =>
    obtain ⟨hp, ⟨_, rfl, rfl⟩ | ⟨_, hq, rfl, rfl⟩ | ⟨ms, rfl, rfl, hm⟩⟩ := Rm.handle_cases hs
    · simp_all [mReads, mAsked, mReadOks, mGiven]
    · simp_all
    · simp_all [mReads, mAsked, mReadOks, mGiven, Rm.put]
  | onMsgRet left n =>
    obtain ⟨hp, ⟨h1, rfl, rfl⟩ | ⟨_, rfl, rfl⟩⟩ := Rm.onMsg_cases ha hs
    · simp_all [mReads, mAsked, mReadOks, mGiven]
    · cases hy : c.sync
      · exact absurd hp (hn hy)
      · simp_all [mReads, mAsked, mReadOks, mGiven, Rm.put]
  | _ =>
    simp only [Rm.step, Rm.startRead] at hs <;> (repeat' split at hs) <;>
      first | (cases hs; done) | (simp only [Option.some.injEq, Prod.mk.injEq] at hs; obtain ⟨rfl, rfl⟩ := hs; simp_all [mReads, mAsked, mReadOks, mGiven]; try omega)

theorem Rm.asked_run {c : MCfg} {limit : Nat} {as : List MAct} {s : Rm} {es : List MEv} (hp : c.passive = true) (h : Rm.Run c limit Rm.init as s es) :
    mReads es + s.rposted ≤ mAsked es ∧ mReadOks es = mGiven c.sync es + (if s.hp = .parsed then 1 else 0) ∧ s.ctimer = false := by
  generalize h0 : Rm.init = s0 at h
  induction h with
  | nil => subst h0; simp [mReads, mAsked, mReadOks, mGiven, Rm.init]
  | snoc s1 s2 as a es fs hr ha hs ih =>
    subst h0
    obtain ⟨i1, i2, i3⟩ := ih
    obtain ⟨g1, g2, g3⟩ := Rm.asked_step hp (fun hc => ((Rm.fresh_run hr).2.2.2 hc).2) i3 ha hs
    rw [mReads_append, mAsked_append, mReadOks_append, mGiven_append]
    exact ⟨by omega, by omega, g3⟩

/-- **C59** (nothing is read unasked): in passive mode the library never begins more reads than recv_msg was called (do_start calls it once per link). -/
theorem C59_only_asked {c : MCfg} {limit : Nat} {as : List MAct} {s : Rm} {es : List MEv} (hp : c.passive = true) (h : Rm.Run c limit Rm.init as s es) : mReads es ≤ mAsked es := by
  have := (Rm.asked_run hp h).1
  omega

/-- **C59** (the user always gets a call): in passive mode every read that ended well, even one that completed no message, gives the user something to react to: a call of on_msg (synchronous dispatching), or at least one message, if need be an empty one, in the receive buffer. -/
theorem C59_always_given {c : MCfg} {limit : Nat} {as : List MAct} {s : Rm} {es : List MEv} (hp : c.passive = true) (h : Rm.Run c limit Rm.init as s es) (hi : s.hp ≠ .parsed) : mReadOks es = mGiven c.sync es := by
  have := (Rm.asked_run hp h).2.1
  rw [if_neg hi] at this
  exact this

/-- **C59** (recv_msg works): in passive mode, on a link that is ready and from which nothing is being read, recv_msg() leads to a read as soon as the strand is free (at once within on_msg), unless one of the other posted calls already has. -/
theorem C59_recv_msg_reads {c : MCfg} {limit : Nat} {as : List MAct} {s s1 s2 : Rm} {es e1 e2 : List MEv} (hp : c.passive = true) (h : Rm.Run c limit Rm.init as s es) (hr : s.ready = true) (ho : s.out = false)
    (h1 : s.step c limit .userRecv = some (s1, e1)) : s1.rposted = s.rposted + 1 ∧ (s1.step c limit (.doRecv true) = some (s2, e2) → e2 = [.readBegin] ∧ s2.out = true) ∧
      (s.hp = .idle ∨ s.hp = .inMsg → (s1.step c limit (.doRecv true)).isSome = true) := by
  have hf := (Rm.run_good h).1.flag hp
  rw [ho] at hf
  simp only [Rm.step, hp, hr, hf] at h1
  simp at h1
  obtain ⟨rfl, rfl⟩ := h1
  refine ⟨rfl, ?_, ?_⟩
  · intro h2
    simp only [Rm.step, Rm.startRead, hp, hr, hf] at h2
    simp at h2
    obtain ⟨_, rfl, rfl⟩ := h2
    exact ⟨rfl, rfl⟩
  · intro hh
    simp only [Rm.step, Rm.startRead, hp, hr, hf]
    simp [hh]

/-- **C59** (asking while reading does nothing): recv_msg() during a read, and do_recv_msg calls left over from earlier, start no second read. -/
theorem C59_no_second_read {c : MCfg} {limit : Nat} {as : List MAct} {s s' : Rm} {es fs : List MEv} {ok : Bool} (hp : c.passive = true) (h : Rm.Run c limit Rm.init as s es) (ho : s.out = true)
    (hs : s.step c limit (.doRecv ok) = some (s', fs)) : fs = [] ∧ s'.out = true := by
  have hf := (Rm.run_good h).1.flag hp
  rw [ho] at hf
  simp only [Rm.step, hp, hf] at hs
  simp at hs
  obtain ⟨_, rfl, rfl⟩ := hs
  exact ⟨rfl, ho⟩

/-! ### the hypotheses can be met -/

def MAct.honestB (s : Rm) : MAct → Bool
  | .onMsgRet left n => decide (n ≠ 0) || decide (left = s.temp)
  | _ => true

/-- Executes a list of actions, checking the contract of on_msg. -/
def Rm.hexec (c : MCfg) (limit : Nat) : Rm → List MAct → Option (Rm × List MEv)
  | s, [] => some (s, [])
  | s, a :: as => if a.honestB s then do
      let (s, es) ← s.step c limit a
      let (s, es') ← Rm.hexec c limit s as
      return (s, es ++ es')
    else none

theorem Rm.hexec_run {c : MCfg} {limit : Nat} {as : List MAct} {s s' : Rm} {es : List MEv} (h : Rm.hexec c limit s as = some (s', es)) : Rm.Run c limit s as s' es := by
  induction as generalizing s es with
  | nil => simp [Rm.hexec] at h; obtain ⟨rfl, rfl⟩ := h; exact Rm.Run.nil _
  | cons a as ih =>
    simp only [Rm.hexec, Option.bind_eq_bind] at h
    split at h
    · rename_i hh
      rw [Option.bind_eq_some_iff] at h
      obtain ⟨⟨s1, e1⟩, h1, h2⟩ := h
      rw [Option.bind_eq_some_iff] at h2
      obtain ⟨⟨s2, e2⟩, h2, h3⟩ := h2
      simp at h3
      obtain ⟨rfl, rfl⟩ := h3
      refine Rm.run_trans (Rm.run_one ?_ h1) (ih h2)
      cases a <;> simp_all [MAct.honest, MAct.honestB]
      intro hn; simpa [hn] using hh
    · cases h

/-- Batch mode: two reads, the first batch is refused and offered again together with the second read, the handler takes one message, then the rest. -/
def batchDemo : List MAct := [.linkUp, .doRecv true, .read [[1], [2]] false, .handle, .loadDisp, .handled true, .run, .begin, .read [[3]] false, .retAll 0, .dis, .handle, .loadDisp, .handled true, .dtimer, .run, .begin, .takeOne, .retAll 1, .dis, .dis,
  .run, .begin, .takeAll, .retAll 2, .dis, .dis, .run]

example : ∃ s es, Rm.Run ⟨true, false, false⟩ 100 Rm.init batchDemo s es ∧ (∀ e ∈ es, MPlainEv e) ∧ mHandled es = [[1], [2], [3]] ∧ mReceived es = [[1], [2], [3]] ∧ mCalls es = 3 ∧ s.dlost = false ∧ s.posted = 0 ∧ s.pc = .idle ∧ s.dtimer = false ∧ s.hp = .idle := by
  refine ⟨_, _, Rm.hexec_run rfl, ?_, by decide, by decide, by decide, by decide, by decide, by decide, by decide, by decide⟩
  intro e he
  revert e
  decide

/-- Synchronous dispatching: on_msg handles the first of two messages, the second one goes to on_msg_handle. -/
example : ∃ s es, Rm.Run ⟨false, true, false⟩ 100 Rm.init [.linkUp, .doRecv true, .read [[1], [2]] false, .handle, .onMsgRet [[2]] 1, .loadDisp, .handled true, .run, .begin, .ret true, .dis, .dis, .run] s es ∧
    mOnMsg es = [[1], [2]] ∧ mLeft es = [[2]] ∧ mHandled es = [[2]] ∧ s.dlost = false ∧ s.posted = 0 ∧ s.pc = .idle ∧ s.dtimer = false ∧ s.hp = .idle :=
  ⟨_, _, Rm.hexec_run rfl, by decide, by decide, by decide, by decide, by decide, by decide, by decide, by decide⟩

/-- Passive receiving: a read that completes no message gives an empty message; the user asks twice, one read begins. -/
example : ∃ s es, Rm.Run ⟨false, false, true⟩ 100 Rm.init [.linkUp, .doRecv true, .read [] false, .handle, .loadDisp, .handled true, .run, .begin, .userRecv, .userRecv, .doRecv true, .doRecv true, .ret true] s es ∧
    mAsked es = 3 ∧ mReads es = 2 ∧ mReadOks es = 1 ∧ mHandled es = [[]] ∧ s.ready = true ∧ s.out = true :=
  ⟨_, _, Rm.hexec_run rfl, by decide, by decide, by decide, by decide, by decide, by decide⟩

/-! ### where C57 is false -/

/-- As for C26, in batch mode too: if the link breaks while a re-dispatch timer is armed and the client reconnects, `dispatching` stays set and nothing is dispatched any more. -/
theorem C57_fails_after_reconnect : ∃ as s es, Rm.Run ⟨true, false, false⟩ 100 Rm.init as s es ∧ s.ready = true ∧ s.out = true ∧ s.buf.items = [[1], [2]] ∧ s.posted = 0 ∧ s.pc = .idle ∧ s.dtimer = false ∧ s.hp = .idle ∧
    as = [.linkUp, .doRecv true, .read [[1]] false, .handle, .loadDisp, .handled true, .run, .begin, .retAll 0, .dis, .linkDown, .readError, .loseDispatch, .linkUp, .doRecv true, .read [[2]] false, .handle, .loadDisp, .handled true] :=
  ⟨_, _, _, Rm.hexec_run rfl, by decide, by decide, by decide, by decide, by decide, by decide, by decide, rfl⟩

/-- The delay before a refused message is offered again (msg_handling_interval) is not kept if another do_dispatch_msg was already posted: the message is offered again at once, while the timer is still armed. -/
theorem C57_retry_without_interval : ∃ as s es, Rm.Run ⟨false, false, false⟩ 100 Rm.init as s es ∧ s.dtimer = true ∧ MAct.dtimer ∉ as ∧ es.filter (fun e => decide (e = .call [1] ∨ e = .ret [1] false)) = [.call [1], .ret [1] false, .call [1]] ∧
    as = [.linkUp, .doRecv true, .read [[1]] false, .handle, .loadDisp, .handled true, .read [[2]] false, .handle, .loadDisp, .handled true, .run, .begin, .ret false, .dis, .run, .begin] :=
  ⟨_, _, _, Rm.hexec_run rfl, by decide, by decide, by decide, rfl⟩

/-- Nothing fails: no read, no request for a buffer, no timer is lost, the link stays up. -/
def MAct.fine : MAct → Bool
  | .doRecv ok => ok
  | .read _ ec => !ec
  | .readError => false
  | .handled ok => ok
  | .loseCheck => false
  | .linkDown => false
  | _ => true

/-- C57: without passive mode and as long as nothing fails, once the link is up reception goes on: a read is outstanding, or its result is being handled, or a read is posted, or the timer that waits for room in the receive buffer is armed. -/
theorem C57_keeps_receiving {c : MCfg} {limit : Nat} {as : List MAct} {s : Rm} {es : List MEv} (hp : c.passive = false) (h : Rm.Run c limit Rm.init as s es) (hf : ∀ a ∈ as, a.fine = true) (hr : s.ready = true) :
    s.out = true ∨ s.hp ≠ .idle ∨ 0 < s.rposted ∨ s.ctimer = true := by
  suffices s.ec = false ∧ (s.ready = true → s.out = true ∨ s.hp ≠ .idle ∨ 0 < s.rposted ∨ s.ctimer = true) from this.2 hr
  clear hr
  generalize h0 : Rm.init = s0 at h
  induction h with
  | nil => subst h0; simp [Rm.init]
  | snoc s1 s2 as a es es' hr _ hs ih =>
    have ih := ih (fun a ha => hf a (by simp [ha]))
    have hfa := hf a (by simp)
    clear hf hr
    have he : ∀ (x : Rm) (ms : List Bytes) (n : Nat), (x.enqueue ms n).1.ec = x.ec ∧ (x.enqueue ms n).1.ready = x.ready ∧ ((x.enqueue ms n).1.hp = x.hp ∨ (x.enqueue ms n).1.hp = .moved) := by
      intro x ms n; simp only [Rm.enqueue]; split <;> simp
    cases a <;> simp only [Rm.step, Rm.startRead] at hs <;> simp only [MAct.fine] at hfa <;> (repeat' split at hs) <;> first
      | (cases hs; done)
      | (cases hfa; done)
      | (simp only [Option.some.injEq, Prod.mk.injEq] at hs; obtain ⟨rfl, rfl⟩ := hs; grind)
      | (simp only [Option.some.injEq] at hs
         have h3 := congrArg Prod.fst hs
         simp only at h3
         subst h3
         have h4 := fun ms n => he s1 ms n
         grind)

/-- The hypotheses are met by a run in which the receive buffer was full. -/
example : ∃ s es, Rm.Run ⟨false, false, false⟩ 2 Rm.init [.linkUp, .doRecv true, .read [[1, 2]] false, .handle, .loadDisp, .handled true, .checkTimer, .run, .checkTimer] s es ∧ s.ready = true ∧ s.rposted = 1 ∧ s.out = false :=
  ⟨_, _, Rm.hexec_run rfl, by decide +kernel⟩

/-- The user's handler refuses: it returns false, or 0 in batch mode. -/
def MAct.refuses : MAct → Bool
  | .ret ok => !ok
  | .retAll n => decide (n = 0)
  | _ => false

/-- C57: a refused message (batch) is not offered again before the handling interval has passed, whatever arrives meanwhile, unless a dispatch was already posted when it was refused (C57_retry_without_interval) or the socket is reset. -/
theorem C57_refused_waits {c : MCfg} {limit : Nat} {as bs : List MAct} {s s1 s2 : Rm} {es fs gs : List MEv} {a : MAct} (h : Rm.Run c limit Rm.init as s es) (ha : a.refuses = true) (hs : s.step c limit a = some (s1, fs))
    (hp : s.posted = 0) (hr : Rm.Run c limit s1 bs s2 gs) (hb : ∀ b ∈ bs, b ≠ .dtimer ∧ b ≠ .reset) : ∀ g ∈ gs, g ≠ .callAll ∧ ∀ m, g ≠ .call m := by
  have hI := (Rm.run_good h).1
  have h1 : s1.posted = 0 ∧ s1.dispatching = true ∧ (s1.pc = .refused ∨ s1.pc = .idle) := by
    have := hI.handling
    cases a <;> simp only [MAct.refuses] at ha <;> simp only [Rm.step] at hs <;> (repeat' split at hs) <;> first
      | (cases hs; done)
      | (cases ha; done)
      | (simp only [Option.some.injEq, Prod.mk.injEq] at hs; obtain ⟨rfl, rfl⟩ := hs; grind)
  have he : ∀ (x : Rm) (ms : List Bytes) (n : Nat), (x.enqueue ms n).1.posted = x.posted ∧ (x.enqueue ms n).1.dispatching = x.dispatching ∧ (x.enqueue ms n).1.pc = x.pc ∧ ∀ g ∈ (x.enqueue ms n).2, g ≠ .callAll ∧ ∀ m, g ≠ .call m := by
    intro x ms n; simp only [Rm.enqueue]; split <;> simp
  suffices (s2.posted = 0 ∧ s2.dispatching = true ∧ (s2.pc = .refused ∨ s2.pc = .idle)) ∧ ∀ g ∈ gs, g ≠ .callAll ∧ ∀ m, g ≠ .call m from this.2
  clear h hs hI hp
  induction hr with
  | nil => exact ⟨h1, by simp⟩
  | snoc x y bs b gs gs' hr _ hs ih =>
    have ih := ih (fun b hb' => hb b (by simp [hb']))
    have hbb := hb b (by simp)
    obtain ⟨ih, ig⟩ := ih
    suffices (y.posted = 0 ∧ y.dispatching = true ∧ (y.pc = .refused ∨ y.pc = .idle)) ∧ ∀ g ∈ gs', g ≠ .callAll ∧ ∀ m, g ≠ .call m by
      refine ⟨this.1, ?_⟩
      intro g hg
      rcases List.mem_append.mp hg with hg | hg
      · exact ig g hg
      · exact this.2 g hg
    clear hb hr h1 ig
    have h4 := fun ms n => he x ms n
    cases b <;> simp only [Rm.step, Rm.startRead] at hs <;> (repeat' split at hs) <;> first
      | (cases hs; done)
      | (simp only [Option.some.injEq, Prod.mk.injEq] at hs; obtain ⟨rfl, rfl⟩ := hs; grind)
      | (simp only [Option.some.injEq] at hs
         have h3 := congrArg Prod.fst hs
         have h5 := congrArg Prod.snd hs
         simp only at h3 h5
         subst h3 h5
         grind)

/-- Non-vacuity: message 1 is refused, message 2 arrives; message 1 is offered again after the timer has expired. -/
example : ∃ s es, Rm.Run ⟨true, false, false⟩ 100 Rm.init [.linkUp, .doRecv true, .read [[1]] false, .handle, .loadDisp, .handled true, .run, .begin] s es ∧ s.posted = 0 ∧
    ∃ s2 gs, Rm.Run ⟨true, false, false⟩ 100 s [.retAll 0, .dis, .read [[2]] false, .handle, .loadDisp, .handled true] s2 gs ∧ s2.posted = 0 ∧ s2.buf.items = [[1], [2]] ∧
    ∃ s3 hs, Rm.Run ⟨true, false, false⟩ 100 s2 [.dtimer, .run, .begin] s3 hs ∧ hs = [.callAll] :=
  ⟨_, _, Rm.hexec_run rfl, by decide +kernel, _, _, Rm.hexec_run rfl, by decide +kernel, by decide +kernel, _, _, Rm.hexec_run rfl, by decide +kernel⟩

/-- What gives the library, without passive mode, a reason to read: a link came up, a read ended well, the timer that waits for room in the receive buffer expired. -/
def MAct.reason : MAct → Bool
  | .linkUp => true
  | .read _ ec => !ec
  | .checkTimer => true
  | _ => false

/-- C59, without passive mode: there are never more reads than reasons to read. In particular a read that failed, with or without data, is not followed by another one. -/
theorem C59_active_reads {c : MCfg} {limit : Nat} {as : List MAct} {s : Rm} {es : List MEv} (hp : c.passive = false) (h : Rm.Run c limit Rm.init as s es) : mReads es ≤ as.countP MAct.reason := by
  suffices mReads es + s.rposted + (if s.hp ≠ .idle ∧ s.ec = false then 1 else 0) ≤ as.countP MAct.reason by omega
  generalize h0 : Rm.init = s0 at h
  induction h with
  | nil => subst h0; simp [Rm.init, mReads]
  | snoc s1 s2 as a es es' hr _ hs ih =>
    clear hr
    rw [mReads_append, List.countP_append, List.countP_singleton]
    have he : ∀ (x : Rm) (ms : List Bytes) (n : Nat), (x.enqueue ms n).1.ec = x.ec ∧ (x.enqueue ms n).1.rposted = x.rposted ∧ ((x.enqueue ms n).1.hp = x.hp ∨ (x.enqueue ms n).1.hp = .moved) ∧ mReads (x.enqueue ms n).2 = 0 := by
      intro x ms n; simp only [Rm.enqueue]; split <;> simp [mReads]
    cases a <;> simp only [Rm.step, Rm.startRead] at hs <;> simp only [MAct.reason] <;> (repeat' split at hs) <;> first
      | (cases hs; done)
      | (simp only [Option.some.injEq, Prod.mk.injEq] at hs; obtain ⟨rfl, rfl⟩ := hs; simp only [mReads]; grind)
      | (simp only [Option.some.injEq] at hs
         have h3 := congrArg Prod.fst hs
         have h5 := congrArg Prod.snd hs
         simp only at h3 h5
         subst h3 h5
         have h4 := fun ms n => he s1 ms n
         grind)

/-- Non-vacuity: a read with data and an error is the last one; a read that ended well is followed by another one. -/
example : ∃ s es, Rm.Run ⟨false, false, false⟩ 100 Rm.init [.linkUp, .doRecv true, .read [[1]] false, .handle, .loadDisp, .handled true, .read [[2]] true, .handle, .loadDisp, .handled true] s es ∧
    mReads es = 2 ∧ s.out = false ∧ [MAct.linkUp, .doRecv true, .read [[1]] false, .handle, .loadDisp, .handled true, .read [[2]] true, .handle, .loadDisp, .handled true].countP MAct.reason = 2 :=
  ⟨_, _, Rm.hexec_run rfl, by decide +kernel⟩

end StAsio
