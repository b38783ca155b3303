import Verif.Model.Reconnect

/-!
# C40: the reconnect policy of clients
-/

set_option autoImplicit false

namespace StAsio

theorem cliPolicy_append (c : CliSt) (es fs : List CliEv) : cliPolicy c (es ++ fs) = (cliPolicy c es).bind (fun d => cliPolicy d fs) := by
  induction es generalizing c with
  | nil => rfl
  | cons e es ih =>
    simp only [List.cons_append, cliPolicy]
    split
    · exact ih _
    · rfl

theorem attempts_append (es fs : List CliEv) : attempts (es ++ fs) = attempts es + attempts fs := by
  induction es with
  | nil => simp [attempts]
  | cons e es ih => cases e <;> simp [attempts, ih]; omega

theorem Cli.run_trans {s s1 s2 : Cli} {as bs : List CliAct} {es fs : List CliEv} (h1 : Cli.Run s as s1 es) (h2 : Cli.Run s1 bs s2 fs) : Cli.Run s (as ++ bs) s2 (es ++ fs) := by
  induction h2 with
  | nil => simpa using h1
  | snoc s2 s3 bs a fs fs' _ hs ih =>
    rw [← List.append_assoc, ← List.append_assoc]
    exact Cli.Run.snoc _ _ _ _ _ _ _ ih hs

theorem Cli.run_one {s s' : Cli} {a : CliAct} {fs : List CliEv} (h : s.step a = some (s', fs)) : Cli.Run s [a] s' fs := by
  simpa using Cli.Run.snoc _ _ _ _ _ _ _ (Cli.Run.nil s) h

theorem Cli.exec_run {s s' : Cli} {as : List CliAct} {es : List CliEv} (h : Cli.exec s as = some (s', es)) : Cli.Run s as s' es := by
  induction as generalizing s es with
  | nil => simp [Cli.exec] at h; obtain ⟨rfl, rfl⟩ := h; exact Cli.Run.nil _
  | cons a as ih =>
    simp only [Cli.exec, Option.bind_eq_bind] at h
    rw [Option.bind_eq_some_iff] at h
    obtain ⟨⟨s1, e1⟩, h1, h2⟩ := h
    rw [Option.bind_eq_some_iff] at h2
    obtain ⟨⟨s2, e2⟩, h2, h3⟩ := h2
    simp at h3
    obtain ⟨rfl, rfl⟩ := h3
    exact Cli.run_trans (Cli.run_one h1) (ih h2)

/-- How the state of the code and the ideal policy belong together. -/
structure Cli.Inv (s : Cli) (c : CliSt) : Prop where
  idle : s.started = false → s.closing = false → s.op = .none ∧ s.status = .broken ∧ c = .idle
  active : s.started = true → s.closing = false ∧ s.status ≠ .forceDown
  closing : s.closing = true → ∀ f ms, s.op ≠ .tconn f ms
  tconn : ∀ f ms, s.op = .tconn f ms → c = .ready ms
  connecting : s.op = .connecting → c = .trying
  tdelay : s.op = .tdelay → c = .refused
  link : s.op = .link → c = .up
  none : s.op = .none → c ≠ .trying ∧ c ≠ .up

theorem Cli.start_inv {s : Cli} {c : CliSt} (h : s.Inv c) (bind : Bool) : ∃ c', cliPolicy c (s.start bind).2 = some c' ∧ (s.start bind).1.Inv c' := by
  simp only [Cli.start]
  split
  · rename_i hc
    split
    · obtain ⟨_, e2, e3⟩ := h.idle hc.1 hc.2.1
      subst e3
      refine ⟨.ready 50, rfl, ?_⟩
      constructor <;> simp_all
    · exact ⟨c, rfl, h⟩
  · exact ⟨c, rfl, h⟩

theorem Cli.close_inv {s : Cli} {c : CliSt} (h : s.Inv c) (hf : s.started = true → s.op = .link ∨ s.op = .none ∨ s.op = .connecting ∨ s.op = .tdelay ∨ ∃ f ms, s.op = .tconn f ms) : s.close.Inv c := by
  simp only [Cli.close]
  split
  · rename_i hs
    obtain ⟨status, started, closing, need, op, force, grace, stopped⟩ := s
    obtain ⟨h1, h2, h3, h4, h5, h6, h7, h8⟩ := h
    simp only at *
    cases op <;> constructor <;> simp_all [CliOp.noTimer]
  · exact h

theorem Cli.Inv.congr {s s' : Cli} {c : CliSt} (h : s.Inv c) (h1 : s'.status = s.status) (h2 : s'.started = s.started) (h3 : s'.closing = s.closing) (h4 : s'.op = s.op) : s'.Inv c := by
  obtain ⟨a1, a2, a3, a4, a5, a6, a7, a8⟩ := h
  exact ⟨by rw [h1, h2, h3, h4]; exact a1, by rw [h1, h2, h3]; exact a2, by rw [h3, h4]; exact a3, by rw [h4]; exact a4, by rw [h4]; exact a5, by rw [h4]; exact a6, by rw [h4]; exact a7, by rw [h4]; exact a8⟩

theorem Cli.close_eq (s : Cli) : s.close = if s.started then { s with started := false, closing := true, op := s.op.noTimer } else s := rfl

theorem Cli.shutdown_inv {s : Cli} {c : CliSt} (h : s.Inv c) : s.shutdown.Inv c := by
  simp only [Cli.shutdown]
  have hop : s.op = .link ∨ s.op = .none ∨ s.op = .connecting ∨ s.op = .tdelay ∨ ∃ f ms, s.op = .tconn f ms := by cases s.op <;> simp
  split
  · exact Cli.close_inv h (fun _ => hop)
  · rename_i hb
    simp only [Cli.close]
    obtain ⟨status, started, closing, need, op, force, grace, stopped⟩ := s
    obtain ⟨h1, h2, h3, h4, h5, h6, h7, h8⟩ := h
    simp only at *
    split
    · cases op <;> constructor <;> simp_all [CliOp.noTimer]
    · cases closing
      · have := (h1 (by simp_all) rfl).2.1
        exact absurd this hb
      · constructor <;> simp_all

theorem Cli.forceShutdown_inv {s : Cli} {c : CliSt} (h : s.Inv c) (b bind : Bool) : ∃ c', cliPolicy c (s.forceShutdown b bind).2 = some c' ∧ (s.forceShutdown b bind).1.Inv c' := by
  simp only [Cli.forceShutdown]
  split
  · exact Cli.start_inv (s := { s with need := b }) (h.congr rfl rfl rfl rfl) bind
  · exact ⟨c, rfl, h.congr rfl rfl rfl rfl⟩

theorem Cli.gracefulShutdown_inv {s : Cli} {c : CliSt} (h : s.Inv c) (b bind : Bool) : ∃ c', cliPolicy c (s.gracefulShutdown b bind).2 = some c' ∧ (s.gracefulShutdown b bind).1.Inv c' := by
  simp only [Cli.gracefulShutdown]
  split
  · exact Cli.start_inv (s := { s with need := b }) (h.congr rfl rfl rfl rfl) bind
  · split
    · exact Cli.forceShutdown_inv (s := { s with need := b }) (h.congr rfl rfl rfl rfl) b bind
    · exact ⟨c, rfl, h.congr rfl rfl rfl rfl⟩

theorem Cli.inv_step {s s' : Cli} {a : CliAct} {c : CliSt} {fs : List CliEv} (h : s.Inv c) (hs : s.step a = some (s', fs)) : ∃ c', cliPolicy c fs = some c' ∧ s'.Inv c' := by
  cases a with
  | userStart bind =>
    simp only [Cli.step, Option.some.injEq] at hs
    have := Cli.start_inv h bind
    rw [hs] at this
    exact this
  | force b bind =>
    simp only [Cli.step, Option.some.injEq] at hs
    have := Cli.forceShutdown_inv h b bind
    rw [hs] at this
    exact this
  | graceful b bind =>
    simp only [Cli.step, Option.some.injEq] at hs
    have := Cli.gracefulShutdown_inv h b bind
    rw [hs] at this
    exact this
  | fireConnect bind =>
    simp only [Cli.step] at hs
    split at hs
    · rename_i first ms hop
      have hc := h.tconn _ _ hop
      have hst : s.started = true := by
        cases e : s.started with
        | true => rfl
        | false =>
          cases e2 : s.closing with
          | true => exact absurd hop (h.closing e2 _ _)
          | false => have := (h.idle e e2).1; rw [hop] at this; cases this
      obtain ⟨status, started, closing, need, op, force, grace, stopped⟩ := s
      obtain ⟨h1, h2, h3, h4, h5, h6, h7, h8⟩ := h
      simp only at *
      subst hc
      split at hs
      · cases hs
      · split at hs
        · cases hs
          refine ⟨.ready ms, rfl, ?_⟩
          constructor <;> simp_all
        · cases hs
          refine ⟨.trying, by simp [cliPolicy, cliNext], ?_⟩
          constructor <;> simp_all
    · cases hs
  | connectDone ok =>
    simp only [Cli.step] at hs
    split at hs
    · rename_i hop
      have hc := h.connecting hop.1
      obtain ⟨status, started, closing, need, op, force, grace, stopped⟩ := s
      obtain ⟨h1, h2, h3, h4, h5, h6, h7, h8⟩ := h
      simp only at *
      subst hc
      split at hs
      · cases hs
        refine ⟨.up, rfl, ?_⟩
        constructor <;> simp_all
      · cases hs
        refine ⟨.refused, rfl, ?_⟩
        constructor <;> simp_all
    · cases hs
  | fireDelay n =>
    simp only [Cli.step] at hs
    split at hs
    · rename_i hop
      have hc := h.tdelay hop.1
      obtain ⟨status, started, closing, need, op, force, grace, stopped⟩ := s
      obtain ⟨h1, h2, h3, h4, h5, h6, h7, h8⟩ := h
      simp only at *
      subst hc
      split at hs
      · split at hs
        · rename_i hn
          cases hs
          refine ⟨.idle, by simp [cliPolicy, cliNext, hn], ?_⟩
          constructor <;> simp_all
        · rename_i hn
          cases hs
          refine ⟨.ready n.toNat, by simp [cliPolicy, cliNext, hn], ?_⟩
          constructor <;> simp_all
      · cases hs
        refine ⟨.refused, rfl, ?_⟩
        constructor <;> simp_all
    · cases hs
  | cancelDelay =>
    simp only [Cli.step] at hs
    split at hs
    · rename_i hop
      cases hs
      have hc := h.tdelay hop.1
      obtain ⟨status, started, closing, need, op, force, grace, stopped⟩ := s
      obtain ⟨h1, h2, h3, h4, h5, h6, h7, h8⟩ := h
      simp only at *
      subst hc
      refine ⟨.refused, rfl, ?_⟩
      constructor <;> simp_all
    · cases hs
  | lost =>
    simp only [Cli.step] at hs
    split at hs
    · rename_i hop
      cases hs
      have hc := h.link hop.1
      obtain ⟨status, started, closing, need, op, force, grace, stopped⟩ := s
      obtain ⟨h1, h2, h3, h4, h5, h6, h7, h8⟩ := h
      simp only at *
      subst hc
      refine ⟨.idle, rfl, ?_⟩
      constructor <;> simp_all
    · cases hs
  | selfDown =>
    simp only [Cli.step] at hs
    split at hs
    · cases hs; exact ⟨c, rfl, h.congr rfl rfl rfl rfl⟩
    · cases hs
  | setReconnect b =>
    simp only [Cli.step] at hs
    split at hs
    · cases hs; exact ⟨c, rfl, h.congr rfl rfl rfl rfl⟩
    · cases hs
  | setReconnectIdle =>
    simp only [Cli.step] at hs
    split at hs
    · cases hs; exact ⟨c, rfl, h.congr rfl rfl rfl rfl⟩
    · cases hs
  | pumpStop => cases hs; exact ⟨c, rfl, h.congr rfl rfl rfl rfl⟩
  | runForce =>
    simp only [Cli.step] at hs
    split at hs
    · cases hs
      refine ⟨c, rfl, ?_⟩
      have h' : Cli.Inv { s with force := s.force - 1 } c := h.congr rfl rfl rfl rfl
      split
      · exact Cli.shutdown_inv h'
      · exact h'
    · cases hs
  | runGraceful err =>
    simp only [Cli.step] at hs
    split at hs
    · have h' : Cli.Inv { s with grace := s.grace - 1 } c := h.congr rfl rfl rfl rfl
      split at hs
      · cases hs
        exact ⟨c, rfl, Cli.shutdown_inv h'⟩
      · rename_i hb
        split at hs
        · have h'' : Cli.Inv { s with grace := s.grace - 1, status := .gracefulDown } c := by
            obtain ⟨h1, h2, h3, h4, h5, h6, h7, h8⟩ := h
            constructor <;> simp_all
          cases hs
          refine ⟨c, rfl, ?_⟩
          split
          · exact Cli.shutdown_inv h''
          · exact h''
        · cases hs
          exact ⟨c, rfl, h'⟩
    · cases hs
  | onClose bind =>
    simp only [Cli.step] at hs
    split at hs
    · rename_i hcl
      have hst : s.started = false := by
        cases e : s.started with
        | false => rfl
        | true => have := (h.active e).1; rw [hcl.1] at this; cases this
      have hn := h.none hcl.2.1
      have hcp : cliNext c .closed = some .idle := by
        cases c <;> simp_all [cliNext]
      have h' : Cli.Inv { s with status := .broken, closing := false } .idle := by
        obtain ⟨h1, h2, h3, h4, h5, h6, h7, h8⟩ := h
        constructor <;> simp_all
      split at hs
      · obtain ⟨c', g1, g2⟩ := Cli.start_inv h' bind
        simp only [Option.some.injEq] at hs
        cases hs
        refine ⟨c', ?_, g2⟩
        simp only [cliPolicy, hcp]
        exact g1
      · cases hs
        exact ⟨.idle, by simp [cliPolicy, hcp], h'⟩
    · cases hs

theorem Cli.inv_init (need : Bool) : (Cli.init need).Inv .idle := by constructor <;> simp [Cli.init]

theorem Cli.inv_run {need : Bool} {as : List CliAct} {s : Cli} {es : List CliEv} (hr : Cli.Run (Cli.init need) as s es) : ∃ c, cliPolicy .idle es = some c ∧ s.Inv c := by
  generalize h0 : Cli.init need = s0 at hr
  induction hr with
  | nil => subst h0; exact ⟨.idle, rfl, Cli.inv_init need⟩
  | snoc s1 s2 as a es fs _ hs ih =>
    obtain ⟨c, h1, h2⟩ := ih
    obtain ⟨c', h3, h4⟩ := Cli.inv_step h2 hs
    exact ⟨c', by rw [cliPolicy_append, h1]; exact h3, h4⟩

/-- **C40** (the policy): in every history an attempt is made only if granted by a start or by an answer of prepare_reconnect which is not negative, after the time given, one attempt per grant; never while connected or connecting; and on_close is
called only while neither. -/
theorem C40_policy {need : Bool} {as : List CliAct} {s : Cli} {es : List CliEv} (hr : Cli.Run (Cli.init need) as s es) : ∃ c, cliPolicy .idle es = some c := by
  obtain ⟨c, h, _⟩ := Cli.inv_run hr
  exact ⟨c, h⟩

/-! ### reconnecting disabled -/

def CliOp.granted : CliOp → Nat
  | .tconn _ _ => 1
  | _ => 0

theorem Cli.noAsk_step {s s' : Cli} {a : CliAct} {fs : List CliEv} (hn : s.need = false) (ha : a.noAsk = true) (hs : s.step a = some (s', fs)) : s'.need = false ∧ attempts fs + s'.op.granted ≤ s.op.granted := by
  obtain ⟨status, started, closing, need, op, force, grace, stopped⟩ := s
  simp only at hn
  subst hn
  cases a <;> simp only [CliAct.noAsk, Bool.not_eq_true', Bool.false_eq_true] at ha <;> (try subst ha) <;>
    simp only [Cli.step, Cli.start, Cli.forceShutdown, Cli.gracefulShutdown, Cli.shutdown, Cli.close, Bool.false_eq_true, false_and, if_false] at hs <;> (repeat' split at hs) <;> cases hs <;>
    (try (simp_all [attempts, CliOp.granted]; done)) <;> (cases op <;> simp_all [attempts, CliOp.granted, CliOp.noTimer])

/-- **C40** (reconnecting disabled): once need_reconnect is false, and as long as the user does not ask for a connection again, there is no further attempt, except one whose timer is already running. -/
theorem C40_disabled {s s' : Cli} {as : List CliAct} {es : List CliEv} (hn : s.need = false) (hr : Cli.Run s as s' es) (ha : ∀ a ∈ as, a.noAsk = true) : attempts es ≤ s.op.granted ∧ s'.need = false := by
  suffices h : attempts es + s'.op.granted ≤ s.op.granted ∧ s'.need = false from ⟨by omega, h.2⟩
  induction hr with
  | nil => exact ⟨by simp [attempts], hn⟩
  | snoc s1 s2 as a es fs _ hs ih =>
    obtain ⟨h1, h2⟩ := ih (fun a h => ha a (by simp [h]))
    obtain ⟨h3, h4⟩ := Cli.noAsk_step h2 (ha a (by simp)) hs
    rw [attempts_append]
    exact ⟨by omega, h3⟩

/-- **C40** (giving up is final): once prepare_reconnect has answered with a negative number, there is no further attempt until the user asks for a connection again. -/
theorem C40_give_up {s s1 s2 : Cli} {a : CliAct} {as : List CliAct} {fs es : List CliEv} {n : Int} (hs : s.step a = some (s1, fs)) (hn : n < 0) (he : CliEv.asked n ∈ fs)
    (hr : Cli.Run s1 as s2 es) (ha : ∀ a ∈ as, a.noAsk = true) : attempts es = 0 := by
  have h : s1.need = false ∧ s1.op = .none := by
    obtain ⟨status, started, closing, need, op, force, grace, stopped⟩ := s
    cases a <;> simp only [Cli.step, Cli.start, Cli.forceShutdown, Cli.gracefulShutdown, Cli.shutdown, Cli.close] at hs <;> (repeat' split at hs) <;> cases hs <;>
      (try (simp at he; done)) <;> (simp at he; try (subst he; first | (simp; done) | (exfalso; contradiction)))
  have := (C40_disabled h.1 hr ha).1
  rw [h.2] at this
  simpa [CliOp.granted] using this

/-- **C40** (after a disconnect): a connected client with reconnecting disabled never tries again. -/
theorem C40_disabled_after_disconnect {s s' : Cli} {as : List CliAct} {es : List CliEv} (hn : s.need = false) (hc : s.op = .link) (hr : Cli.Run s as s' es) (ha : ∀ a ∈ as, a.noAsk = true) : attempts es = 0 := by
  have := (C40_disabled hn hr ha).1
  rw [hc] at this
  simpa [CliOp.granted] using this

/-- **C40** (overriding): force_shutdown(b), disconnect(b), graceful_shutdown(b) and set_reconnect(b) determine whether the client reconnects. -/
theorem C40_override {s s' : Cli} {fs : List CliEv} {b bind : Bool} (hs : s.step (.force b bind) = some (s', fs) ∨ s.step (.graceful b bind) = some (s', fs) ∨ s.step (.setReconnect b) = some (s', fs)) : s'.need = b := by
  rcases hs with hs | hs | hs <;> simp only [Cli.step, Cli.forceShutdown, Cli.gracefulShutdown, Cli.start] at hs <;> (repeat' split at hs) <;> cases hs <;> rfl

/-- **C40** (overriding is always possible): in every state set_reconnect, force_shutdown and graceful_shutdown take effect at once; set_reconnect changes nothing else. -/
theorem C40_override_any (s : Cli) (b bind : Bool) : (s.step (.setReconnect b) = some ({ s with need := b }, []) ∨ (b = true ∧ s.step .setReconnectIdle = some ({ s with need := b }, []))) ∧
    (∃ s' fs, s.step (.force b bind) = some (s', fs) ∧ s'.need = b) ∧ ∃ s' fs, s.step (.graceful b bind) = some (s', fs) ∧ s'.need = b := by
  refine ⟨?_, ⟨_, _, rfl, C40_override (bind := bind) (.inl rfl)⟩, ⟨_, _, rfl, C40_override (bind := bind) (.inr (.inl rfl))⟩⟩
  by_cases h : b = false ∨ s.started = true ∨ s.closing = true
  · left; simp [Cli.step, h]
  · right
    simp only [not_or, Bool.not_eq_false, Bool.not_eq_true] at h
    obtain ⟨h1, h2, h3⟩ := h
    subst h1
    simp [Cli.step, h2, h3]

/-! ### reconnecting enabled -/

structure Cli.Busy (s : Cli) (es : List CliEv) : Prop where
  once : s.stopped = false → .started ∈ es → s.need = true → s.started = true ∨ s.closing = true
  pend : s.started = true → s.op ≠ .none ∨ 0 < s.force
  was : s.started = true ∨ s.closing = true → .started ∈ es

theorem Cli.busy_step {s s' : Cli} {a : CliAct} {c : CliSt} {es fs : List CliEv} (hi : s.Inv c) (h : s.Busy es) (hb : a.bindOk = true) (hu : a ≠ .setReconnectIdle) (hs : s.step a = some (s', fs)) : s'.Busy (es ++ fs) := by
  obtain ⟨status, started, closing, need, op, force, grace, stopped⟩ := s
  obtain ⟨h1, h2, h3⟩ := h
  have i1 := hi.active
  have i2 := hi.idle
  simp only at h1 h2 h3 i1 i2
  cases a <;> simp only [CliAct.bindOk] at hb <;> (try subst hb) <;> (try (exact absurd rfl hu)) <;>
    simp only [Cli.step, Cli.start, Cli.forceShutdown, Cli.gracefulShutdown, Cli.shutdown, Cli.close, if_true] at hs <;> (repeat' split at hs) <;> cases hs <;>
    (constructor <;> simp only [List.append_nil, List.mem_append, List.mem_cons] <;> grind)

theorem Cli.busy_run {need : Bool} {as : List CliAct} {s : Cli} {es : List CliEv} (hr : Cli.Run (Cli.init need) as s es) (ha : ∀ a ∈ as, a.bindOk = true ∧ a ≠ .setReconnectIdle) : s.Busy es := by
  generalize h0 : Cli.init need = s0 at hr
  induction hr with
  | nil => subst h0; constructor <;> simp [Cli.init]
  | snoc s1 s2 as a es fs hr hs ih =>
    subst h0
    obtain ⟨c, _, hi⟩ := Cli.inv_run hr
    exact Cli.busy_step hi (ih (fun a h => ha a (by simp [h]))) (ha a (by simp)).1 (ha a (by simp)).2 hs

/-- **C40** (keeps trying): a client that has been started and has reconnecting enabled is never at rest as long as the service runs: it is started or it is closing (and will then start again). Assumes that bind() succeeds and that reconnecting was not enabled
by set_reconnect(true) on a client already at rest. -/
theorem C40_never_at_rest_partial {need : Bool} {as : List CliAct} {s : Cli} {es : List CliEv} (hr : Cli.Run (Cli.init need) as s es) (ha : ∀ a ∈ as, a.bindOk = true ∧ a ≠ .setReconnectIdle) (hw : .started ∈ es) (hn : s.need = true) (hst : s.stopped = false) :
    s.started = true ∨ s.closing = true := (Cli.busy_run hr ha).once hst hw hn

def CliOp.weight : CliOp → Nat
  | .none => 0
  | .tconn _ _ => 1
  | .connecting => 5
  | .tdelay => 4
  | .link => 4

/-- A bound for the number of steps until the next attempt. -/
def Cli.rank (s : Cli) : Nat := s.op.weight + 3 * (s.force + s.grace) + if s.closing then 2 else 0

/-- What is needed for going on. -/
structure Cli.Going (s : Cli) (c : CliSt) : Prop where
  inv : s.Inv c
  need : s.need = true
  on : s.stopped = false
  act : s.started = true ∨ s.closing = true
  pend : s.started = true → s.op ≠ .none ∨ 0 < s.force

theorem Cli.going_enabled {s : Cli} {c : CliSt} (h : s.Going c) (hl : s.op ≠ .link) : ∃ a s' fs, a.internal = true ∧ s.step a = some (s', fs) := by
  obtain ⟨inv, need, on, act, pend⟩ := h
  have some_of : ∀ a, a.internal = true → (s.step a).isSome = true → ∃ a s' fs, a.internal = true ∧ s.step a = some (s', fs) := by
    intro a ha h
    obtain ⟨⟨s', fs⟩, h⟩ := Option.isSome_iff_exists.1 h
    exact ⟨a, s', fs, ha, h⟩
  cases hop : s.op with
  | link => exact absurd hop hl
  | tconn f ms => exact some_of (.fireConnect true) rfl (by simp [Cli.step, hop, on])
  | connecting => exact some_of (.connectDone false) rfl (by simp [Cli.step, hop, on])
  | tdelay =>
    refine some_of (.fireDelay 0) rfl ?_
    simp only [Cli.step, hop, on, true_and, if_true]
    split <;> simp
  | none =>
    by_cases hf : 0 < s.force
    · exact some_of .runForce rfl (by simp [Cli.step, hf, on])
    by_cases hg : 0 < s.grace
    · refine some_of (.runGraceful false) rfl ?_
      simp only [Cli.step, hg, on, true_and, if_true]
      (repeat' split) <;> simp
    · rcases act with ha | ha
      · rcases pend ha with h | h
        · exact absurd hop h
        · exact absurd h hf
      · refine some_of (.onClose true) rfl ?_
        have e1 : s.force = 0 := by omega
        have e2 : s.grace = 0 := by omega
        simp [Cli.step, ha, hop, e1, e2, on, need]

theorem Cli.going_step {s s' : Cli} {a : CliAct} {c : CliSt} {fs : List CliEv} (h : s.Going c) (ha : a.internal = true) (hs : s.step a = some (s', fs)) :
    (∃ c', s'.Going c') ∧ (attempts fs = 1 ∨ .connected ∈ fs ∨ s'.rank < s.rank) := by
  obtain ⟨inv, need, on, act, pend⟩ := h
  obtain ⟨c', _, inv'⟩ := Cli.inv_step inv hs
  have i1 := inv.active
  have i2 := inv.idle
  have key : s'.need = true ∧ s'.stopped = false ∧ (s'.started = true ∨ s'.closing = true) ∧ (s'.started = true → s'.op ≠ .none ∨ 0 < s'.force) ∧ (attempts fs = 1 ∨ .connected ∈ fs ∨ s'.rank < s.rank) := by
    clear inv inv'
    obtain ⟨status, started, closing, nd, op, force, grace, stopped⟩ := s
    simp only at need on act pend i1 i2
    subst need on
    cases a <;> simp only [CliAct.internal, Bool.false_eq_true, decide_eq_true_eq] at ha <;> (try subst ha) <;>
      simp only [Cli.step, Cli.start, Cli.shutdown, Cli.close, if_true, true_and] at hs <;> (repeat' split at hs) <;> cases hs <;>
      (refine ⟨?_, ?_, ?_, ?_, ?_⟩ <;> simp only [Cli.rank, attempts, CliOp.weight] <;> (first | grind | (cases op <;> (try simp only [CliOp.noTimer, CliOp.weight]) <;> grind)))
  exact ⟨⟨c', inv', key.1, key.2.1, key.2.2.1, key.2.2.2.1⟩, key.2.2.2.2⟩

/-- **C40** (keeps trying): a client that has been started and has reconnecting enabled either is connected or goes on by itself, and cannot go on for long without trying: every sequence of its own steps (timers, results of connecting, errors, posted requests,
closing) in which it neither tries to connect nor gets connected is shorter than 8 plus three times the number of posted shutdown requests. -/
theorem C40_keeps_trying_partial {need : Bool} {as : List CliAct} {s : Cli} {es : List CliEv} (hr : Cli.Run (Cli.init need) as s es) (ha : ∀ a ∈ as, a.bindOk = true ∧ a ≠ .setReconnectIdle) (hw : .started ∈ es) (hn : s.need = true) (hst : s.stopped = false) :
    (s.op = .link ∨ ∃ a s' fs, a.internal = true ∧ s.step a = some (s', fs)) ∧
    ∀ bs s' fs, Cli.Run s bs s' fs → (∀ b ∈ bs, b.internal = true) → attempts fs = 0 → CliEv.connected ∉ fs → bs.length < 8 + 3 * (s.force + s.grace) ∧ s'.need = true ∧ (s'.op = .link ∨ ∃ a s'' gs, a.internal = true ∧ s'.step a = some (s'', gs)) := by
  have hb := Cli.busy_run hr ha
  obtain ⟨c, _, hi⟩ := Cli.inv_run hr
  have hg : s.Going c := ⟨hi, hn, hst, hb.once hst hw hn, hb.pend⟩
  have en : ∀ (t : Cli) d, t.Going d → t.op = .link ∨ ∃ a s' fs, a.internal = true ∧ t.step a = some (s', fs) := by
    intro t d h
    by_cases hl : t.op = .link
    · exact Or.inl hl
    · exact Or.inr (Cli.going_enabled h hl)
  refine ⟨en s c hg, ?_⟩
  intro bs s' fs hr' hbs h1 h2
  have key : (∃ d, s'.Going d) ∧ bs.length + s'.rank ≤ s.rank := by
    clear hr ha hb hi hw hn hst
    induction hr' with
    | nil => exact ⟨⟨c, hg⟩, by simp⟩
    | snoc s1 s2 bs b es fs _ hs ih =>
      rw [attempts_append] at h1
      rw [List.mem_append] at h2
      obtain ⟨⟨d, g1⟩, g2⟩ := ih (fun b h => hbs b (by simp [h])) (by omega) (fun c => h2 (Or.inl c))
      obtain ⟨g3, g4⟩ := Cli.going_step g1 (hbs b (by simp)) hs
      refine ⟨g3, ?_⟩
      rcases g4 with g4 | g4 | g4
      · omega
      · exact absurd (Or.inr g4) h2
      · simp; omega
  obtain ⟨⟨d, g1⟩, g2⟩ := key
  refine ⟨?_, g1.need, en s' d g1⟩
  have : s.rank ≤ 7 + 3 * (s.force + s.grace) := by
    simp only [Cli.rank]
    have : s.op.weight ≤ 5 := by cases s.op <;> simp [CliOp.weight]
    split <;> omega
  omega

/-- **C40** (keeps trying, existence): such a client can always reach another attempt, or a connection, by its own steps alone. -/
theorem C40_tries_again_partial {need : Bool} {as : List CliAct} {s : Cli} {es : List CliEv} (hr : Cli.Run (Cli.init need) as s es) (ha : ∀ a ∈ as, a.bindOk = true ∧ a ≠ .setReconnectIdle) (hw : .started ∈ es) (hn : s.need = true) (hst : s.stopped = false) :
    s.op = .link ∨ ∃ bs s' fs, Cli.Run s bs s' fs ∧ (∀ b ∈ bs, b.internal = true) ∧ (0 < attempts fs ∨ CliEv.connected ∈ fs ∨ s'.op = .link) := by
  have hb := Cli.busy_run hr ha
  obtain ⟨c, hp, hi⟩ := Cli.inv_run hr
  have hg : s.Going c := ⟨hi, hn, hst, hb.once hst hw hn, hb.pend⟩
  right
  clear hp hr ha hb hi hw hn hst
  generalize hm : s.rank = m
  induction m using Nat.strongRecOn generalizing s c with
  | _ m ih =>
    by_cases hl : s.op = .link
    · exact ⟨[], s, [], Cli.Run.nil s, by simp, Or.inr (Or.inr hl)⟩
    · obtain ⟨a, s1, fs, h1, h2⟩ := Cli.going_enabled hg hl
      obtain ⟨⟨d, g1⟩, g2⟩ := Cli.going_step hg h1 h2
      by_cases hx : attempts fs = 1 ∨ .connected ∈ fs
      · refine ⟨[a], s1, fs, Cli.run_one h2, by simpa using h1, ?_⟩
        rcases hx with hx | hx
        · left; omega
        · exact Or.inr (Or.inl hx)
      · have hlt : s1.rank < m := by
          rcases g2 with g | g | g
          · exact absurd (Or.inl g) hx
          · exact absurd (Or.inr g) hx
          · omega
        obtain ⟨bs, s', gs, k1, k2, k3⟩ := ih _ hlt d g1 rfl
        refine ⟨_, s', _, Cli.run_trans (Cli.run_one h2) k1, by simpa [h1] using k2, ?_⟩
        rw [attempts_append, List.mem_append]
        rcases k3 with k | k | k
        · left; omega
        · exact Or.inr (Or.inl (Or.inr k))
        · exact Or.inr (Or.inr k)

/-- A concrete history: the server refuses once, then accepts; the connection breaks and the client connects again. -/
example : ∃ s es, Cli.Run (Cli.init true) [.userStart true, .fireConnect true, .connectDone false, .fireDelay 500, .fireConnect true, .connectDone true, .lost, .runForce, .onClose true, .fireConnect true, .connectDone true] s es ∧
    es = [.started, .attempt 50, .failed, .asked 500, .attempt 500, .connected, .lost, .closed, .started, .attempt 50, .connected] ∧ s.op = .link :=
  ⟨_, _, Cli.exec_run rfl, by decide, by decide⟩

/-- The link is given up by the client itself (a heartbeat error, say): it connects again. -/
theorem C40_demo_self : ∃ s es, Cli.Run (Cli.init true) [.userStart true, .fireConnect true, .connectDone true, .selfDown, .runForce, .lost, .runForce, .onClose true, .fireConnect true, .connectDone true] s es ∧
    es = [.started, .attempt 50, .connected, .lost, .closed, .started, .attempt 50, .connected] ∧ s.op = .link :=
  ⟨_, _, Cli.exec_run rfl, by decide, by decide⟩

/-- force_shutdown(false) on a connected client: closed, no attempt any more. -/
example : ∃ s es, Cli.Run (Cli.init true) [.userStart true, .fireConnect true, .connectDone true, .force false true, .runForce, .lost, .runForce, .onClose true] s es ∧ es = [.started, .attempt 50, .connected, .lost, .closed] ∧ s.started = false ∧ s.closing = false :=
  ⟨_, _, Cli.exec_run rfl, by decide, by decide, by decide⟩

/-- prepare_reconnect gives up: closed, no attempt any more. -/
example : ∃ s es, Cli.Run (Cli.init true) [.userStart true, .fireConnect true, .connectDone false, .fireDelay (-1), .runForce, .onClose true] s es ∧
    es = [.started, .attempt 50, .failed, .asked (-1), .closed] ∧ s.started = false ∧ s.need = false :=
  ⟨_, _, Cli.exec_run rfl, by decide, by decide, by decide⟩

/-! ### where C40 is false -/

/-- If bind() fails when the client tries again, the client stays started for ever, without connecting, without trying and without reporting anything: none of its own steps is possible. -/
theorem C40_fails_bind : ∃ (as : List CliAct) (s : Cli) (es : List CliEv), Cli.Run (Cli.init true) as s es ∧ as = [.userStart true, .fireConnect true, .connectDone false, .fireDelay 500, .fireConnect false] ∧ s.need = true ∧ s.started = true ∧ s.stopped = false ∧ ∀ a s' fs, s.step a = some (s', fs) →
    a.noAsk = false ∨ a = .force false true ∨ a = .force false false ∨ a = .graceful false true ∨ a = .graceful false false ∨ a = .setReconnect false ∨ a = .pumpStop := by
  refine ⟨_, ⟨.broken, true, false, true, .none, 0, 0, false⟩, _, Cli.exec_run rfl, rfl, rfl, rfl, rfl, ?_⟩
  intro a s' fs h
  cases a with
  | force b bind => cases b <;> cases bind <;> simp [CliAct.noAsk]
  | graceful b bind => cases b <;> cases bind <;> simp [CliAct.noAsk]
  | setReconnect b => cases b <;> simp [CliAct.noAsk]
  | userStart b => simp [CliAct.noAsk]
  | setReconnectIdle => simp [CliAct.noAsk]
  | pumpStop => simp
  | fireConnect b => simp [Cli.step] at h
  | connectDone b => simp [Cli.step] at h
  | fireDelay b => simp [Cli.step] at h
  | cancelDelay => simp [Cli.step] at h
  | lost => simp [Cli.step] at h
  | selfDown => simp [Cli.step] at h
  | runForce => simp [Cli.step] at h
  | runGraceful b => simp [Cli.step] at h
  | onClose b => simp [Cli.step] at h

/-- If bind() fails when a client starts again after on_close, it is at rest although reconnecting is enabled. -/
theorem C40_fails_bind_close : ∃ (as : List CliAct) (s : Cli) (es : List CliEv), Cli.Run (Cli.init true) as s es ∧ as = [.userStart true, .fireConnect true, .connectDone true, .lost, .runForce, .onClose false] ∧ s.need = true ∧ s.started = false ∧ s.closing = false ∧ s.stopped = false :=
  ⟨_, _, _, Cli.exec_run rfl, rfl, rfl, rfl, rfl, rfl⟩

/-- set_reconnect(false) while the timer for the next attempt is running does not prevent this attempt. -/
theorem C40_fails_one_more : ∃ (as : List CliAct) (s : Cli) (es : List CliEv), Cli.Run (Cli.init true) as s es ∧ as = [.userStart true, .fireConnect true, .connectDone false, .fireDelay 500, .setReconnect false, .fireConnect true] ∧ es = [.started, .attempt 50, .failed, .asked 500, .attempt 500] :=
  ⟨_, _, _, Cli.exec_run rfl, rfl, by decide⟩

/-- set_reconnect(true) on a client at rest does not make it try. -/
theorem C40_fails_idle : ∃ (as : List CliAct) (s : Cli) (es : List CliEv), Cli.Run (Cli.init true) as s es ∧ .started ∈ es ∧ s.need = true ∧ s.started = false ∧ s.closing = false ∧ s.stopped = false :=
  ⟨_, _, _, Cli.exec_run (as := [.userStart true, .fireConnect true, .connectDone true, .force false true, .runForce, .lost, .runForce, .onClose true, .setReconnectIdle]) rfl, by decide, rfl, rfl, rfl, rfl⟩

end StAsio
