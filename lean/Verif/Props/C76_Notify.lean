import Verif.Lemmas.NotifyUdp
import Verif.Props.C20_C23_TcpSend
import Verif.Props.C24_UdpSend
/-!
C76: the notifications of the send path are truthful and complete: on_msg_send is called exactly once for each message that was written, in order, after all its bytes were written;
when on_all_msg_send is called nothing accepted is waiting any more; and it is called when the send buffer ran empty.

The last part does not hold when messages are taken out of the send buffer (pop_*_pending_send_msg, shrink_send_buffer), nor for UDP when the last message fails.
-/
set_option autoImplicit false
namespace StAsio

/-! ### TCP -/

/-- C76, TCP and websocket, with ST_ASIO_WANT_MSG_SEND_NOTIFY or ST_ASIO_WANT_BATCH_MSG_SEND_NOTIFY: at any moment on_msg_send was called for exactly the messages written so far, once
each, in this order; and nothing undefined happens. -/
theorem C76_each (ws : Bool) (mode : NtMode) (as : List NtAct) (s : Nt) (es : List NtEv) (h : Nt.Run ws mode Nt.init as s es) :
    (mode ≠ .none → ntNotified es = ntWritten es) ∧ s.bad = false := by
  obtain ⟨bs, tes, hs⟩ := Nt.run_sim h
  exact ⟨hs.notified, hs.bad⟩

/-- C76: when send_handler begins, all the bytes of the messages it is about to report were taken by the kernel, and nothing after them. -/
theorem C76_on_the_wire (ws : Bool) (mode : NtMode) (as : List NtAct) (s s' : Nt) (es fs : List NtEv) (i : Nat) (left : List Bytes)
    (h : Nt.Run ws mode Nt.init as s es) (hb : Nt.step ws mode s (.begin i left) = some (s', fs)) :
    ntWritten fs ≠ [] ∧ ∃ pre, s.tx.wire = pre ++ (ntWritten fs).flatten := by
  obtain ⟨bs, tes, hs⟩ := Nt.run_sim h
  have hi := (Tx.run_inv Tx.init_inv hs.run).1
  simp only [Nt.step] at hb
  cases hd : s.tx.dones[i]? with
  | none => rw [hd] at hb; cases hb
  | some d =>
    rw [hd] at hb
    simp only at hb
    split at hb
    · cases hb
    · next hc =>
      simp only [not_or, Decidable.not_not, Bool.not_eq_false] at hc
      cases hb
      have hw : ntWritten (NtEv.written (s.tx.sendingMsgs.map TxMsg.data) :: mode.calls (s.tx.sendingMsgs.map TxMsg.data) left) = s.tx.sendingMsgs.map TxMsg.data := by
        simp [ntWritten, (NtMode.calls_view mode _ left).2.1]
      rw [hw]
      have hne : s.tx.sendingMsgs ≠ [] := hi.some (.inr (by intro hc; rw [hc] at hd; simp at hd))
      obtain ⟨h1, h2⟩ := hi.dbufs d (List.mem_of_getElem? hd)
      obtain ⟨pre, h3⟩ := h2 hc.2.2.1
      exact ⟨by simpa using hne, pre, by rw [h3, h1]; rfl⟩

/-- on_all_msg_send comes from the look into the send buffer only. -/
theorem Nt.step_onAll {ws : Bool} {mode : NtMode} {s s' : Nt} {a : NtAct} {fs fs1 fs2 : List NtEv} {m : Bytes} (hs : Nt.step ws mode s a = some (s', fs))
    (hf : fs = fs1 ++ .onAll m :: fs2) :
    fs1 = [] ∧ s.tx.q.items = [] ∧ ∃ i left, s.ph = .notified i left ∧ (left.getLast? = some m ∨ left = [] ∧ m = []) := by
  have hm : NtEv.onAll m ∈ fs := by rw [hf]; simp
  cases a with
  | tx a =>
    simp only [Nt.step] at hs
    split at hs
    · cases hs
    · split at hs
      · cases hs
      · cases ht : s.tx.step (mode.size ws) a with
        | none => rw [ht] at hs; cases hs
        | some r =>
          rw [ht] at hs
          simp only [Option.map_some, Option.some.injEq, Prod.mk.injEq] at hs
          rw [← hs.2] at hm
          exact absurd hm ((ntTx_not _).1 m)
  | begin i left =>
    simp only [Nt.step] at hs
    split at hs
    · cases hs
    · split at hs
      · cases hs
      · simp only [Option.some.injEq, Prod.mk.injEq] at hs
        rw [← hs.2] at hm
        simp only [List.mem_cons, reduceCtorEq, false_or] at hm
        exact absurd hm ((NtMode.calls_view _ _ _).2.2.2.2.2 m)
  | check =>
    simp only [Nt.step] at hs
    cases hp : s.ph with
    | idle => rw [hp] at hs; cases hs
    | rest i => rw [hp] at hs; cases hs
    | notified i left =>
      rw [hp] at hs
      simp only at hs
      have one : ∀ x, [NtEv.onAll x] = fs1 ++ NtEv.onAll m :: fs2 → fs1 = [] ∧ x = m := by
        intro x hx
        cases fs1 with
        | nil => simp at hx; exact ⟨rfl, hx.1⟩
        | cons e l => simp at hx
      split at hs
      · next hem =>
        have hq : s.tx.q.items = [] := by simpa using hem
        split at hs
        · next x hl =>
          simp only [Option.some.injEq, Prod.mk.injEq] at hs
          obtain ⟨e1, e2⟩ := one x (hs.2.trans hf)
          exact ⟨e1, hq, i, left, rfl, .inl (by rw [← e2]; assumption)⟩
        · next hl =>
          simp only [Option.some.injEq, Prod.mk.injEq] at hs
          obtain ⟨e1, e2⟩ := one [] (hs.2.trans hf)
          exact ⟨e1, hq, i, left, rfl, .inr ⟨List.getLast?_eq_none_iff.mp (by assumption), e2.symm⟩⟩
        · simp only [Option.some.injEq, Prod.mk.injEq] at hs
          rw [← hs.2] at hm; cases hm
      · simp only [Option.some.injEq, Prod.mk.injEq] at hs
        rw [← hs.2] at hm; cases hm
  | finish =>
    simp only [Nt.step] at hs
    split at hs
    · next i hp =>
      cases ht : s.tx.step (mode.size ws) (.handler i) with
      | none => rw [ht] at hs; cases hs
      | some r =>
        rw [ht] at hs
        simp only [Option.map_some, Option.some.injEq, Prod.mk.injEq] at hs
        rw [← hs.2] at hm
        exact absurd hm ((ntTx_not _).1 m)
    · cases hs

/-- Whenever on_all_msg_send was called there was a state with an empty send buffer. -/
theorem Nt.run_onAll {ws : Bool} {mode : NtMode} {as : List NtAct} {s : Nt} {es es1 es2 : List NtEv} {m : Bytes} (h : Nt.Run ws mode Nt.init as s es)
    (he : es = es1 ++ .onAll m :: es2) :
    ∃ as1 s1, Nt.Run ws mode Nt.init as1 s1 es1 ∧ s1.tx.q.items = [] ∧ ∃ i left, s1.ph = .notified i left ∧ (left.getLast? = some m ∨ left = [] ∧ m = []) := by
  generalize h0 : Nt.init = s0 at h
  induction h generalizing es2 with
  | nil => simp at he
  | snoc s1 s2 as a es fs hr hs ih =>
    subst h0
    rcases ntSplit_append he with ⟨r, hr1⟩ | ⟨fs1, e1, e2⟩
    · exact ih hr1
    · obtain ⟨k1, k2, k3⟩ := Nt.step_onAll hs e2
      subst k1
      rw [List.append_nil] at e1
      subst e1
      exact ⟨as, s1, hr, k2, k3⟩

/-- C76: when on_all_msg_send is called, every message accepted so far was written, failed, or was taken out of the send buffer: none is waiting or in flight. (For all histories: with
priority messages, errors, reconnects, several threads sending.) -/
theorem C76_all_true (ws : Bool) (mode : NtMode) (as : List NtAct) (s : Nt) (es es1 es2 : List NtEv) (m : Bytes) (h : Nt.Run ws mode Nt.init as s es)
    (he : es = es1 ++ .onAll m :: es2) : (ntAccepted es1).Perm (ntWritten es1 ++ ntFailed es1 ++ ntRemoved es1) := by
  obtain ⟨as1, s1, hr, hq, i, left, hp, _⟩ := Nt.run_onAll h he
  obtain ⟨bs, tes, hs⟩ := Nt.run_sim hr
  have hmon := (Tx.run_inv Tx.init_inv hs.run).2
  have hperm : (acceptedMsgs tes).Perm (sentMsgs tes ++ s1.tx.sendingMsgs ++ txFailed tes ++ txRemoved tes) := by
    rw [List.perm_iff_count]
    intro x
    have := monitor_account hmon x
    rw [Tx.flight_getD, Tx.flight_getD] at this
    simp only [Tx.ideal, hq, Tx.init, Q.init, List.count_nil] at this
    simp only [List.count_append]
    omega
  have := hperm.map TxMsg.data
  rw [hs.accepted, hs.written, hs.failed, hs.removed]
  have hc : s1.current = s1.tx.sendingMsgs.map TxMsg.data := by simp [Nt.current, hp]
  rw [hc]
  simpa only [List.map_append] using this

/-- C76, order: without priority messages, errors and removals, the messages written are a front part of the accepted ones, in order. -/
theorem C76_order (ws : Bool) (mode : NtMode) (as : List NtAct) (s : Nt) (es : List NtEv) (h : Nt.Run ws mode Nt.init as s es)
    (hp : ∀ ms p, NtEv.accepted ms p ∈ es → p = false) (hf : ntFailed es = []) (hr : ntRemoved es = []) : ntWritten es <+: ntAccepted es := by
  obtain ⟨bs, tes, hs⟩ := Nt.run_sim h
  have hmon := (Tx.run_inv Tx.init_inv hs.run).2
  have ho := monitor_order hmon
    (fun ms hm => by obtain ⟨l, hl⟩ := hs.prior ms hm; exact absurd (hp _ _ hl) (by decide))
    (by have := hs.failed; rw [hf] at this; simpa using this.symm) (by have := hs.removed; rw [hr] at this; simpa using this.symm) (Tx.run_error_some hs.run)
  rw [Tx.flight_getD, Tx.flight_getD] at ho
  simp only [Tx.ideal, Tx.init, Q.init, List.nil_append] at ho
  rw [hs.accepted, hs.written, ho]
  simp only [List.map_append]
  rw [List.prefix_append_right_inj]
  unfold Nt.current
  split
  · exact List.nil_prefix
  · exact List.prefix_append _ _

/-- C76: the argument of on_all_msg_send is the message written last, if on_msg_send left the messages alone; without priority messages, errors and removals all accepted messages
were written and it is the one accepted last. -/
theorem C76_all_arg (ws : Bool) (mode : NtMode) (as : List NtAct) (s : Nt) (es es1 es2 : List NtEv) (m : Bytes) (h : Nt.Run ws mode Nt.init as s es)
    (he : es = es1 ++ .onAll m :: es2) (hu : ∀ ms l, NtEv.onSend ms l ∈ es1 → l = ms) :
    (ntWritten es1).getLast? = some m ∧
    ((∀ ms p, NtEv.accepted ms p ∈ es1 → p = false) → ntFailed es1 = [] → ntRemoved es1 = [] → ntWritten es1 = ntAccepted es1) := by
  have hperm := C76_all_true ws mode as s es es1 es2 m h he
  obtain ⟨as1, s1, hr, hq, i, left, hp, hl⟩ := Nt.run_onAll h he
  obtain ⟨bs, tes, hs⟩ := Nt.run_sim hr
  have hi := (Tx.run_inv Tx.init_inv hs.run).1
  obtain ⟨_, d, hd, _⟩ := hs.ph i (by rw [hp]; rfl)
  have hne : s1.tx.sendingMsgs ≠ [] := hi.some (.inr (by intro hc; rw [hc] at hd; simp at hd))
  have hsame := hs.same hu i left hp
  constructor
  · rw [hs.written]
    have hc : s1.current = left := by simp [Nt.current, hp, hsame]
    rcases hl with hl | hl
    · rw [hc, List.getLast?_append, hl]; rfl
    · rw [hl.1] at hsame
      exact absurd (by simpa using hsame.symm) hne
  · intro h1 h2 h3
    have hpre := C76_order ws mode as1 s1 es1 hr h1 h2 h3
    rw [h2, h3, List.append_nil, List.append_nil] at hperm
    exact hpre.eq_of_length hperm.length_eq.symm

/-- C76, completeness: if no write failed and nothing was taken out of the send buffer, then once nothing is going on any more either no message was ever accepted, or no message was
accepted since the last call of on_all_msg_send: it was not forgotten. Missing (because false, see C76_fails_pop): messages taken out. -/
theorem C76_all_comes_partial (ws : Bool) (mode : NtMode) (as : List NtAct) (s : Nt) (es : List NtEv) (h : Nt.Run ws mode Nt.init as s es)
    (hph : s.ph = .idle) (hq : s.tx.Quiet) (hready : s.tx.ready = true) (hn : ∀ i, NtAct.tx (.complete i false) ∉ as) (hr : ntRemoved es = []) :
    ntAccepted es = [] ∨ ∃ es1 m es2, es = es1 ++ .onAll m :: es2 ∧ ntAccepted es2 = [] := by
  obtain ⟨bs, tes, hs⟩ := Nt.run_sim h
  have hi := Tx.run_inv Tx.init_inv hs.run
  have hn' : ∀ i, TxAct.complete i false ∉ bs := fun i hm => hn i (hs.acts i hm)
  have hf0 := Tx.run_nofail hs.run hn'
  have hf : ntFailed es = [] := by rw [hs.failed, hf0]; rfl
  have hr0 : txRemoved tes = [] := by have := hs.removed; rw [hr] at this; simpa using this.symm
  have hem := C22_no_lost_wakeup _ _ _ _ hs.run hready (failedSinceUp_none hn') hq
  have hsm := hi.1.none hq.2.2.1 hq.2.2.2.1
  have hlen : (ntAccepted es).length = (ntWritten es).length := by
    have hperm : (acceptedMsgs tes).Perm (sentMsgs tes) := by
      rw [List.perm_iff_count]
      intro x
      have := monitor_account hi.2 x
      rw [Tx.flight_getD, Tx.flight_getD] at this
      simp only [Tx.ideal, hem, hsm, hf0, hr0, Tx.init, Q.init, List.count_nil] at this
      omega
    rw [hs.accepted, hs.written]
    simp [Nt.current, hph, hperm.length_eq]
  have hopen : ntOpen false es = false := by
    cases ho : ntOpen false es with
    | false => rfl
    | true =>
      have := hs.isOpen hr hf ho
      rw [hph] at this
      rcases this with h1 | h1
      · exact absurd hem h1
      · exact absurd hsm h1
  rcases ntOpen_false_split hopen with hw | ⟨es1, m, es2, he, hw⟩
  · left; rw [hw] at hlen; exact List.length_eq_zero_iff.mp hlen
  · right
    refine ⟨es1, m, es2, he, ?_⟩
    have hp1 := (C76_all_true ws mode as s es es1 es2 m h he).length_eq
    have hf1 : ntFailed es1 = [] := by rw [he, ntFailed_append] at hf; exact append_nil_left hf
    have hr1 : ntRemoved es1 = [] := by rw [he, ntRemoved_append] at hr; exact append_nil_left hr
    rw [hf1, hr1, List.append_nil, List.append_nil] at hp1
    rw [he, ntAccepted_append, ntWritten_append] at hlen
    simp only [ntAccepted, ntWritten, List.length_append, hw, List.length_nil] at hlen
    exact List.length_eq_zero_iff.mp (by omega)

theorem Nt.run_trans {ws : Bool} {mode : NtMode} {s s1 s2 : Nt} {as bs : List NtAct} {es fs : List NtEv} (h1 : Nt.Run ws mode s as s1 es) (h2 : Nt.Run ws mode s1 bs s2 fs) :
    Nt.Run ws mode s (as ++ bs) s2 (es ++ fs) := by
  induction h2 with
  | nil => simpa using h1
  | snoc s2 s3 bs a fs fs' _ hs ih =>
    rw [← List.append_assoc, ← List.append_assoc]
    exact Nt.Run.snoc _ _ _ _ _ _ _ ih hs

theorem Nt.run_one {ws : Bool} {mode : NtMode} {s s1 : Nt} {a : NtAct} {es : List NtEv} (h : Nt.step ws mode s a = some (s1, es)) : Nt.Run ws mode s [a] s1 es := by
  have := Nt.Run.snoc _ _ _ _ _ _ _ (Nt.Run.nil (ws := ws) (mode := mode) s) h
  simpa using this

theorem Nt.exec_run {ws : Bool} {mode : NtMode} {s s' : Nt} {as : List NtAct} {es : List NtEv} (h : Nt.exec ws mode s as = some (s', es)) : Nt.Run ws mode s as s' es := by
  induction as generalizing s es with
  | nil => simp [Nt.exec] at h; obtain ⟨rfl, rfl⟩ := h; exact Nt.Run.nil _
  | cons a as ih =>
    simp only [Nt.exec, Option.bind_eq_bind] at h
    cases hs : Nt.step ws mode s a with
    | none => rw [hs] at h; cases h
    | some r =>
      obtain ⟨s1, es1⟩ := r
      rw [hs] at h
      simp only [Option.bind_some] at h
      cases hx : Nt.exec ws mode s1 as with
      | none => rw [hx] at h; cases h
      | some r =>
        obtain ⟨s2, es2⟩ := r
        rw [hx] at h
        cases h
        exact Nt.run_trans (Nt.run_one hs) (ih hx)

/-- What the library and the kernel do on their own; on_msg_send leaves the messages alone. -/
def NtAct.Internal : NtAct → Prop
  | .tx a => a.Internal
  | _ => True

/-- A step of the send path is one, or three, of the machine with notifications. -/
theorem Nt.lift_step {ws : Bool} {mode : NtMode} {s : Nt} {t : Tx} {a : TxAct} {ues : List TxEv} (hp : s.ph = .idle) (ha : a.Internal)
    (ht : s.tx.step (mode.size ws) a = some (t, ues)) :
    ∃ as s' es, Nt.Run ws mode s as s' es ∧ (∀ a ∈ as, a.Internal) ∧ s'.ph = .idle ∧ s'.tx = t := by
  by_cases hsu : a.succeeds s.tx = true
  · cases a with
    | handler i =>
      cases hd : s.tx.dones[i]? with
      | none => simp only [TxAct.succeeds, hd] at hsu; cases hsu
      | some d =>
        simp only [TxAct.succeeds, hd, Option.map_some, Option.getD_some] at hsu
        have hpc : s.tx.pc = .idle := by
          simp only [Tx.step, Option.bind_eq_bind, hd, Option.bind_some] at ht
          split at ht
          · cases ht
          · next hc => exact Decidable.not_not.mp hc
        have hleave : mode.mayLeave (s.tx.sendingMsgs.map TxMsg.data) (s.tx.sendingMsgs.map TxMsg.data) = true := by
          cases mode <;> simp [NtMode.mayLeave]
        have h1 : Nt.step ws mode s (.begin i (s.tx.sendingMsgs.map TxMsg.data)) = some ({ s with ph := .notified i (s.tx.sendingMsgs.map TxMsg.data) },
            .written (s.tx.sendingMsgs.map TxMsg.data) :: mode.calls (s.tx.sendingMsgs.map TxMsg.data) (s.tx.sendingMsgs.map TxMsg.data)) := by
          simp only [Nt.step, hd]
          rw [if_neg (by simp [hp, hpc, hsu, hleave])]
        have h2 : ∃ b gs, Nt.step ws mode { s with ph := .notified i (s.tx.sendingMsgs.map TxMsg.data) } .check = some ({ s with ph := .rest i, bad := b }, gs) := by
          simp only [Nt.step]
          split
          · split <;> exact ⟨_, _, rfl⟩
          · exact ⟨_, _, rfl⟩
        obtain ⟨b, gs, h2⟩ := h2
        have h3 : Nt.step ws mode { s with ph := .rest i, bad := b } .finish = some ({ tx := t, ph := .idle, bad := b }, ues.filterMap ntTxEv) := by
          simp only [Nt.step, ht, Option.map_some]
        refine ⟨_, _, _, Nt.run_trans (Nt.run_trans (Nt.run_one h1) (Nt.run_one h2)) (Nt.run_one h3), ?_, rfl, rfl⟩
        intro a ha
        simp only [List.cons_append, List.nil_append, List.mem_cons, List.not_mem_nil, or_false] at ha
        rcases ha with rfl | rfl | rfl <;> trivial
    | _ => cases hsu
  · refine ⟨[.tx a], { s with tx := t }, ues.filterMap ntTxEv, Nt.run_one ?_, ?_, hp, rfl⟩
    · simp only [Nt.step]
      rw [if_neg (by simp [hp]), if_neg hsu, ht]; rfl
    · intro b hb; simp only [List.mem_singleton] at hb; rw [hb]; exact ha

/-- C76, progress: from any reachable state the library and the kernel can go on by themselves until nothing is going on any more. -/
theorem C76_settles (ws : Bool) (mode : NtMode) (as : List NtAct) (s : Nt) (es : List NtEv) (h : Nt.Run ws mode Nt.init as s es) :
    ∃ bs s' fs, Nt.Run ws mode s bs s' fs ∧ (∀ b ∈ bs, b.Internal) ∧ s'.ph = .idle ∧ s'.tx.Quiet := by
  -- first finish send_handler
  have hfin : ∃ bs s1 fs, Nt.Run ws mode s bs s1 fs ∧ (∀ b ∈ bs, b.Internal) ∧ s1.ph = .idle := by
    obtain ⟨cs, tes, hs⟩ := Nt.run_sim h
    have hrest : ∀ s2 : Nt, ∀ i, s2.ph = .rest i → s2.tx = s.tx → s.ph.idx = some i → ∃ s3 fs, Nt.step ws mode s2 .finish = some (s3, fs) ∧ s3.ph = .idle := by
      intro s2 i hp ht hix
      obtain ⟨hpc, d, hd, hok⟩ := hs.ph i hix
      have : ∃ r, s.tx.step (mode.size ws) (.handler i) = some r := by
        simp only [Tx.step, Option.bind_eq_bind, hd, Option.bind_some]
        rw [if_neg (by simp [hpc])]; exact ⟨_, rfl⟩
      obtain ⟨r, hr⟩ := this
      exact ⟨_, _, by simp only [Nt.step, hp, ht, hr, Option.map_some]; rfl, rfl⟩
    cases hp : s.ph with
    | idle => exact ⟨[], s, [], Nt.Run.nil s, by simp, hp⟩
    | rest i =>
      obtain ⟨s3, fs, h3, h4⟩ := hrest s i hp rfl (by rw [hp]; rfl)
      exact ⟨_, _, _, Nt.run_one h3, by intro b hb; simp only [List.mem_singleton] at hb; rw [hb]; trivial, h4⟩
    | notified i l =>
      have h2 : ∃ b gs, Nt.step ws mode s .check = some ({ s with ph := .rest i, bad := b }, gs) := by
        simp only [Nt.step, hp]
        split
        · split <;> exact ⟨_, _, rfl⟩
        · exact ⟨_, _, rfl⟩
      obtain ⟨b, gs, h2⟩ := h2
      obtain ⟨s3, fs, h3, h4⟩ := hrest { s with ph := .rest i, bad := b } i rfl rfl (by rw [hp]; rfl)
      refine ⟨_, _, _, Nt.run_trans (Nt.run_one h2) (Nt.run_one h3), ?_, h4⟩
      intro a ha
      simp only [List.cons_append, List.nil_append, List.mem_cons, List.not_mem_nil, or_false] at ha
      rcases ha with rfl | rfl <;> trivial
  obtain ⟨bs1, s1, fs1, hr1, hi1, hp1⟩ := hfin
  obtain ⟨cs, tes, hs⟩ := Nt.run_sim (Nt.run_trans h hr1)
  have hinv := (Tx.run_inv Tx.init_inv hs.run).1
  obtain ⟨ts, t', ues, htr, hti, htq⟩ := Tx.drain (mode.size ws) s1.tx.work s1.tx hinv (Nat.le_refl _)
  have lift : ∀ {ts : List TxAct} {t t' : Tx} {ues : List TxEv}, Tx.Run (mode.size ws) t ts t' ues → (∀ a ∈ ts, a.Internal) → ∀ s1 : Nt, s1.ph = .idle → s1.tx = t →
      ∃ bs s' fs, Nt.Run ws mode s1 bs s' fs ∧ (∀ b ∈ bs, b.Internal) ∧ s'.ph = .idle ∧ s'.tx = t' := by
    intro ts t t' ues hr
    induction hr with
    | nil => intro _ s1 h1 h2; exact ⟨[], s1, [], Nt.Run.nil s1, by simp, h1, h2⟩
    | snoc t1 t2 ts a es fs _ hst ih =>
      intro hint s1 h1 h2
      obtain ⟨bs, s', gs, k1, k2, k3, k4⟩ := ih (fun b hb => hint b (List.mem_append_left _ hb)) s1 h1 h2
      obtain ⟨bs2, s'', gs2, l1, l2, l3, l4⟩ := Nt.lift_step k3 (hint a (by simp)) (by rw [k4]; exact hst)
      refine ⟨_, _, _, Nt.run_trans k1 l1, ?_, l3, l4⟩
      intro b hb
      rcases List.mem_append.mp hb with hb | hb
      · exact k2 b hb
      · exact l2 b hb
  obtain ⟨bs2, s', fs2, k1, k2, k3, k4⟩ := lift htr hti s1 hp1 rfl
  refine ⟨_, _, _, Nt.run_trans hr1 k1, ?_, k3, by rw [k4]; exact htq⟩
  intro b hb
  rcases List.mem_append.mp hb with hb | hb
  · exact hi1 b hb
  · exact k2 b hb

/-- A history: two messages; on_msg_send sends a third one while it runs. -/
def ntDemo : List NtAct :=
  [.tx .linkUp, .tx .loadReady, .tx .loadFlag, .tx .runPosted, .tx .strand, .tx .strand, .tx .strand, .tx .strand,
   .tx (.send ⟨[1], none⟩ false true), .tx (.send ⟨[2, 2], none⟩ false true), .tx .loadReady, .tx .loadReady, .tx .loadFlag, .tx .runPosted, .tx .strand, .tx .strand,
   .tx .loadFlag, .tx (.transfer 0 1), .tx (.complete 0 true), .begin 0 [[1]], .check, .finish, .tx .strand,
   .tx (.transfer 0 1), .tx (.transfer 0 1), .tx (.complete 0 true), .begin 0 [[2, 2]], .tx (.send ⟨[3], none⟩ false true), .tx .loadReady, .tx .loadFlag, .check, .finish, .tx .strand,
   .tx (.transfer 0 1), .tx (.complete 0 true), .begin 0 [[3]], .check, .finish, .tx .strand, .tx .strand, .tx .strand]

/-- Non-vacuity: all the hypotheses hold together. -/
theorem C76_demo : ∃ s es, Nt.Run false .one Nt.init ntDemo s es ∧ s.ph = .idle ∧ s.tx.Quiet ∧ s.tx.ready = true ∧ (∀ i, NtAct.tx (.complete i false) ∉ ntDemo) ∧ ntRemoved es = [] ∧
    (∀ ms p, NtEv.accepted ms p ∈ es → p = false) ∧ (∀ ms l, NtEv.onSend ms l ∈ es → l = ms) ∧
    es = [.accepted [[1]] false, .accepted [[2, 2]] false, .written [[1]], .onSend [[1]] [[1]], .written [[2, 2]], .onSend [[2, 2]] [[2, 2]], .accepted [[3]] false,
      .written [[3]], .onSend [[3]] [[3]], .onAll [3]] := by
  have h : Nt.Run false .one Nt.init ntDemo _ _ := Nt.exec_run rfl
  have key : ∀ es : List NtEv, es = [.accepted [[1]] false, .accepted [[2, 2]] false, .written [[1]], .onSend [[1]] [[1]], .written [[2, 2]], .onSend [[2, 2]] [[2, 2]],
      .accepted [[3]] false, .written [[3]], .onSend [[3]] [[3]], .onAll [3]] →
      (∀ ms p, NtEv.accepted ms p ∈ es → p = false) ∧ (∀ ms l, NtEv.onSend ms l ∈ es → l = ms) := by
    intro es he
    subst he
    constructor
    · intro ms p hm
      simp only [List.mem_cons, NtEv.accepted.injEq, reduceCtorEq, List.not_mem_nil, or_false, false_or] at hm
      rcases hm with hm | hm | hm <;> exact hm.2
    · intro ms l hm
      simp only [List.mem_cons, NtEv.onSend.injEq, reduceCtorEq, List.not_mem_nil, or_false, false_or] at hm
      rcases hm with hm | hm | hm <;> rw [hm.1, hm.2]
  exact ⟨_, _, h, rfl, ⟨rfl, rfl, rfl, rfl, rfl, rfl⟩, rfl, by intro i hm; simp [ntDemo] at hm, rfl, (key _ rfl).1, (key _ rfl).2, rfl⟩

/-- The full statement fails: a message popped after send_handler found it in the send buffer. Everything accepted was written or popped, nothing is going on any more, the link is
up, no write failed: on_all_msg_send was never called. -/
theorem C76_fails_pop : ∃ as s es, Nt.Run false .one Nt.init as s es ∧ s.ph = .idle ∧ s.tx.Quiet ∧ s.tx.ready = true ∧ s.tx.q.items = [] ∧
    es = [.accepted [[1]] false, .accepted [[2]] false, .written [[1]], .onSend [[1]] [[1]], .removed [[2]]] := by
  have h : Nt.Run false .one Nt.init [.tx .linkUp, .tx (.send ⟨[1], none⟩ false true), .tx .loadReady, .tx .loadReady, .tx .loadFlag, .tx .runPosted, .tx .strand, .tx .strand, .tx .loadFlag,
      .tx (.send ⟨[2], none⟩ false true), .tx .loadReady, .tx .loadFlag, .tx (.transfer 0 1), .tx (.complete 0 true), .begin 0 [[1]], .check, .tx .pop, .finish,
      .tx .strand, .tx .strand, .tx .strand] _ _ := Nt.exec_run rfl
  exact ⟨_, _, _, h, rfl, ⟨rfl, rfl, rfl, rfl, rfl, rfl⟩, rfl, rfl, rfl⟩

/-! ### UDP -/

/-- C76, UDP: with ST_ASIO_WANT_MSG_SEND_NOTIFY, on_msg_send was called for exactly the messages sent so far, once each, in order - errors in between or not. -/
theorem C76_udp_each (conn notify : Bool) (as : List NuAct) (s : Nu) (es : List NtEv) (h : Nu.Run conn notify Nu.init as s es) :
    notify = true → ntNotified es = ntWritten es := by
  obtain ⟨bs, tes, hs⟩ := Nu.run_sim h
  exact hs.notified

theorem Nu.step_onAll {conn notify : Bool} {s s' : Nu} {a : NuAct} {fs fs1 fs2 : List NtEv} {m : Bytes} (hs : Nu.step conn notify s a = some (s', fs))
    (hf : fs = fs1 ++ .onAll m :: fs2) (hl : ∀ i left, s.ph = .notified i left → ∃ l, left = [l]) :
    fs1 = [] ∧ s.ux.q.items = [] ∧ ∃ i, s.ph = .notified i [m] := by
  have hm : NtEv.onAll m ∈ fs := by rw [hf]; simp
  cases a with
  | ux a =>
    simp only [Nu.step] at hs
    split at hs
    · cases hs
    · split at hs
      · cases hs
      · cases ht : s.ux.step conn a with
        | none => rw [ht] at hs; cases hs
        | some r =>
          rw [ht] at hs
          simp only [Option.map_some, Option.some.injEq, Prod.mk.injEq] at hs
          rw [← hs.2] at hm
          exact absurd hm ((nuUx_not _).1 m)
  | begin i left =>
    simp only [Nu.step] at hs
    cases hd : s.ux.dones[i]? with
    | none => rw [hd] at hs; cases hs
    | some d =>
      cases hc : s.ux.cur with
      | none => rw [hd, hc] at hs; cases hs
      | some x =>
        rw [hd, hc] at hs
        simp only at hs
        split at hs
        · cases hs
        · simp only [Option.some.injEq, Prod.mk.injEq] at hs
          rw [← hs.2] at hm
          cases notify <;> simp at hm
  | check =>
    simp only [Nu.step] at hs
    cases hp : s.ph with
    | idle => rw [hp] at hs; cases hs
    | rest i => rw [hp] at hs; cases hs
    | notified i left =>
      rw [hp] at hs
      obtain ⟨l, hl⟩ := hl i left hp
      subst hl
      simp only [Option.some.injEq, Prod.mk.injEq] at hs
      by_cases hem : s.ux.q.items.isEmpty = true
      · rw [if_pos hem] at hs
        have hx : [NtEv.onAll l] = fs1 ++ NtEv.onAll m :: fs2 := hs.2.trans hf
        cases fs1 with
        | nil => simp at hx; exact ⟨rfl, by simpa using hem, i, by rw [hx.1]⟩
        | cons e l => simp at hx
      · rw [if_neg hem] at hs
        rw [← hs.2] at hm; cases hm
  | finish =>
    simp only [Nu.step] at hs
    split at hs
    · next i hp =>
      cases ht : s.ux.step conn (.handler i) with
      | none => rw [ht] at hs; cases hs
      | some r =>
        rw [ht] at hs
        simp only [Option.map_some, Option.some.injEq, Prod.mk.injEq] at hs
        rw [← hs.2] at hm
        exact absurd hm ((nuUx_not _).1 m)
    · cases hs

theorem Nu.run_onAll {conn notify : Bool} {as : List NuAct} {s : Nu} {es es1 es2 : List NtEv} {m : Bytes} (h : Nu.Run conn notify Nu.init as s es)
    (he : es = es1 ++ .onAll m :: es2) :
    ∃ as1 s1, Nu.Run conn notify Nu.init as1 s1 es1 ∧ s1.ux.q.items = [] ∧ ∃ i, s1.ph = .notified i [m] := by
  generalize h0 : Nu.init = s0 at h
  induction h generalizing es2 with
  | nil => simp at he
  | snoc s1 s2 as a es fs hr hs ih =>
    subst h0
    rcases ntSplit_append he with ⟨r, hr1⟩ | ⟨fs1, e1, e2⟩
    · exact ih hr1
    · obtain ⟨bs, tes, hsim⟩ := Nu.run_sim hr
      obtain ⟨k1, k2, k3⟩ := Nu.step_onAll hs e2 hsim.left
      subst k1
      rw [List.append_nil] at e1
      subst e1
      exact ⟨as, s1, hr, k2, k3⟩

/-- C76, UDP: when on_all_msg_send is called nothing is waiting or in flight. For all histories. -/
theorem C76_udp_all_true (conn notify : Bool) (as : List NuAct) (s : Nu) (es es1 es2 : List NtEv) (m : Bytes) (h : Nu.Run conn notify Nu.init as s es)
    (he : es = es1 ++ .onAll m :: es2) : (ntAccepted es1).Perm (ntWritten es1 ++ ntFailed es1 ++ ntRemoved es1) := by
  obtain ⟨as1, s1, hr, hq, i, hp⟩ := Nu.run_onAll h he
  obtain ⟨bs, tes, hs⟩ := Nu.run_sim hr
  have hmon := (Ux.run_ok hs.run).2.2.1
  have hperm : (uAccepted tes).Perm (uSent tes ++ s1.ux.cur.toList ++ uFailed tes ++ uRemoved tes) := by
    rw [List.perm_iff_count]
    intro x
    have := uMonitor_account hmon x
    simp only [Ux.ideal, hq, Ux.init, Q.init, List.count_nil, Option.toList_none] at this
    simp only [List.count_append]
    omega
  have := hperm.map UMsg.data
  rw [hs.accepted, hs.written, hs.failed, hs.removed]
  have hc : s1.current = s1.ux.cur.toList.map UMsg.data := by simp [Nu.current, hp]
  rw [hc]
  simpa only [List.map_append] using this

/-- C76, UDP, order. -/
theorem C76_udp_order (conn notify : Bool) (as : List NuAct) (s : Nu) (es : List NtEv) (h : Nu.Run conn notify Nu.init as s es)
    (hp : ∀ ms p, NtEv.accepted ms p ∈ es → p = false) (hf : ntFailed es = []) (hr : ntRemoved es = []) : ntWritten es <+: ntAccepted es := by
  obtain ⟨bs, tes, hs⟩ := Nu.run_sim h
  have hmon := (Ux.run_ok hs.run).2.2.1
  have ho := uMonitor_order hmon
    (fun ms hm => by obtain ⟨l, hl⟩ := hs.prior ms hm; exact absurd (hp _ _ hl) (by decide))
    (by have := hs.failed; rw [hf] at this; simpa using this.symm) (by have := hs.removed; rw [hr] at this; simpa using this.symm)
  simp only [Ux.ideal, Ux.init, Q.init, List.nil_append, Option.toList_none] at ho
  rw [hs.accepted, hs.written, ho]
  simp only [List.map_append]
  rw [List.prefix_append_right_inj]
  unfold Nu.current
  split
  · exact List.nil_prefix
  · exact List.prefix_append _ _

/-- C76, UDP: the argument of on_all_msg_send. -/
theorem C76_udp_all_arg (conn notify : Bool) (as : List NuAct) (s : Nu) (es es1 es2 : List NtEv) (m : Bytes) (h : Nu.Run conn notify Nu.init as s es)
    (he : es = es1 ++ .onAll m :: es2) (hu : ∀ ms l, NtEv.onSend ms l ∈ es1 → l = ms) :
    (ntWritten es1).getLast? = some m ∧
    ((∀ ms p, NtEv.accepted ms p ∈ es1 → p = false) → ntFailed es1 = [] → ntRemoved es1 = [] → ntWritten es1 = ntAccepted es1) := by
  have hperm := C76_udp_all_true conn notify as s es es1 es2 m h he
  obtain ⟨as1, s1, hr, hq, i, hp⟩ := Nu.run_onAll h he
  obtain ⟨bs, tes, hs⟩ := Nu.run_sim hr
  have hsame := hs.same hu i [m] hp
  constructor
  · rw [hs.written]
    have hc : s1.current = [m] := by simp [Nu.current, hp, hsame]
    rw [hc]; simp
  · intro h1 h2 h3
    have hpre := C76_udp_order conn notify as1 s1 es1 hr h1 h2 h3
    rw [h2, h3, List.append_nil, List.append_nil] at hperm
    exact hpre.eq_of_length hperm.length_eq.symm

/-- C76, UDP, completeness, if no send failed and nothing was taken out of the send buffer (and congestion control was not left suspended, see C24). Missing (because false, see
C76_fails_udp_error): failing sends. -/
theorem C76_udp_all_comes_partial (conn notify : Bool) (as : List NuAct) (s : Nu) (es : List NtEv) (h : Nu.Run conn notify Nu.init as s es)
    (hph : s.ph = .idle) (hq : s.ux.Quiet) (hready : s.ux.ready = true) (hst : s.ux.stopped = false) (hn : ∀ i f, NuAct.ux (.complete i false f) ∉ as) (hr : ntRemoved es = []) :
    ntAccepted es = [] ∨ ∃ es1 m es2, es = es1 ++ .onAll m :: es2 ∧ ntAccepted es2 = [] := by
  obtain ⟨bs, tes, hs⟩ := Nu.run_sim h
  have hi := Ux.run_ok hs.run
  have hn' : ∀ i f, UAct.complete i false f ∉ bs := fun i f hm => hn i f (hs.acts i f hm)
  have hf0 := (Ux.run_nofail hs.run hn').2
  have hf : ntFailed es = [] := by rw [hs.failed, hf0]; rfl
  have hr0 : uRemoved tes = [] := by have := hs.removed; rw [hr] at this; simpa using this.symm
  have hem := C24_no_lost_wakeup _ _ _ _ hs.run hq hready (uFatal_none hn') hst
  have hsm := hi.1.none hq.2.2.1 hq.2.2.2.1
  have hlen : (ntAccepted es).length = (ntWritten es).length := by
    have hperm : (uAccepted tes).Perm (uSent tes) := by
      rw [List.perm_iff_count]
      intro x
      have := uMonitor_account hi.2.2.1 x
      simp only [Ux.ideal, hem, hsm, hf0, hr0, Ux.init, Q.init, List.count_nil, Option.toList_none] at this
      omega
    rw [hs.accepted, hs.written]
    simp [Nu.current, hph, hperm.length_eq]
  have hopen : ntOpen false es = false := by
    cases ho : ntOpen false es with
    | false => rfl
    | true =>
      have := hs.isOpen hr hf ho
      rw [hph] at this
      rcases this with h1 | h1
      · exact absurd hem h1
      · exact absurd hsm h1
  rcases ntOpen_false_split hopen with hw | ⟨es1, m, es2, he, hw⟩
  · left; rw [hw] at hlen; exact List.length_eq_zero_iff.mp hlen
  · right
    refine ⟨es1, m, es2, he, ?_⟩
    have hp1 := (C76_udp_all_true conn notify as s es es1 es2 m h he).length_eq
    have hf1 : ntFailed es1 = [] := by rw [he, ntFailed_append] at hf; exact append_nil_left hf
    have hr1 : ntRemoved es1 = [] := by rw [he, ntRemoved_append] at hr; exact append_nil_left hr
    rw [hf1, hr1, List.append_nil, List.append_nil] at hp1
    rw [he, ntAccepted_append, ntWritten_append] at hlen
    simp only [ntAccepted, ntWritten, List.length_append, hw, List.length_nil] at hlen
    exact List.length_eq_zero_iff.mp (by omega)

theorem Nu.run_trans {conn notify : Bool} {s s1 s2 : Nu} {as bs : List NuAct} {es fs : List NtEv} (h1 : Nu.Run conn notify s as s1 es) (h2 : Nu.Run conn notify s1 bs s2 fs) :
    Nu.Run conn notify s (as ++ bs) s2 (es ++ fs) := by
  induction h2 with
  | nil => simpa using h1
  | snoc s2 s3 bs a fs fs' _ hs ih =>
    rw [← List.append_assoc, ← List.append_assoc]
    exact Nu.Run.snoc _ _ _ _ _ _ _ ih hs

theorem Nu.run_one {conn notify : Bool} {s s1 : Nu} {a : NuAct} {es : List NtEv} (h : Nu.step conn notify s a = some (s1, es)) : Nu.Run conn notify s [a] s1 es := by
  have := Nu.Run.snoc _ _ _ _ _ _ _ (Nu.Run.nil (conn := conn) (notify := notify) s) h
  simpa using this

theorem Nu.exec_run {conn notify : Bool} {s s' : Nu} {as : List NuAct} {es : List NtEv} (h : Nu.exec conn notify s as = some (s', es)) : Nu.Run conn notify s as s' es := by
  induction as generalizing s es with
  | nil => simp [Nu.exec] at h; obtain ⟨rfl, rfl⟩ := h; exact Nu.Run.nil _
  | cons a as ih =>
    simp only [Nu.exec, Option.bind_eq_bind] at h
    cases hs : Nu.step conn notify s a with
    | none => rw [hs] at h; cases h
    | some r =>
      obtain ⟨s1, es1⟩ := r
      rw [hs] at h
      simp only [Option.bind_some] at h
      cases hx : Nu.exec conn notify s1 as with
      | none => rw [hx] at h; cases h
      | some r =>
        obtain ⟨s2, es2⟩ := r
        rw [hx] at h
        cases h
        exact Nu.run_trans (Nu.run_one hs) (ih hx)

/-- A history with two messages. -/
def nuDemo : List NuAct :=
  [.ux .linkUp, .ux (.send ⟨7, [1], none⟩ false true), .ux (.send ⟨7, [2, 2], none⟩ false true), .ux .loadReady, .ux .loadReady, .ux .loadReady, .ux .loadFlag, .ux .runPosted,
   .ux (.strand true false), .ux (.strand true false), .ux (.strand true false), .ux .loadFlag, .ux .loadFlag, .ux (.complete 0 true false), .begin 0 [1], .check, .finish,
   .ux (.strand true false), .ux (.strand true false), .ux (.complete 0 true false), .begin 0 [2, 2], .check, .finish,
   .ux (.strand true false), .ux (.strand true false), .ux (.strand true false), .ux (.strand true false)]

/-- Non-vacuity. -/
theorem C76_udp_demo : ∃ s es, Nu.Run false true Nu.init nuDemo s es ∧ s.ph = .idle ∧ s.ux.Quiet ∧ s.ux.ready = true ∧ s.ux.stopped = false ∧
    (∀ i f, NuAct.ux (.complete i false f) ∉ nuDemo) ∧ ntRemoved es = [] ∧
    es = [.accepted [[1]] false, .accepted [[2, 2]] false, .written [[1]], .onSend [[1]] [[1]], .written [[2, 2]], .onSend [[2, 2]] [[2, 2]], .onAll [2, 2]] := by
  have h : Nu.Run false true Nu.init nuDemo _ _ := Nu.exec_run rfl
  exact ⟨_, _, h, rfl, ⟨rfl, rfl, rfl, rfl, rfl, rfl, rfl, rfl⟩, rfl, rfl, by intro i f hm; simp [nuDemo] at hm, rfl, rfl⟩

/-- The full statement fails for UDP: the last message fails with an error that does not stop the socket. The send buffer is empty, nothing is going on any more, the first message was
reported: on_all_msg_send was never called. -/
theorem C76_fails_udp_error : ∃ as s es, Nu.Run false true Nu.init as s es ∧ s.ph = .idle ∧ s.ux.Quiet ∧ s.ux.ready = true ∧ s.ux.stopped = false ∧ s.ux.q.items = [] ∧
    uFatalSinceUp (as.filterMap (fun a => match a with | .ux a => some a | _ => none)) = false ∧
    es = [.accepted [[1]] false, .accepted [[2]] false, .written [[1]], .onSend [[1]] [[1]], .failed [[2]]] := by
  have h : Nu.Run false true Nu.init [.ux .linkUp, .ux (.send ⟨7, [1], none⟩ false true), .ux (.send ⟨7, [2], none⟩ false true), .ux .loadReady, .ux .loadReady, .ux .loadReady, .ux .loadFlag,
      .ux .runPosted, .ux (.strand true false), .ux (.strand true false), .ux (.strand true false), .ux .loadFlag, .ux .loadFlag, .ux (.complete 0 true false), .begin 0 [1], .check, .finish,
      .ux (.strand true false), .ux (.strand true false), .ux (.complete 0 false false), .ux (.handler 0),
      .ux (.strand true false), .ux (.strand true false), .ux (.strand true false), .ux (.strand true false)] _ _ := Nu.exec_run rfl
  exact ⟨_, _, _, h, rfl, ⟨rfl, rfl, rfl, rfl, rfl, rfl, rfl, rfl⟩, rfl, rfl, rfl, rfl, rfl⟩

end StAsio
