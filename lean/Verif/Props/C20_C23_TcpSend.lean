import Verif.Lemmas.TcpSend3
/-!
# C20-C23, C52: the TCP send path under every interleaving

`Tx.Run batch Tx.init as s es`: the actions `as` (of any number of sender threads, the strand, the kernel, shutdowns and
reconnects) lead to the state `s`, and `es` is what could be observed on the way. `IdealTx` (Spec/SendOrder.lean) says which
observations an ideal sender allows.
-/
set_option autoImplicit false
namespace StAsio

/-- Two threads send, with a race on the sending flag; the second message arrives while the first one is being written. -/
def txDemo : List TxAct :=
  [.linkUp, .send ⟨[1, 2], some 0⟩ false true, .loadReady, .loadReady, .loadFlag, .loadFlag, .runPosted, .strand, .strand,
   .send ⟨[3], some 1⟩ false true, .loadReady, .loadFlag, .transfer 0 1, .runPosted, .strand, .transfer 0 1, .complete 0 true, .handler 0, .strand,
   .transfer 0 1, .complete 0 true, .handler 0, .strand, .strand, .strand]

/-- C20. Whatever the threads, the kernel and the user do, what can be observed is what an ideal sender allows: batches
handed to the kernel are front parts of the waiting messages (so nothing is lost, duplicated or reordered, and priority
messages overtake waiting messages only), and success or failure is reported for exactly the batch in flight. -/
theorem C20_ideal_sender (batch : Nat) (as : List TxAct) (s : Tx) (es : List TxEv) (h : Tx.Run batch Tx.init as s es) :
    (IdealTx.mk [] none).monitor es = some ⟨s.q.items, if s.sendingMsgs = [] then none else some s.sendingMsgs⟩ := by
  have := (Tx.run_inv Tx.init_inv h).2
  simpa [Tx.ideal, Tx.init, Q.init, List.isEmpty_iff] using this

/-- C20 without priority, pop, shrink and reset: the messages handed to the kernel, followed by the waiting ones, are the
accepted ones, in order. -/
theorem C20_order (batch : Nat) (as : List TxAct) (s : Tx) (es : List TxEv) (h : Tx.Run batch Tx.init as s es)
    (hp : ∀ e ∈ es, PlainEv e) : handedMsgs es ++ s.q.items = acceptedMsgs es := by
  have := monitor_plain (C20_ideal_sender batch as s es h) hp
  simpa using this.symm

/-- C20: as long as no write fails, the messages reported as sent are those handed to the kernel, in order, except
the batch in flight. -/
theorem C20_reported (batch : Nat) (as : List TxAct) (s : Tx) (es : List TxEv) (h : Tx.Run batch Tx.init as s es)
    (hp : ∀ ms, TxEv.sendError ms ∉ es) : sentMsgs es ++ s.sendingMsgs = handedMsgs es := by
  have := monitor_flight (C20_ideal_sender batch as s es h) hp
  simp only [Option.getD_none, List.nil_append] at this
  rw [this]
  split
  · next hc => simp [hc]
  · rfl

/-- C20, the byte stream: on one link, as long as no write fails, the bytes the kernel took are a prefix of the messages handed
to it, back to back, and all of them if no write is outstanding. -/
theorem C20_wire (batch : Nat) (as0 as : List TxAct) (s0 s1 s : Tx) (es0 es1 es : List TxEv)
    (h0 : Tx.Run batch Tx.init as0 s0 es0) (hu : Tx.step batch s0 .linkUp = some (s1, es1))
    (h : Tx.Run batch s1 as s es) (hf : ∀ a ∈ as, (∀ i, a ≠ .complete i false) ∧ a ≠ .linkUp) :
    s.wire <+: TxMsg.bytes (handedMsgs es) ∧ (s.writes = [] → s.wire = TxMsg.bytes (handedMsgs es)) := by
  have hi := (Tx.run_inv Tx.init_inv h0).1
  have hi1 := (Tx.step_inv hi hu).1
  have hw := Tx.run_wire hi1 h hf
  have h1 : s1.wire = [] ∧ s1.writes = [] := by
    simp only [Tx.step] at hu
    split at hu
    · cases hu
    · rename_i hc
      have hna := noAsync_true (s := s0) (by simpa using fun hf => hc (Or.inr hf))
      cases hu
      exact ⟨rfl, hna.2.2.1⟩
  have hw' : s.wire ++ s.unwritten = TxMsg.bytes (handedMsgs es) := by rw [hw, h1.1]; simp [Tx.unwritten, h1.2]
  refine ⟨⟨_, hw'⟩, fun hn => ?_⟩
  rw [← hw']
  simp [Tx.unwritten, hn]

/-- C20 from the first message to the last byte: on a fresh socket, with nothing but plain sends and no failure, once
all is quiet the peer's stream is exactly the accepted messages, back to back, in order. -/
theorem C20_everything_written (batch : Nat) (as : List TxAct) (s : Tx) (es : List TxEv) (h : Tx.Run batch Tx.init (.linkUp :: as) s es)
    (hf : ∀ a ∈ as, (∀ i, a ≠ .complete i false) ∧ a ≠ .linkUp) (hp : ∀ e ∈ es, PlainEv e) (hr : s.ready = true) (hq : s.Quiet) :
    s.wire = TxMsg.bytes (acceptedMsgs es) := by
  have hl := Tx.run_live h
  have hfail : failedSinceUp (.linkUp :: as) = false := by
    have hg : ∀ as : List TxAct, (∀ a ∈ as, (∀ i, a ≠ .complete i false) ∧ a ≠ .linkUp) → failedSinceUp as = false := by
      intro as h
      unfold failedSinceUp
      induction as with
      | nil => rfl
      | cons a as ih =>
        rw [List.foldl_cons]
        have ha := h a (by simp)
        have := ih (fun x hx => h x (by simp [hx]))
        cases a with
        | complete i ok => cases ok
                           · exact absurd rfl (ha.1 i)
                           · exact this
        | linkUp => exact absurd rfl ha.2
        | _ => exact this
    exact hg as hf
  have hemp : s.q.items = [] := by
    rcases Classical.em (s.q.items = []) with h1 | h1
    · exact h1
    · have := hl.wake hfail hr h1
      obtain ⟨q1, q2, q3, q4, q5, q6⟩ := hq
      have hinv := (Tx.run_inv Tx.init_inv h).1
      have hse : s.sending = false := by
        have := hinv.owner
        cases hse : s.sending
        · rfl
        · simp [q2, q3, q4, hse, TxPc.owner] at this
      simp [Tx.Wake, q1, q2, q5, q6, hse] at this
  have hstart : Tx.step batch Tx.init .linkUp = some ({ Tx.init with ready := true, atReady := 1 }, []) := by
    simp [Tx.step, Tx.init, Tx.noAsync, Q.init]
  have hi1 := (Tx.step_inv Tx.init_inv hstart).1
  -- split the run behind linkUp
  have hsplit : ∀ (l : List TxAct) (s : Tx) (es : List TxEv), Tx.Run batch Tx.init l s es → ∀ as, l = TxAct.linkUp :: as →
      ∃ es', es = es' ∧ Tx.Run batch { Tx.init with ready := true, atReady := 1 } as s es' := by
    intro l s es h
    induction h with
    | nil => intro as h; cases h
    | snoc s1 s2 as' a es es' hr hs ih =>
      intro as hl
      cases as' with
      | nil =>
        simp at hl
        obtain ⟨rfl, rfl⟩ := hl
        obtain ⟨rfl, rfl⟩ := Tx.run_nil hr
        rw [hstart] at hs
        cases hs
        exact ⟨_, rfl, Tx.Run.nil _⟩
      | cons b bs =>
        simp at hl
        obtain ⟨rfl, hl⟩ := hl
        subst hl
        obtain ⟨e1, e2, e3⟩ := ih bs rfl
        subst e2
        exact ⟨_, rfl, Tx.Run.snoc _ _ _ _ _ _ _ e3 hs⟩
  obtain ⟨es', rfl, hrun⟩ := hsplit _ _ _ h as rfl
  have hw := Tx.run_wire hi1 hrun hf
  have hord := C20_order batch _ s es h hp
  rw [hemp, List.append_nil] at hord
  rw [← hord]
  have e1 : s.unwritten = [] := by simp [Tx.unwritten, hq.2.2.1]
  rw [e1] at hw
  simpa [Tx.init, Tx.unwritten] using hw

/-- Non-vacuity of C20, C21, C22: the run above exists, everything is written and reported, in order. -/
example : ∃ s es, Tx.Run 0 Tx.init txDemo s es ∧ s.wire = [1, 2, 3] ∧ s.Quiet ∧ s.ready = true ∧ failedSinceUp txDemo = false ∧ (∀ e ∈ es, PlainEv e) ∧
    acceptedMsgs es = [⟨[1, 2], some 0⟩, ⟨[3], some 1⟩] ∧ sentMsgs es = acceptedMsgs es ∧
    resolvedIds es = [0, 1] := by
  have h : ∃ r, Tx.exec 0 Tx.init txDemo = some r := by exact ⟨_, rfl⟩
  obtain ⟨⟨s, es⟩, h⟩ := h
  have e : Tx.exec 0 Tx.init txDemo = some ({ Tx.init with ready := true, wire := [1, 2, 3], q := { items := [], total := 0 } },
    [.accept [⟨[1, 2], some 0⟩] false, .handOff [⟨[1, 2], some 0⟩], .accept [⟨[3], some 1⟩] false, .resolved 0 .success, .sent [⟨[1, 2], some 0⟩],
     .handOff [⟨[3], some 1⟩], .resolved 1 .success, .sent [⟨[3], some 1⟩]]) := by decide +kernel
  refine ⟨_, _, Tx.exec_run e, rfl, ?_, rfl, by decide, ?_, by decide, by decide, by decide⟩
  · simp [Tx.Quiet, Tx.init]
  · intro x hx
    simp at hx
    rcases hx with hx | hx | hx | hx | hx | hx | hx | hx <;> subst hx <;> simp [PlainEv]

/-- C21. There is never more than one outstanding write, not even while the completion handler of the previous
one has not run yet; and the buffers given to the kernel are never touched while it uses them (`bad` is set by the
model if it reads `sending_msgs` that changed, or if a handler finds it empty). -/
theorem C21_one_write (batch : Nat) (as : List TxAct) (s : Tx) (es : List TxEv) (h : Tx.Run batch Tx.init as s es) :
    s.writes.length + s.dones.length ≤ 1 ∧ s.bad = false := by
  have hi := (Tx.run_inv Tx.init_inv h).1
  have := hi.owner
  have : (if s.sending then 1 else 0) ≤ 1 := by split <;> omega
  exact ⟨by omega, hi.bad⟩

/-- C22. While the link is ready and no write has failed on it: if all threads and the strand are idle and no write is
outstanding, then the send buffer is empty. -/
theorem C22_no_lost_wakeup (batch : Nat) (as : List TxAct) (s : Tx) (es : List TxEv) (h : Tx.Run batch Tx.init as s es)
    (hr : s.ready = true) (hf : failedSinceUp as = false) (hq : s.Quiet) : s.q.items = [] := by
  rcases Classical.em (s.q.items = []) with h1 | h1
  · exact h1
  · have := (Tx.run_live h).wake hf hr h1
    obtain ⟨q1, q2, q3, q4, q5, q6⟩ := hq
    have hinv := (Tx.run_inv Tx.init_inv h).1
    have hse : s.sending = false := by
      have := hinv.owner
      cases hse : s.sending
      · rfl
      · simp [q2, q3, q4, hse, TxPc.owner] at this
    simp [Tx.Wake, q1, q2, q5, q6, hse] at this

/-- C22, progress: with no further send, error or shutdown, the threads, the strand and the kernel can always act until all is
quiet, they cannot act for ever (at most `s.work` actions), and then the send buffer is empty. -/
theorem C22_drains (batch : Nat) (as : List TxAct) (s : Tx) (es : List TxEv) (h : Tx.Run batch Tx.init as s es)
    (hr : s.ready = true) (hf : failedSinceUp as = false) :
    (∀ bs s' fs, Tx.Run batch s bs s' fs → (∀ b ∈ bs, b.Internal) → bs.length ≤ s.work ∧
      ((∃ a s'' gs, a.Internal ∧ Tx.step batch s' a = some (s'', gs)) ∨ (s'.Quiet ∧ s'.q.items = []))) ∧
    ∃ bs s' fs, Tx.Run batch s bs s' fs ∧ (∀ b ∈ bs, b.Internal) ∧ s'.Quiet ∧ s'.q.items = [] := by
  have hi := (Tx.run_inv Tx.init_inv h).1
  constructor
  · intro bs s' fs hb hint
    have hw := Tx.run_work hi hb hint
    refine ⟨by omega, ?_⟩
    by_cases hq : s'.Quiet
    · refine Or.inr ⟨hq, C22_no_lost_wakeup batch (as ++ bs) s' (es ++ fs) (Tx.run_trans h hb) ?_ (failedSinceUp_internal as bs hint hf) hq⟩
      rw [(Tx.internal_run hb hint).1, hr]
    · exact Or.inl (Tx.progress batch s' (Tx.run_inv hi hb).1 hq)
  · obtain ⟨bs, s', fs, hb, hint, hq⟩ := Tx.drain batch s.work s hi (Nat.le_refl _)
    refine ⟨bs, s', fs, hb, hint, hq, C22_no_lost_wakeup batch (as ++ bs) s' (es ++ fs) (Tx.run_trans h hb) ?_ (failedSinceUp_internal as bs hint hf) hq⟩
    rw [(Tx.internal_run hb hint).1, hr]

/-- The condition "no write has failed" in C22 is needed: after a failed write the flag is cleared without looking at the send
buffer, so messages sent meanwhile stay there although the link still counts as ready and everything is idle. -/
theorem C22_left_behind_after_error : ∃ as s es, Tx.Run 65536 Tx.init as s es ∧ s.ready = true ∧ s.Quiet ∧ s.q.items ≠ [] := by
  have e : Tx.exec 65536 Tx.init [.linkUp, .loadReady, .loadFlag, .runPosted, .strand, .strand, .strand, .strand, .send ⟨[1], none⟩ false true, .loadReady, .loadFlag, .runPosted, .strand, .strand,
      .send ⟨[2], none⟩ false true, .loadReady, .loadFlag, .complete 0 false, .handler 0, .strand] =
      some ({ Tx.init with ready := true, q := { items := [⟨[2], none⟩], total := 1 } },
        [.accept [⟨[1], none⟩] false, .handOff [⟨[1], none⟩], .accept [⟨[2], none⟩] false, .sendError [⟨[1], none⟩]]) := by decide +kernel
  exact ⟨_, _, _, Tx.exec_run e, rfl, by simp [Tx.Quiet, Tx.init], by simp⟩

/-- C23 (partial), exactly-once part: the promises set, those of messages being written, of waiting messages and of
messages discarded by a shrink or cleared by a reset are, counted with multiplicity, those of the accepted messages. In particular no promise is
set twice (given that every sync send has its own), and the promise of a message that was sent, failed or was popped is set. -/
theorem C23_exactly_once_partial (batch : Nat) (as : List TxAct) (s : Tx) (es : List TxEv) (h : Tx.Run batch Tx.init as s es) :
    (resolvedIds es ++ promiseIds s.sendingMsgs ++ promiseIds s.q.items ++ promiseIds (droppedMsgs es)).Perm (promiseIds (acceptedMsgs es)) ∧
    ((promiseIds (acceptedMsgs es)).Nodup → (resolvedIds es).Nodup) := by
  have hperm : (resolvedIds es ++ promiseIds s.sendingMsgs ++ promiseIds s.q.items ++ promiseIds (droppedMsgs es)).Perm (promiseIds (acceptedMsgs es)) := by
    rw [List.perm_iff_count]
    intro x
    simp only [List.count_append]
    exact Tx.run_promises h x
  refine ⟨hperm, fun hn => ?_⟩
  have := hperm.nodup_iff.mpr hn
  rw [List.append_assoc, List.append_assoc] at this
  exact (List.nodup_append.mp this).1

/-- Setting promises: which ones. -/
theorem mem_setPromises {ms : List TxMsg} {r r' : SyncRes} {p : Nat} (h : TxEv.resolved p r ∈ setPromises ms r') : r = r' ∧ ∃ m ∈ ms, m.p = some p := by
  unfold setPromises at h
  rw [List.mem_filterMap] at h
  obtain ⟨m, hm, h⟩ := h
  rw [Option.map_eq_some_iff] at h
  obtain ⟨q, hq, h⟩ := h
  cases h
  exact ⟨rfl, m, hm, hq⟩

/-- C23, truth of SUCCESS: it is set only for a message of a batch that is reported as sent at this moment, and all bytes of this
batch are in the stream. Truth of NOT_APPLICABLE: it is set only for a message of a failed write or a popped message. -/
theorem C23_true_outcome_partial (batch : Nat) (as : List TxAct) (s s' : Tx) (es es' : List TxEv) (a : TxAct) (h : Tx.Run batch Tx.init as s es)
    (hs : Tx.step batch s a = some (s', es')) (p : Nat) (r : SyncRes) (hr : TxEv.resolved p r ∈ es') :
    ∃ ms m, m ∈ ms ∧ m.p = some p ∧
      ((r = .success ∧ TxEv.sent ms ∈ es' ∧ TxMsg.bytes ms <:+ s.wire) ∨ (r = .notApplicable ∧ (TxEv.sendError ms ∈ es' ∨ TxEv.popped ms ∈ es'))) := by
  have hi := (Tx.run_inv Tx.init_inv h).1
  cases a with
  | handler i =>
    simp only [Tx.step] at hs
    cases hd : s.dones[i]? with
    | none => simp [hd] at hs
    | some d =>
      simp only [hd, Option.bind_eq_bind, Option.bind_some] at hs
      split at hs
      · cases hs
      · simp only [Option.some.injEq] at hs
        unfold Tx.handler at hs
        simp only at hs
        have hdb := hi.dbufs d (List.mem_of_getElem? hd)
        split at hs
        · rename_i hok
          cases hs
          simp only [List.mem_append, List.mem_singleton, reduceCtorEq, or_false] at hr
          obtain ⟨rfl, m, hm, hp⟩ := mem_setPromises hr
          refine ⟨s.sendingMsgs, m, hm, hp, Or.inl ⟨rfl, by simp, ?_⟩⟩
          obtain ⟨pre, hpre⟩ := hdb.2 hok
          rw [← hdb.1]
          exact ⟨pre, hpre.symm⟩
        · cases hs
          simp only [List.mem_append, List.mem_singleton, reduceCtorEq, or_false] at hr
          obtain ⟨rfl, m, hm, hp⟩ := mem_setPromises hr
          exact ⟨s.sendingMsgs, m, hm, hp, Or.inr ⟨rfl, Or.inl (by simp)⟩⟩
  | pop =>
    simp only [Tx.step] at hs
    split at hs
    · cases hs; simp at hr
    · rename_i q m hq
      cases hs
      simp only [List.mem_append, List.mem_singleton, reduceCtorEq, or_false] at hr
      obtain ⟨rfl, m', hm, hp⟩ := mem_setPromises hr
      exact ⟨[m], m', hm, hp, Or.inr ⟨rfl, Or.inr (by simp)⟩⟩
  | popAll =>
    simp only [Tx.step, Option.some.injEq, Prod.mk.injEq] at hs
    obtain ⟨rfl, rfl⟩ := hs
    simp only [List.mem_append, List.mem_singleton, reduceCtorEq, or_false] at hr
    obtain ⟨rfl, m', hm, hp⟩ := mem_setPromises hr
    exact ⟨_, m', hm, hp, Or.inr ⟨rfl, Or.inr (by simp)⟩⟩
  | onClose =>
    simp only [Tx.step] at hs
    split at hs
    · cases hs
    · rename_i hc
      have hna := noAsync_true (s := s) (by simpa using fun hf => hc (Or.inr hf))
      have hsm := hi.none hna.2.2.1 hna.2.2.2
      cases hs
      simp [Tx.onClose, hsm, setPromises] at hr
  | send m prior fits =>
    simp only [Tx.step, Option.some.injEq] at hs
    unfold Tx.send at hs
    split at hs
    · cases hs; simp at hr
    · cases fits <;> cases prior <;> simp [Q.enqueue, Q.enqueueFront] at hs <;> obtain ⟨rfl, rfl⟩ := hs <;> simp at hr
  | sendList ms prior =>
    simp only [Tx.step, Option.some.injEq] at hs
    unfold Tx.sendList at hs
    simp only at hs
    split at hs <;> (cases hs; simp at hr)
  | loadReady => simp only [Tx.step] at hs; split at hs <;> cases hs; simp at hr
  | loadFlag => simp only [Tx.step] at hs; split at hs <;> cases hs; simp at hr
  | runPosted => simp only [Tx.step] at hs; split at hs <;> cases hs; simp at hr
  | strand =>
    simp only [Tx.step, Tx.strand] at hs
    cases hpc : s.pc with
    | idle => rw [hpc] at hs; cases hs
    | test => rw [hpc] at hs; simp only at hs; split at hs <;> (cases hs; simp at hr)
    | move => rw [hpc] at hs; simp only at hs; split at hs <;> (cases hs; simp at hr)
    | clear => rw [hpc] at hs; simp only at hs; cases hs; simp at hr
    | check => rw [hpc] at hs; simp only at hs; cases hs; simp at hr
    | errClear => rw [hpc] at hs; simp only at hs; cases hs; simp at hr
  | transfer i k =>
    simp only [Tx.step] at hs
    cases hw : s.writes[i]? with
    | none => simp [hw] at hs
    | some w =>
      simp only [hw, Option.bind_eq_bind, Option.bind_some] at hs
      split at hs <;> cases hs
      simp at hr
  | complete i ok =>
    simp only [Tx.step] at hs
    cases hw : s.writes[i]? with
    | none => simp [hw] at hs
    | some w =>
      simp only [hw, Option.bind_eq_bind, Option.bind_some] at hs
      split at hs <;> cases hs
      simp at hr
  | shrink n =>
    simp only [Tx.step, Option.some.injEq, Prod.mk.injEq] at hs
    obtain ⟨rfl, rfl⟩ := hs
    simp at hr
  | linkUp => simp only [Tx.step] at hs; split at hs <;> cases hs; simp at hr
  | linkDown =>
    simp only [Tx.step, Option.some.injEq, Prod.mk.injEq] at hs
    obtain ⟨rfl, rfl⟩ := hs
    simp at hr
  | reset => simp only [Tx.step] at hs; split at hs <;> cases hs; simp at hr

/-- Non-vacuity of the two theorems above. -/
example : ∃ s es s' es', Tx.Run 0 Tx.init (txDemo.take 17) s es ∧ Tx.step 0 s (.handler 0) = some (s', es') ∧ TxEv.resolved 0 .success ∈ es' ∧ s.wire = [1, 2] := by
  have e : Tx.exec 0 Tx.init (txDemo.take 17) = some ({ Tx.init with ready := true, sending := true, sendingMsgs := [⟨[1, 2], some 0⟩], wire := [1, 2], dones := [{ bufs := [⟨[1, 2], some 0⟩], ok := true }], q := { items := [⟨[3], some 1⟩], total := 1 } },
      [.accept [⟨[1, 2], some 0⟩] false, .handOff [⟨[1, 2], some 0⟩], .accept [⟨[3], some 1⟩] false]) := by decide +kernel
  exact ⟨_, _, _, _, Tx.exec_run e, rfl, by simp [setPromises], rfl⟩

/-- C23 is false in full: a message of a synchronous send that a shrink discards, or that a reset clears, leaves the send buffer
and its promise is never set; the caller, who holds the promise too, waits for ever (without a timeout). -/
theorem C23_fails_discarded : ∃ as s es, Tx.Run 0 Tx.init as s es ∧ promiseIds (acceptedMsgs es) = [0, 1] ∧ resolvedIds es = [] ∧ s.q.items = [] ∧ s.sendingMsgs = [] := by
  have e : Tx.exec 0 Tx.init [.send ⟨[1], some 0⟩ false true, .loadReady, .shrink 1, .send ⟨[2], some 1⟩ false true, .loadReady, .reset] =
      some (Tx.init, [.accept [⟨[1], some 0⟩] false, .discarded [⟨[1], some 0⟩], .accept [⟨[2], some 1⟩] false, .cleared [⟨[2], some 1⟩]]) := by decide +kernel
  exact ⟨_, _, _, Tx.exec_run e, by decide, by decide, rfl, rfl⟩

/-- C23: messages still waiting when the link is closed are not resolved by on_close either (they may be sent after a reconnect). -/
theorem C23_fails_closed : ∃ as s es, Tx.Run 0 Tx.init as s es ∧ s.ready = false ∧ s.Quiet ∧ as.getLast? = some .onClose ∧ promiseIds s.q.items = [1] ∧ resolvedIds es = [0] := by
  have e : Tx.exec 0 Tx.init [.linkUp, .loadReady, .loadFlag, .send ⟨[1], some 0⟩ false true, .send ⟨[2], some 1⟩ false true, .runPosted, .strand, .strand, .loadReady, .loadReady, .loadFlag, .loadFlag,
      .linkDown, .complete 0 false, .handler 0, .strand, .onClose] =
      some ({ Tx.init with q := { items := [⟨[2], some 1⟩], total := 1 } },
        [.accept [⟨[1], some 0⟩] false, .accept [⟨[2], some 1⟩] false, .handOff [⟨[1], some 0⟩], .resolved 0 .notApplicable, .sendError [⟨[1], some 0⟩]]) := by decide +kernel
  exact ⟨_, _, _, Tx.exec_run e, rfl, by simp [Tx.Quiet, Tx.init], by decide, by decide, by decide⟩

/-- With ST_ASIO_DELAY_CLOSE > 0 on_close is called by a timer, whether or not the write has ended. Then the promise of a message being written
is set by on_close and once more by send_handler (boost::promise throws promise_already_satisfied). -/
theorem C23_fails_delayed_close : ∃ as s es i s' es', Tx.Run 0 Tx.init as s es ∧ s.ready = false ∧ TxEv.resolved 0 .notApplicable ∈ s.onClose ∧
    Tx.step 0 s (.handler i) = some (s', es') ∧ TxEv.resolved 0 .notApplicable ∈ es' := by
  have e : Tx.exec 0 Tx.init [.linkUp, .loadReady, .loadFlag, .send ⟨[1], some 0⟩ false true, .runPosted, .strand, .strand, .linkDown, .complete 0 false] =
      some ({ Tx.init with atReady := 1, sending := true, sendingMsgs := [⟨[1], some 0⟩], dones := [⟨[⟨[1], some 0⟩], false⟩], q := { items := [], total := 0 } },
        [.accept [⟨[1], some 0⟩] false, .handOff [⟨[1], some 0⟩]]) := by decide +kernel
  exact ⟨_, _, _, 0, _, _, Tx.exec_run e, rfl, by simp [Tx.onClose, setPromises], rfl, by simp [setPromises]⟩

/-- C52 is false in full: a packed message may be two queue items (head and body); a priority message accepted
after the head was handed to the kernel gets between them. -/
theorem C52_fails_priority : ∃ as s es, Tx.Run 0 Tx.init as s es ∧ acceptedMsgs es = [⟨[0, 4], none⟩, ⟨[65, 66], none⟩, ⟨[0, 3], none⟩, ⟨[67], none⟩] ∧
    s.wire = [0, 4] ++ [0, 3] ++ [67] ++ [65, 66] := by
  have e : Tx.exec 0 Tx.init [.linkUp, .sendList [⟨[0, 4], none⟩, ⟨[65, 66], none⟩] false, .loadReady, .loadReady, .loadFlag, .loadFlag, .runPosted, .strand, .strand, .runPosted, .strand,
      .sendList [⟨[0, 3], none⟩, ⟨[67], none⟩] true, .loadReady, .loadFlag, .transfer 0 2, .complete 0 true, .handler 0, .strand, .transfer 0 2, .complete 0 true, .handler 0, .strand,
      .transfer 0 1, .complete 0 true, .handler 0, .strand, .transfer 0 2] =
      some ({ Tx.init with ready := true, sending := true, sendingMsgs := [⟨[65, 66], none⟩], writes := [⟨[⟨[65, 66], none⟩], 2⟩], wire := [0, 4, 0, 3, 67, 65, 66], q := { items := [], total := 0 } },
        [.accept [⟨[0, 4], none⟩, ⟨[65, 66], none⟩] false, .handOff [⟨[0, 4], none⟩], .accept [⟨[0, 3], none⟩, ⟨[67], none⟩] true, .sent [⟨[0, 4], none⟩], .handOff [⟨[0, 3], none⟩],
         .sent [⟨[0, 3], none⟩], .handOff [⟨[67], none⟩], .sent [⟨[67], none⟩], .handOff [⟨[65, 66], none⟩]]) := by decide +kernel
  exact ⟨_, _, _, Tx.exec_run e, by decide, rfl⟩

/-- C52 is false in full: a shrink may discard the head of a message and leave its body. -/
theorem C52_fails_shrink : ∃ as s es, Tx.Run 0 Tx.init as s es ∧ acceptedMsgs es = [⟨[0, 4], none⟩, ⟨[65, 66], none⟩] ∧ s.wire = [65, 66] := by
  have e : Tx.exec 0 Tx.init [.sendList [⟨[0, 4], none⟩, ⟨[65, 66], none⟩] false, .loadReady, .shrink 1, .linkUp, .loadReady, .loadFlag, .runPosted, .strand, .strand, .transfer 0 2] =
      some ({ Tx.init with ready := true, sending := true, sendingMsgs := [⟨[65, 66], none⟩], writes := [⟨[⟨[65, 66], none⟩], 2⟩], wire := [65, 66], q := { items := [], total := 0 } },
        [.accept [⟨[0, 4], none⟩, ⟨[65, 66], none⟩] false, .discarded [⟨[0, 4], none⟩], .handOff [⟨[65, 66], none⟩]]) := by decide +kernel
  exact ⟨_, _, _, Tx.exec_run e, by decide, rfl⟩

/-- C52 (partial): without priority, pop, shrink and reset, on one link without failures, the peer's stream is a prefix of the accepted
messages, back to back: nothing gets between the pieces of a message. -/
theorem C52_contiguous_partial (batch : Nat) (as : List TxAct) (s0 s : Tx) (es1 es : List TxEv)
    (hu : Tx.step batch Tx.init .linkUp = some (s0, es1))
    (h : Tx.Run batch s0 as s es) (hf : ∀ a ∈ as, (∀ i, a ≠ .complete i false) ∧ a ≠ .linkUp) (hp : ∀ e ∈ es, PlainEv e) :
    s.wire <+: TxMsg.bytes (acceptedMsgs es) := by
  have hr := Tx.run_trans (Tx.run_one hu) h
  have hes1 : es1 = [] := by
    simp [Tx.step, Tx.init, Tx.noAsync] at hu
    exact hu.2
  subst hes1
  have h1 := C20_order batch _ s _ hr (by simpa using hp)
  have h2 := (C20_wire batch [] as Tx.init s0 s [] [] es (Tx.Run.nil _) hu h hf).1
  simp only [List.nil_append] at h1
  rw [← h1, TxMsg.bytes_append]
  exact h2.trans (List.prefix_append _ _)

/-- Non-vacuity of C20_wire and C52: a head and a body in separate batches, half written. -/
example : ∃ s0 s es, Tx.step 0 Tx.init .linkUp = some (s0, []) ∧
    Tx.Run 0 s0 [.sendList [⟨[0, 4], none⟩, ⟨[65, 66], none⟩] false, .loadReady, .loadReady, .loadFlag, .runPosted, .strand, .strand, .transfer 0 2, .complete 0 true, .handler 0, .strand, .transfer 0 1] s es ∧
    (∀ e ∈ es, PlainEv e) ∧ s.wire = [0, 4, 65] := by
  have e : Tx.exec 0 { Tx.init with ready := true, atReady := 1 }
      [.sendList [⟨[0, 4], none⟩, ⟨[65, 66], none⟩] false, .loadReady, .loadReady, .loadFlag, .runPosted, .strand, .strand, .transfer 0 2, .complete 0 true, .handler 0, .strand, .transfer 0 1] =
      some ({ Tx.init with ready := true, atFlag := 1, sending := true, sendingMsgs := [⟨[65, 66], none⟩], writes := [⟨[⟨[65, 66], none⟩], 1⟩], wire := [0, 4, 65], q := { items := [], total := 0 } },
        [.accept [⟨[0, 4], none⟩, ⟨[65, 66], none⟩] false, .handOff [⟨[0, 4], none⟩], .sent [⟨[0, 4], none⟩], .handOff [⟨[65, 66], none⟩]]) := by decide +kernel
  refine ⟨_, _, _, by simp [Tx.step, Tx.init, Tx.noAsync], Tx.exec_run e, ?_, rfl⟩
  intro x hx
  simp at hx
  rcases hx with hx | hx | hx | hx <;> subst hx <;> simp [PlainEv]

end StAsio
