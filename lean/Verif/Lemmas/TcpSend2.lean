import Verif.Lemmas.TcpSend
set_option autoImplicit false
namespace StAsio

theorem handedMsgs_append (a b : List TxEv) : handedMsgs (a ++ b) = handedMsgs a ++ handedMsgs b := by
  induction a with
  | nil => rfl
  | cons e a ih => cases e <;> simp [handedMsgs, ih]

theorem acceptedMsgs_append (a b : List TxEv) : acceptedMsgs (a ++ b) = acceptedMsgs a ++ acceptedMsgs b := by
  induction a with
  | nil => rfl
  | cons e a ih => cases e <;> simp [acceptedMsgs, ih]

theorem droppedMsgs_append (a b : List TxEv) : droppedMsgs (a ++ b) = droppedMsgs a ++ droppedMsgs b := by
  induction a with
  | nil => rfl
  | cons e a ih => cases e <;> simp [droppedMsgs, ih]

theorem resolvedIds_append (a b : List TxEv) : resolvedIds (a ++ b) = resolvedIds a ++ resolvedIds b := by
  induction a with
  | nil => rfl
  | cons e a ih => cases e <;> simp [resolvedIds, ih]

theorem promiseIds_append (a b : List TxMsg) : promiseIds (a ++ b) = promiseIds a ++ promiseIds b := by simp [promiseIds]

theorem resolvedIds_promises (ms : List TxMsg) (r : SyncRes) : resolvedIds (setPromises ms r) = promiseIds ms := by
  unfold setPromises promiseIds
  induction ms with
  | nil => rfl
  | cons m ms ih => cases hp : m.p <;> simp [hp, resolvedIds, ih]

theorem other_promises (ms : List TxMsg) (r : SyncRes) :
    handedMsgs (setPromises ms r) = [] ∧ acceptedMsgs (setPromises ms r) = [] ∧ droppedMsgs (setPromises ms r) = [] ∧ sentMsgs (setPromises ms r) = [] := by
  unfold setPromises
  induction ms with
  | nil => exact ⟨rfl, rfl, rfl, rfl⟩
  | cons m ms ih => cases hp : m.p <;> simp [hp, handedMsgs, acceptedMsgs, droppedMsgs, sentMsgs, ih]

theorem monitor_plain {t t' : IdealTx} {es : List TxEv} (h : t.monitor es = some t') (hp : ∀ e ∈ es, PlainEv e) :
    t.waiting ++ acceptedMsgs es = handedMsgs es ++ t'.waiting := by
  induction es generalizing t with
  | nil => simp [IdealTx.monitor] at h; subst h; simp [acceptedMsgs, handedMsgs]
  | cons e es ih =>
    simp only [IdealTx.monitor] at h
    cases he : t.event e with
    | none => rw [he] at h; cases h
    | some t1 =>
      rw [he] at h
      have ih := ih h (fun x hx => hp x (by simp [hx]))
      have hpe := hp e (by simp)
      cases e with
      | accept ms prior =>
        simp only [PlainEv] at hpe; subst hpe
        simp [IdealTx.event] at he; subst he
        simp only [acceptedMsgs, handedMsgs]
        rw [← ih]; simp
      | handOff ms =>
        simp only [IdealTx.event] at he
        split at he
        · rw [Option.map_eq_some_iff] at he
          obtain ⟨w, h1, rfl⟩ := he
          have := stripPrefix_some h1
          simp only [acceptedMsgs, handedMsgs]
          rw [this, List.append_assoc, List.append_assoc, ← ih]
        · cases he
      | sent ms =>
        simp only [IdealTx.event] at he
        split at he
        · cases he; exact ih
        · cases he
      | sendError ms =>
        simp only [IdealTx.event] at he
        split at he
        · cases he; exact ih
        · cases he
      | popped ms => exact absurd hpe (by simp [PlainEv])
      | discarded ms => exact absurd hpe (by simp [PlainEv])
      | cleared ms => exact absurd hpe (by simp [PlainEv])
      | resolved p r => simp [IdealTx.event] at he; subst he; exact ih

theorem monitor_flight {t t' : IdealTx} {es : List TxEv} (h : t.monitor es = some t') (hp : ∀ ms, TxEv.sendError ms ∉ es) :
    t.flight.getD [] ++ handedMsgs es = sentMsgs es ++ t'.flight.getD [] := by
  induction es generalizing t with
  | nil => simp [IdealTx.monitor] at h; subst h; simp [sentMsgs, handedMsgs]
  | cons e es ih =>
    simp only [IdealTx.monitor] at h
    cases he : t.event e with
    | none => rw [he] at h; cases h
    | some t1 =>
      rw [he] at h
      have ih := ih h (fun x hx => hp x (by simp [hx]))
      cases e with
      | accept ms prior => simp [IdealTx.event] at he; subst he; exact ih
      | handOff ms =>
        simp only [IdealTx.event] at he
        split at he
        · rename_i hc
          rw [Option.map_eq_some_iff] at he
          obtain ⟨w, h1, rfl⟩ := he
          simp only [handedMsgs, sentMsgs, hc.1]
          simpa using ih
        · cases he
      | sent ms =>
        simp only [IdealTx.event] at he
        split at he
        · rename_i hc
          cases he
          simp only [handedMsgs, sentMsgs, hc]
          simp at ih ⊢
          rw [ih]
        · cases he
      | sendError ms => exact absurd (by simp) (hp ms)
      | popped ms =>
        simp only [IdealTx.event] at he
        rw [Option.map_eq_some_iff] at he
        obtain ⟨w, h1, rfl⟩ := he
        exact ih
      | discarded ms =>
        simp only [IdealTx.event] at he
        rw [Option.map_eq_some_iff] at he
        obtain ⟨w, h1, rfl⟩ := he
        exact ih
      | cleared ms =>
        simp only [IdealTx.event] at he
        rw [Option.map_eq_some_iff] at he
        obtain ⟨w, h1, rfl⟩ := he
        exact ih
      | resolved p r => simp [IdealTx.event] at he; subst he; exact ih

/-! ### no lost wake-up -/

/-- Did a write fail since the link came up? -/
def failedSinceUp (as : List TxAct) : Bool :=
  as.foldl (fun b a => match a with
    | .complete _ false => true
    | .linkUp => false
    | _ => b) false

/-- Somebody will look into the send buffer (again). -/
def Tx.Wake (s : Tx) : Prop :=
  s.sending = true ∨ 0 < s.posted ∨ s.pc = .test ∨ s.pc = .check ∨ 0 < s.atReady ∨ 0 < s.atFlag

structure Tx.Live (failed : Bool) (s : Tx) : Prop where
  dones : failed = false → ∀ d ∈ s.dones, d.ok = true
  pc : failed = false → s.pc ≠ .errClear
  wake : failed = false → s.ready = true → s.q.items ≠ [] → s.Wake

theorem Tx.step_live {batch : Nat} {s s' : Tx} {a : TxAct} {es : List TxEv} {f : Bool} (h : s.Inv) (hl : Tx.Live f s) (hs : s.step batch a = some (s', es)) :
    Tx.Live (match a with
      | .complete _ false => true
      | .linkUp => false
      | _ => f) s' := by
  cases a with
  | send m prior fits =>
    simp only [Tx.step, Option.some.injEq] at hs
    unfold Tx.send at hs
    split at hs
    · cases hs; exact hl
    · simp only at hs
      cases fits <;> cases prior <;> simp [Q.enqueue, Q.enqueueFront] at hs <;> obtain ⟨rfl, rfl⟩ := hs
      · exact hl
      · exact hl
      · exact ⟨hl.dones, hl.pc, fun _ _ _ => by simp [Tx.Wake]⟩
      · exact ⟨hl.dones, hl.pc, fun _ _ _ => by simp [Tx.Wake]⟩
  | sendList ms prior =>
    simp only [Tx.step, Option.some.injEq] at hs
    unfold Tx.sendList at hs
    simp only at hs
    split at hs
    · cases hs; exact ⟨hl.dones, hl.pc, hl.wake⟩
    · cases hs; exact ⟨hl.dones, hl.pc, fun _ _ _ => by simp [Tx.Wake]⟩
  | loadReady =>
    simp only [Tx.step] at hs
    split at hs
    · cases hs
    · cases hs
      refine ⟨hl.dones, hl.pc, fun hf hr hq => ?_⟩
      simp only at hr
      simp [Tx.Wake, hr]
  | loadFlag =>
    simp only [Tx.step] at hs
    split at hs
    · cases hs
    · cases hs
      refine ⟨hl.dones, hl.pc, fun hf hr hq => ?_⟩
      cases hse : s.sending <;> simp [Tx.Wake]
  | runPosted =>
    simp only [Tx.step] at hs
    split at hs
    · cases hs
    · cases hs; exact ⟨hl.dones, by simp, fun _ _ _ => by simp [Tx.Wake]⟩
  | strand =>
    simp only [Tx.step, Tx.strand] at hs
    cases hpc : s.pc with
    | idle => rw [hpc] at hs; cases hs
    | test =>
      rw [hpc] at hs
      simp only at hs
      split at hs
      · rename_i hse; cases hs; exact ⟨hl.dones, by simp, fun _ _ _ => by simp [Tx.Wake, hse]⟩
      · cases hs; exact ⟨hl.dones, by simp, fun _ _ _ => by simp [Tx.Wake]⟩
    | move =>
      have hown := h.owner
      rw [hpc] at hs hown
      have hse : s.sending = true := by
        cases hse : s.sending
        · simp [hse, TxPc.owner] at hown
        · rfl
      simp only at hs
      split at hs
      · cases hs; exact ⟨hl.dones, by simp, fun _ _ _ => by simp [Tx.Wake, hse]⟩
      · cases hs; exact ⟨hl.dones, by simp, fun _ _ _ => by simp [Tx.Wake, hse]⟩
    | clear =>
      rw [hpc] at hs
      simp only at hs
      cases hs
      exact ⟨hl.dones, by simp, fun _ _ _ => by simp [Tx.Wake]⟩
    | check =>
      rw [hpc] at hs
      simp only at hs
      cases hs
      refine ⟨hl.dones, ?_, fun _ _ hq => ?_⟩
      · intro _; simp only; split <;> simp
      · simp only at hq; simp [Tx.Wake, hq]
    | errClear =>
      rw [hpc] at hs
      simp only at hs
      cases hs
      have hf : f = true := by
        cases f
        · exact absurd hpc (hl.pc rfl)
        · rfl
      subst hf
      exact ⟨by simp, by simp, by simp⟩
  | transfer i k =>
    simp only [Tx.step] at hs
    cases hw : s.writes[i]? with
    | none => simp [hw] at hs
    | some w =>
      simp only [hw, Option.bind_eq_bind, Option.bind_some] at hs
      split at hs
      · cases hs
      · cases hs; exact ⟨hl.dones, hl.pc, hl.wake⟩
  | complete i ok =>
    simp only [Tx.step] at hs
    cases hw : s.writes[i]? with
    | none => simp [hw] at hs
    | some w =>
      simp only [hw, Option.bind_eq_bind, Option.bind_some] at hs
      split at hs
      · cases hs
      · cases hs
        cases ok with
        | false => exact ⟨by simp, by simp, by simp⟩
        | true =>
          refine ⟨?_, hl.pc, hl.wake⟩
          intro hf d hd
          simp at hd
          rcases hd with hd | hd
          · exact hl.dones hf d hd
          · rw [hd]
  | handler i =>
    simp only [Tx.step] at hs
    cases hd : s.dones[i]? with
    | none => simp [hd] at hs
    | some d =>
      simp only [hd, Option.bind_eq_bind, Option.bind_some] at hs
      split at hs
      · cases hs
      · have hmem : d ∈ s.dones := List.mem_of_getElem? hd
        have hse : s.sending = true := by
          have hown := h.owner
          have : 0 < s.dones.length := List.length_pos_of_mem hmem
          cases hse : s.sending
          · simp [hse] at hown; simp [hown] at this
          · rfl
        simp only [Option.some.injEq] at hs
        unfold Tx.handler at hs
        simp only at hs
        split at hs
        · cases hs
          refine ⟨?_, by simp, fun _ _ _ => by simp [Tx.Wake, hse]⟩
          intro hf x hx
          exact hl.dones hf x (List.mem_of_mem_eraseIdx hx)
        · rename_i hok
          have hf : f = true := by
            cases f
            · exact absurd (hl.dones rfl d hmem) hok
            · rfl
          subst hf
          cases hs
          exact ⟨by simp, by simp, by simp⟩
  | pop =>
    simp only [Tx.step] at hs
    cases hi : s.q.items with
    | nil =>
      simp [Q.tryDequeue, hi] at hs
      obtain ⟨rfl, rfl⟩ := hs
      exact hl
    | cons m l =>
      simp [Q.tryDequeue, hi] at hs
      obtain ⟨rfl, rfl⟩ := hs
      exact ⟨hl.dones, hl.pc, fun hf hr _ => hl.wake hf hr (by simp [hi])⟩
  | popAll =>
    simp only [Tx.step, Option.some.injEq, Prod.mk.injEq] at hs
    obtain ⟨rfl, rfl⟩ := hs
    exact ⟨hl.dones, hl.pc, fun hf hr hq => by simp [Q.swap] at hq⟩
  | shrink n =>
    simp only [Tx.step, Option.some.injEq, Prod.mk.injEq] at hs
    obtain ⟨rfl, rfl⟩ := hs
    obtain ⟨p, m1, m2, m3⟩ := moveOutBytes_spec s.q h.exact [] n
    refine ⟨hl.dones, hl.pc, fun hf hr hq => hl.wake hf hr ?_⟩
    intro hc
    rw [hc] at m2
    simp at m2
    exact hq m2.2
  | linkUp =>
    simp only [Tx.step] at hs
    split at hs
    · cases hs
    · rename_i hc
      cases hs
      have := noAsync_true (s := s) (by simpa using fun hf => hc (Or.inr hf))
      refine ⟨?_, ?_, fun _ _ _ => by simp [Tx.Wake]⟩
      · intro _ d hd; simp [this.2.2.2] at hd
      · intro _; simp [this.2.1]
  | linkDown =>
    simp only [Tx.step, Option.some.injEq, Prod.mk.injEq] at hs
    obtain ⟨rfl, rfl⟩ := hs
    exact ⟨hl.dones, hl.pc, fun _ hr => by simp at hr⟩
  | onClose =>
    simp only [Tx.step] at hs
    split at hs
    · cases hs
    · cases hs; exact hl
  | reset =>
    simp only [Tx.step] at hs
    split at hs
    · cases hs
    · cases hs
      exact ⟨hl.dones, hl.pc, fun _ _ hq => by simp [Q.clear] at hq⟩

theorem Tx.run_live {batch : Nat} {s : Tx} {as : List TxAct} {es : List TxEv} (hr : Tx.Run batch Tx.init as s es) :
    Tx.Live (failedSinceUp as) s := by
  generalize hi : Tx.init = s0 at hr
  induction hr with
  | nil => subst hi; exact ⟨by simp [Tx.init], by simp [Tx.init], by simp [Tx.init]⟩
  | snoc s1 s2 as a es es' hr hs ih =>
    subst hi
    have hinv := (Tx.run_inv Tx.init_inv hr).1
    have := Tx.step_live hinv ih hs
    unfold failedSinceUp at *
    rw [List.foldl_append]
    cases a with
    | complete i ok => cases ok <;> exact this
    | _ => exact this

/-! ### the byte stream -/

/-- Bytes of the outstanding write the kernel has not taken yet. -/
def Tx.unwritten (s : Tx) : Bytes := (s.writes.map (fun w => (TxMsg.bytes w.bufs).drop w.done)).flatten

theorem TxMsg.bytes_append (a b : List TxMsg) : TxMsg.bytes (a ++ b) = TxMsg.bytes a ++ TxMsg.bytes b := by simp [TxMsg.bytes]

theorem Tx.step_wire {batch : Nat} {s s' : Tx} {a : TxAct} {es : List TxEv} (h : s.Inv)
    (hs : s.step batch a = some (s', es)) (ha : (∀ i, a ≠ .complete i false) ∧ a ≠ .linkUp) :
    s'.wire ++ s'.unwritten = s.wire ++ s.unwritten ++ TxMsg.bytes (handedMsgs es) := by
  have hown := h.owner
  have hle : s.writes.length + s.dones.length ≤ 1 := by
    have : (if s.sending then 1 else 0) ≤ 1 := by split <;> omega
    omega
  have hnil : TxMsg.bytes [] = [] := rfl
  have same : ∀ {s'' : Tx}, s''.wire = s.wire → s''.writes = s.writes → handedMsgs es = [] → s''.wire ++ s''.unwritten = s.wire ++ s.unwritten ++ TxMsg.bytes (handedMsgs es) := by
    intro s'' h1 h2 h3
    rw [h3, hnil, List.append_nil, h1]
    unfold Tx.unwritten
    rw [h2]
  cases a with
  | send m prior fits =>
    simp only [Tx.step, Option.some.injEq] at hs
    unfold Tx.send at hs
    split at hs
    · cases hs; exact same rfl rfl rfl
    · simp only at hs
      cases fits <;> cases prior <;> simp [Q.enqueue, Q.enqueueFront] at hs <;> obtain ⟨rfl, rfl⟩ := hs <;> exact same rfl rfl rfl
  | sendList ms prior =>
    simp only [Tx.step, Option.some.injEq] at hs
    unfold Tx.sendList at hs
    simp only at hs
    split at hs
    · cases hs; exact same rfl rfl rfl
    · cases hs; exact same rfl rfl rfl
  | loadReady =>
    simp only [Tx.step] at hs
    split at hs
    · cases hs
    · cases hs; exact same rfl rfl rfl
  | loadFlag =>
    simp only [Tx.step] at hs
    split at hs
    · cases hs
    · cases hs; exact same rfl rfl rfl
  | runPosted =>
    simp only [Tx.step] at hs
    split at hs
    · cases hs
    · cases hs; exact same rfl rfl rfl
  | strand =>
    simp only [Tx.step, Tx.strand] at hs
    cases hpc : s.pc with
    | idle => rw [hpc] at hs; cases hs
    | test =>
      rw [hpc] at hs
      simp only at hs
      split at hs <;> · cases hs; exact same rfl rfl rfl
    | move =>
      rw [hpc] at hs hown
      simp only at hs
      have hw : s.writes = [] ∧ s.dones = [] := by
        simp only [TxPc.owner] at hown
        have : (if s.sending then 1 else 0) ≤ 1 := by split <;> omega
        exact ⟨List.length_eq_zero_iff.mp (by omega), List.length_eq_zero_iff.mp (by omega)⟩
      split at hs
      · cases hs; exact same rfl rfl rfl
      · cases hs
        simp [Tx.unwritten, hw.1, handedMsgs]
    | clear => rw [hpc] at hs; simp only at hs; cases hs; exact same rfl rfl rfl
    | check => rw [hpc] at hs; simp only at hs; cases hs; exact same rfl rfl rfl
    | errClear => rw [hpc] at hs; simp only at hs; cases hs; exact same rfl rfl rfl
  | transfer i k =>
    simp only [Tx.step] at hs
    cases hw : s.writes[i]? with
    | none => simp [hw] at hs
    | some w =>
      simp only [hw, Option.bind_eq_bind, Option.bind_some] at hs
      split at hs
      · cases hs
      · rename_i hk
        cases hs
        obtain ⟨e1, e2⟩ := length_one_eq (by omega) hw
        subst e2
        simp only [Tx.unwritten, e1, handedMsgs]
        simp only [List.set_cons_zero, List.map_cons, List.map_nil, List.flatten_cons, List.flatten_nil, List.append_nil, hnil, List.append_assoc]
        rw [← List.drop_drop, List.take_append_drop]
  | complete i ok =>
    simp only [Tx.step] at hs
    cases hw : s.writes[i]? with
    | none => simp [hw] at hs
    | some w =>
      simp only [hw, Option.bind_eq_bind, Option.bind_some] at hs
      split at hs
      · cases hs
      · rename_i hk
        cases hs
        have hok : ok = true := by
          cases ok
          · exact absurd rfl (ha.1 i)
          · rfl
        obtain ⟨e1, e2⟩ := length_one_eq (by omega) hw
        subst e2
        have hd : w.done = (TxMsg.bytes w.bufs).length := by
          rcases Nat.lt_or_ge w.done (TxMsg.bytes w.bufs).length with hlt | hge
          · exact absurd ⟨hok, by omega⟩ hk
          · have := (h.wbufs w (by rw [e1]; simp)).2.1; omega
        simp [Tx.unwritten, e1, handedMsgs, hd, hnil]
  | handler i =>
    simp only [Tx.step] at hs
    cases hd : s.dones[i]? with
    | none => simp [hd] at hs
    | some d =>
      simp only [hd, Option.bind_eq_bind, Option.bind_some] at hs
      split at hs
      · cases hs
      · simp only [Option.some.injEq] at hs
        unfold Tx.handler at hs
        simp only at hs
        split at hs
        · cases hs; exact same rfl rfl (by rw [handedMsgs_append, (other_promises _ _).1]; rfl)
        · cases hs; exact same rfl rfl (by rw [handedMsgs_append, (other_promises _ _).1]; rfl)
  | pop =>
    simp only [Tx.step] at hs
    split at hs
    · cases hs; exact same rfl rfl rfl
    · cases hs; exact same rfl rfl (by rw [handedMsgs_append, (other_promises _ _).1]; rfl)
  | popAll =>
    simp only [Tx.step, Option.some.injEq, Prod.mk.injEq] at hs
    obtain ⟨rfl, rfl⟩ := hs
    exact same rfl rfl (by rw [handedMsgs_append, (other_promises _ _).1]; rfl)
  | shrink n =>
    simp only [Tx.step, Option.some.injEq, Prod.mk.injEq] at hs
    obtain ⟨rfl, rfl⟩ := hs
    exact same rfl rfl rfl
  | linkUp => exact absurd rfl ha.2
  | linkDown =>
    simp only [Tx.step, Option.some.injEq, Prod.mk.injEq] at hs
    obtain ⟨rfl, rfl⟩ := hs
    exact same rfl rfl rfl
  | onClose =>
    simp only [Tx.step] at hs
    split at hs
    · cases hs
    · cases hs; exact same rfl rfl (other_promises _ _).1
  | reset =>
    simp only [Tx.step] at hs
    split at hs
    · cases hs
    · cases hs; exact same rfl rfl rfl

theorem Tx.run_wire {batch : Nat} {s s' : Tx} {as : List TxAct} {es : List TxEv} (h : s.Inv) (hr : Tx.Run batch s as s' es)
    (ha : ∀ a ∈ as, (∀ i, a ≠ .complete i false) ∧ a ≠ .linkUp) :
    s'.wire ++ s'.unwritten = s.wire ++ s.unwritten ++ TxMsg.bytes (handedMsgs es) := by
  induction hr with
  | nil => simp [handedMsgs, TxMsg.bytes]
  | snoc s1 s2 as a es es' hr hs ih =>
    have hinv := (Tx.run_inv h hr).1
    rw [Tx.step_wire hinv hs (ha a (by simp)), ih (fun x hx => ha x (by simp [hx])), handedMsgs_append, TxMsg.bytes_append, List.append_assoc]

/-! ### promises -/

theorem Tx.step_promises {batch : Nat} {s s' : Tx} {a : TxAct} {es : List TxEv} (h : s.Inv)
    (hs : s.step batch a = some (s', es)) (x : Nat) :
    (resolvedIds es).count x + (promiseIds s'.sendingMsgs).count x + (promiseIds s'.q.items).count x + (promiseIds (droppedMsgs es)).count x =
    (promiseIds s.sendingMsgs).count x + (promiseIds s.q.items).count x + (promiseIds (acceptedMsgs es)).count x := by
  have hn : (promiseIds []).count x = 0 := rfl
  cases a with
  | send m prior fits =>
    simp only [Tx.step, Option.some.injEq] at hs
    unfold Tx.send at hs
    split at hs
    · cases hs; simp [resolvedIds, droppedMsgs, acceptedMsgs, hn]
    · cases fits with
      | false => cases prior <;> simp [Q.enqueue, Q.enqueueFront] at hs <;> obtain ⟨rfl, rfl⟩ := hs <;> simp [resolvedIds, droppedMsgs, acceptedMsgs, hn]
      | true =>
        cases prior with
        | false =>
          simp [Q.enqueue] at hs
          obtain ⟨rfl, rfl⟩ := hs
          simp only [resolvedIds, droppedMsgs, acceptedMsgs, promiseIds_append, List.count_append, hn, List.count_nil, List.append_nil]; omega
        | true =>
          simp [Q.enqueueFront] at hs
          obtain ⟨rfl, rfl⟩ := hs
          have : m :: s.q.items = [m] ++ s.q.items := rfl
          rw [this]
          simp only [resolvedIds, droppedMsgs, acceptedMsgs, promiseIds_append, List.count_append, hn, List.count_nil, List.append_nil]; omega
  | sendList ms prior =>
    simp only [Tx.step, Option.some.injEq] at hs
    unfold Tx.sendList at hs
    cases prior with
    | false =>
      simp only [Bool.false_eq_true, if_false] at hs
      cases hd : Q.declared TxMsg.sz ms (getSizeInByte TxMsg.sz ms) with
      | none => simp [Q.moveIn, hd] at hs; obtain ⟨rfl, rfl⟩ := hs; simp [resolvedIds, droppedMsgs, acceptedMsgs, hn]
      | some n =>
        simp [Q.moveIn, hd] at hs
        obtain ⟨rfl, rfl⟩ := hs
        simp only [resolvedIds, droppedMsgs, acceptedMsgs, promiseIds_append, List.count_append, hn, List.count_nil, List.append_nil]; omega
    | true =>
      simp only [if_true] at hs
      cases hd : Q.declared TxMsg.sz ms (getSizeInByte TxMsg.sz ms) with
      | none => simp [Q.moveInFront, hd] at hs; obtain ⟨rfl, rfl⟩ := hs; simp [resolvedIds, droppedMsgs, acceptedMsgs, hn]
      | some n =>
        simp [Q.moveInFront, hd] at hs
        obtain ⟨rfl, rfl⟩ := hs
        simp only [resolvedIds, droppedMsgs, acceptedMsgs, promiseIds_append, List.count_append, hn, List.count_nil, List.append_nil]; omega
  | loadReady =>
    simp only [Tx.step] at hs
    split at hs
    · cases hs
    · cases hs; simp [resolvedIds, droppedMsgs, acceptedMsgs, hn]
  | loadFlag =>
    simp only [Tx.step] at hs
    split at hs
    · cases hs
    · cases hs; simp [resolvedIds, droppedMsgs, acceptedMsgs, hn]
  | runPosted =>
    simp only [Tx.step] at hs
    split at hs
    · cases hs
    · cases hs; simp [resolvedIds, droppedMsgs, acceptedMsgs, hn]
  | strand =>
    simp only [Tx.step, Tx.strand] at hs
    cases hpc : s.pc with
    | idle => rw [hpc] at hs; cases hs
    | test =>
      rw [hpc] at hs
      simp only at hs
      split at hs <;> · cases hs; simp [resolvedIds, droppedMsgs, acceptedMsgs, hn]
    | move =>
      rw [hpc] at hs
      simp only at hs
      obtain ⟨p, m1, m2, m3⟩ := moveOutBytes_spec s.q h.exact s.sendingMsgs batch
      split at hs
      · cases hs
        simp only [resolvedIds, droppedMsgs, acceptedMsgs, m1, hn]
        rw [m2]
        simp only [promiseIds_append, List.count_append, List.count_nil]; omega
      · cases hs
        simp only [resolvedIds, droppedMsgs, acceptedMsgs, m1, hn]
        rw [m2]
        simp only [promiseIds_append, List.count_append, List.count_nil]; omega
    | clear => rw [hpc] at hs; simp only at hs; cases hs; simp [resolvedIds, droppedMsgs, acceptedMsgs, hn]
    | check => rw [hpc] at hs; simp only at hs; cases hs; simp [resolvedIds, droppedMsgs, acceptedMsgs, hn]
    | errClear => rw [hpc] at hs; simp only at hs; cases hs; simp [resolvedIds, droppedMsgs, acceptedMsgs, hn]
  | transfer i k =>
    simp only [Tx.step] at hs
    cases hw : s.writes[i]? with
    | none => simp [hw] at hs
    | some w =>
      simp only [hw, Option.bind_eq_bind, Option.bind_some] at hs
      split at hs
      · cases hs
      · cases hs; simp [resolvedIds, droppedMsgs, acceptedMsgs, hn]
  | complete i ok =>
    simp only [Tx.step] at hs
    cases hw : s.writes[i]? with
    | none => simp [hw] at hs
    | some w =>
      simp only [hw, Option.bind_eq_bind, Option.bind_some] at hs
      split at hs
      · cases hs
      · cases hs; simp [resolvedIds, droppedMsgs, acceptedMsgs, hn]
  | handler i =>
    simp only [Tx.step] at hs
    cases hd : s.dones[i]? with
    | none => simp [hd] at hs
    | some d =>
      simp only [hd, Option.bind_eq_bind, Option.bind_some] at hs
      split at hs
      · cases hs
      · simp only [Option.some.injEq] at hs
        unfold Tx.handler at hs
        simp only at hs
        split at hs <;>
        · cases hs
          simp only [resolvedIds_append, resolvedIds_promises, acceptedMsgs_append, droppedMsgs_append, (other_promises _ _).2.1, (other_promises _ _).2.2.1]
          simp only [resolvedIds, droppedMsgs, acceptedMsgs, hn, List.append_nil]
          omega
  | pop =>
    simp only [Tx.step] at hs
    cases hi : s.q.items with
    | nil =>
      simp [Q.tryDequeue, hi] at hs
      obtain ⟨rfl, rfl⟩ := hs
      simp [resolvedIds, droppedMsgs, acceptedMsgs, hn, hi]
    | cons m l =>
      simp [Q.tryDequeue, hi] at hs
      obtain ⟨rfl, rfl⟩ := hs
      have : m :: l = [m] ++ l := rfl
      rw [this]
      simp only [resolvedIds_append, resolvedIds_promises, acceptedMsgs_append, droppedMsgs_append, (other_promises _ _).2.1, (other_promises _ _).2.2.1]
      simp only [resolvedIds, droppedMsgs, acceptedMsgs, hn, List.append_nil, promiseIds_append, List.count_append]
      omega
  | popAll =>
    simp only [Tx.step, Option.some.injEq, Prod.mk.injEq] at hs
    obtain ⟨rfl, rfl⟩ := hs
    simp only [resolvedIds_append, resolvedIds_promises, acceptedMsgs_append, droppedMsgs_append, (other_promises _ _).2.1, (other_promises _ _).2.2.1, Q.swap]
    simp only [resolvedIds, droppedMsgs, acceptedMsgs, hn, List.append_nil]
    omega
  | shrink n =>
    simp only [Tx.step, Option.some.injEq, Prod.mk.injEq] at hs
    obtain ⟨rfl, rfl⟩ := hs
    obtain ⟨p, m1, m2, m3⟩ := moveOutBytes_spec s.q h.exact [] n
    simp only [resolvedIds, droppedMsgs, acceptedMsgs, m1, hn, List.nil_append, List.append_nil]
    rw [m2]
    simp only [promiseIds_append, List.count_append, List.count_nil]; omega
  | linkUp =>
    simp only [Tx.step] at hs
    split at hs
    · cases hs
    · cases hs; simp [resolvedIds, droppedMsgs, acceptedMsgs, hn]
  | linkDown =>
    simp only [Tx.step, Option.some.injEq, Prod.mk.injEq] at hs
    obtain ⟨rfl, rfl⟩ := hs
    simp [resolvedIds, droppedMsgs, acceptedMsgs, hn]
  | onClose =>
    simp only [Tx.step] at hs
    split at hs
    · cases hs
    · rename_i hc
      have hna := noAsync_true (s := s) (by simpa using fun hf => hc (Or.inr hf))
      have hsm := h.none hna.2.2.1 hna.2.2.2
      cases hs
      simp [Tx.onClose, hsm, setPromises, resolvedIds, droppedMsgs, acceptedMsgs, hn]
  | reset =>
    simp only [Tx.step] at hs
    split at hs
    · cases hs
    · rename_i hc
      have hna := noAsync_true (s := s) (by simpa using fun hf => hc (Or.inr (Or.inl hf)))
      have hsm := h.none hna.2.2.1 hna.2.2.2
      cases hs
      simp only [resolvedIds, droppedMsgs, acceptedMsgs, hn, List.append_nil, Q.clear, hsm, List.count_nil]
      omega

theorem Tx.run_promises {batch : Nat} {s : Tx} {as : List TxAct} {es : List TxEv} (hr : Tx.Run batch Tx.init as s es) (x : Nat) :
    (resolvedIds es).count x + (promiseIds s.sendingMsgs).count x + (promiseIds s.q.items).count x + (promiseIds (droppedMsgs es)).count x =
    (promiseIds (acceptedMsgs es)).count x := by
  generalize hi : Tx.init = s0 at hr
  induction hr with
  | nil => subst hi; rfl
  | snoc s1 s2 as a es es' hr hs ih =>
    subst hi
    have hinv := (Tx.run_inv Tx.init_inv hr).1
    have h1 := Tx.step_promises hinv hs x
    have h2 := ih
    simp only [resolvedIds_append, acceptedMsgs_append, droppedMsgs_append, promiseIds_append, List.count_append]
    omega

end StAsio
