import Verif.Spec.Notify
import Verif.Lemmas.TcpSend3
import Verif.Lemmas.Websocket
set_option autoImplicit false
namespace StAsio

theorem ntAccepted_append (a b : List NtEv) : ntAccepted (a ++ b) = ntAccepted a ++ ntAccepted b := by
  induction a with
  | nil => rfl
  | cons e a ih => cases e <;> simp [ntAccepted, ih]

theorem ntWritten_append (a b : List NtEv) : ntWritten (a ++ b) = ntWritten a ++ ntWritten b := by
  induction a with
  | nil => rfl
  | cons e a ih => cases e <;> simp [ntWritten, ih]

theorem ntNotified_append (a b : List NtEv) : ntNotified (a ++ b) = ntNotified a ++ ntNotified b := by
  induction a with
  | nil => rfl
  | cons e a ih => cases e <;> simp [ntNotified, ih]

theorem ntFailed_append (a b : List NtEv) : ntFailed (a ++ b) = ntFailed a ++ ntFailed b := by
  induction a with
  | nil => rfl
  | cons e a ih => cases e <;> simp [ntFailed, ih]

theorem ntRemoved_append (a b : List NtEv) : ntRemoved (a ++ b) = ntRemoved a ++ ntRemoved b := by
  induction a with
  | nil => rfl
  | cons e a ih => cases e <;> simp [ntRemoved, ih]

/-- The last one of the writes and the calls of on_all_msg_send is a write. -/
def ntOpen (b : Bool) : List NtEv → Bool
  | [] => b
  | .written _ :: es => ntOpen true es
  | .onAll _ :: es => ntOpen false es
  | _ :: es => ntOpen b es

theorem ntOpen_append (b : Bool) (x y : List NtEv) : ntOpen b (x ++ y) = ntOpen (ntOpen b x) y := by
  induction x generalizing b with
  | nil => rfl
  | cons e a ih => cases e <;> simp [ntOpen, ih]

theorem ntOpen_true_split {es : List NtEv} (h : ntOpen true es = false) : ∃ es1 m es2, es = es1 ++ .onAll m :: es2 ∧ ntWritten es2 = [] := by
  have key : ∀ (es : List NtEv) (b : Bool), ntOpen b es = false →
      (ntWritten es = [] ∧ b = false) ∨ ∃ es1 m es2, es = es1 ++ .onAll m :: es2 ∧ ntWritten es2 = [] := by
    intro es
    induction es with
    | nil => intro b h; exact .inl ⟨rfl, h⟩
    | cons e es ih =>
      intro b h
      have lift : ∀ b, ntOpen b es = false → (∀ ms, e ≠ .written ms) → (e = e) →
          ((ntWritten es = [] ∧ b = false) ∨ ∃ es1 m es2, e :: es = es1 ++ .onAll m :: es2 ∧ ntWritten es2 = []) := by
        intro b h _ _
        rcases ih b h with h | ⟨es1, m, es2, h1, h2⟩
        · exact .inl h
        · exact .inr ⟨e :: es1, m, es2, by rw [h1]; rfl, h2⟩
      cases e with
      | written ms =>
        rcases ih true h with h | ⟨es1, m, es2, h1, h2⟩
        · exact absurd h.2 (by decide)
        · exact .inr ⟨_ :: es1, m, es2, by rw [h1]; rfl, h2⟩
      | onAll m =>
        rcases ih false h with h | ⟨es1, m', es2, h1, h2⟩
        · exact .inr ⟨[], m, es, rfl, h.1⟩
        · exact .inr ⟨_ :: es1, m', es2, by rw [h1]; rfl, h2⟩
      | accepted ms p => exact lift b h (by simp) rfl
      | onSend ms l => exact lift b h (by simp) rfl
      | failed ms => exact lift b h (by simp) rfl
      | removed ms => exact lift b h (by simp) rfl
  rcases key es true h with h | h
  · exact absurd h.2 (by decide)
  · exact h

theorem ntOpen_false_split {es : List NtEv} (h : ntOpen false es = false) :
    ntWritten es = [] ∨ ∃ es1 m es2, es = es1 ++ .onAll m :: es2 ∧ ntWritten es2 = [] := by
  have h2 : ntOpen true (.onAll [] :: es) = false := h
  obtain ⟨es1, m, es2, h1, hw⟩ := ntOpen_true_split h2
  cases es1 with
  | nil => cases h1; exact .inl hw
  | cons e es1 => cases h1; exact .inr ⟨es1, m, es2, rfl, hw⟩

/-! events of Model/TcpSend -/

/-- Messages given to on_send_error. -/
def txFailed : List TxEv → List TxMsg
  | [] => []
  | .sendError ms :: es => ms ++ txFailed es
  | _ :: es => txFailed es

/-- Messages popped, discarded, cleared. -/
def txRemoved : List TxEv → List TxMsg
  | [] => []
  | .popped ms :: es => ms ++ txRemoved es
  | .discarded ms :: es => ms ++ txRemoved es
  | .cleared ms :: es => ms ++ txRemoved es
  | _ :: es => txRemoved es

theorem txFailed_append (a b : List TxEv) : txFailed (a ++ b) = txFailed a ++ txFailed b := by
  induction a with
  | nil => rfl
  | cons e a ih => cases e <;> simp [txFailed, ih]

theorem txRemoved_append (a b : List TxEv) : txRemoved (a ++ b) = txRemoved a ++ txRemoved b := by
  induction a with
  | nil => rfl
  | cons e a ih => cases e <;> simp [txRemoved, ih]

theorem ntTx_view (es : List TxEv) : ntAccepted (es.filterMap ntTxEv) = (acceptedMsgs es).map TxMsg.data ∧ ntWritten (es.filterMap ntTxEv) = [] ∧
    ntNotified (es.filterMap ntTxEv) = [] ∧ ntFailed (es.filterMap ntTxEv) = (txFailed es).map TxMsg.data ∧
    ntRemoved (es.filterMap ntTxEv) = (txRemoved es).map TxMsg.data ∧ (∀ b, ntOpen b (es.filterMap ntTxEv) = b) := by
  induction es with
  | nil => simp [ntAccepted, ntWritten, ntNotified, ntFailed, ntRemoved, ntOpen, acceptedMsgs, txFailed, txRemoved]
  | cons e es ih =>
    obtain ⟨h1, h2, h3, h4, h5, h6⟩ := ih
    cases e <;> simp [List.filterMap_cons, ntTxEv, ntAccepted, ntWritten, ntNotified, ntFailed, ntRemoved, ntOpen, acceptedMsgs, txFailed, txRemoved, h1, h2, h3, h4, h5, h6]

theorem ntTx_not (es : List TxEv) : (∀ m, NtEv.onAll m ∉ es.filterMap ntTxEv) ∧ (∀ m l, NtEv.onSend m l ∉ es.filterMap ntTxEv) := by
  constructor
  · intro m h
    obtain ⟨e, _, he⟩ := List.mem_filterMap.mp h
    cases e <;> simp [ntTxEv] at he
  · intro m l h
    obtain ⟨e, _, he⟩ := List.mem_filterMap.mp h
    cases e <;> simp [ntTxEv] at he

/-- The ideal sender loses nothing: what it was given is waiting, in flight, sent, failed or removed. -/
theorem monitor_account {t t' : IdealTx} {es : List TxEv} (h : t.monitor es = some t') (x : TxMsg) :
    t.waiting.count x + (t.flight.getD []).count x + (acceptedMsgs es).count x =
      (sentMsgs es).count x + (txFailed es).count x + (txRemoved es).count x + t'.waiting.count x + (t'.flight.getD []).count x := by
  induction es generalizing t with
  | nil => simp [IdealTx.monitor] at h; subst h; simp [acceptedMsgs, sentMsgs, txFailed, txRemoved]
  | cons e es ih =>
    simp only [IdealTx.monitor] at h
    cases he : t.event e with
    | none => rw [he] at h; cases h
    | some t1 =>
      rw [he] at h
      have ih := ih h
      have strip : ∀ ms, (stripPrefix ms t.waiting).map (fun w => { t with waiting := w }) = some t1 →
          t.waiting.count x = ms.count x + t1.waiting.count x ∧ t1.flight = t.flight := by
        intro ms hm
        cases hs : stripPrefix ms t.waiting with
        | none => rw [hs] at hm; cases hm
        | some w => rw [hs] at hm; cases hm; rw [stripPrefix_some hs]; simp
      cases e with
      | accept ms prior =>
        simp only [IdealTx.event, Option.some.injEq] at he
        subst he
        simp only [acceptedMsgs, sentMsgs, txFailed, txRemoved, List.count_append] at ih ⊢
        split at ih <;> simp only [List.count_append] at ih <;> omega
      | handOff ms =>
        simp only [IdealTx.event] at he
        split at he
        · next hc =>
          cases hs : stripPrefix ms t.waiting with
          | none => rw [hs] at he; cases he
          | some w =>
            rw [hs] at he; cases he
            rw [stripPrefix_some hs, hc.1]
            simp only [acceptedMsgs, sentMsgs, txFailed, txRemoved, List.count_append, Option.getD_none, Option.getD_some, List.count_nil] at ih ⊢
            omega
        · cases he
      | sent ms =>
        simp only [IdealTx.event] at he
        split at he
        · next hc =>
          cases he
          rw [hc]
          simp only [acceptedMsgs, sentMsgs, txFailed, txRemoved, List.count_append, Option.getD_none, Option.getD_some, List.count_nil] at ih ⊢
          omega
        · cases he
      | sendError ms =>
        simp only [IdealTx.event] at he
        split at he
        · next hc =>
          cases he
          rw [hc]
          simp only [acceptedMsgs, sentMsgs, txFailed, txRemoved, List.count_append, Option.getD_none, Option.getD_some, List.count_nil] at ih ⊢
          omega
        · cases he
      | popped ms =>
        obtain ⟨h1, h2⟩ := strip ms he
        rw [h2] at ih
        simp only [acceptedMsgs, sentMsgs, txFailed, txRemoved, List.count_append] at ih ⊢
        omega
      | discarded ms =>
        obtain ⟨h1, h2⟩ := strip ms he
        rw [h2] at ih
        simp only [acceptedMsgs, sentMsgs, txFailed, txRemoved, List.count_append] at ih ⊢
        omega
      | cleared ms =>
        obtain ⟨h1, h2⟩ := strip ms he
        rw [h2] at ih
        simp only [acceptedMsgs, sentMsgs, txFailed, txRemoved, List.count_append] at ih ⊢
        omega
      | resolved p r =>
        simp only [IdealTx.event, Option.some.injEq] at he
        subst he
        simpa only [acceptedMsgs, sentMsgs, txFailed, txRemoved] using ih

/-- If nothing is reported or removed, the messages stay with the sender. -/
theorem monitor_busy {t t' : IdealTx} {es : List TxEv} (h : t.monitor es = some t') (hs : sentMsgs es = []) (hf : txFailed es = []) (hr : txRemoved es = [])
    (hb : t.waiting ≠ [] ∨ t.flight.getD [] ≠ []) : t'.waiting ≠ [] ∨ t'.flight.getD [] ≠ [] := by
  obtain ⟨x, hx⟩ : ∃ x, 0 < t.waiting.count x + (t.flight.getD []).count x := by
    rcases hb with hb | hb
    · obtain ⟨x, hx⟩ := List.exists_mem_of_ne_nil _ hb
      exact ⟨x, by have := List.count_pos_iff.mpr hx; omega⟩
    · obtain ⟨x, hx⟩ := List.exists_mem_of_ne_nil _ hb
      exact ⟨x, by have := List.count_pos_iff.mpr hx; omega⟩
  have ha := monitor_account h x
  rw [hs, hf, hr] at ha
  simp only [List.count_nil] at ha
  rcases Classical.em (t'.waiting = []) with h1 | h1
  · rcases Classical.em (t'.flight.getD [] = []) with h2 | h2
    · rw [h1, h2] at ha; simp only [List.count_nil] at ha; omega
    · exact .inr h2
  · exact .inl h1

theorem setPromises_view (ms : List TxMsg) (r : SyncRes) : acceptedMsgs (setPromises ms r) = [] ∧ sentMsgs (setPromises ms r) = [] ∧ handedMsgs (setPromises ms r) = [] ∧
    txFailed (setPromises ms r) = [] ∧ txRemoved (setPromises ms r) = [] := by
  induction ms with
  | nil => simp [setPromises, acceptedMsgs, sentMsgs, handedMsgs, txFailed, txRemoved]
  | cons m ms ih =>
    unfold setPromises at *
    cases hp : m.p with
    | none => simpa [hp] using ih
    | some p => simpa [hp, acceptedMsgs, sentMsgs, handedMsgs, txFailed, txRemoved] using ih

theorem sentMsgs_append (a b : List TxEv) : sentMsgs (a ++ b) = sentMsgs a ++ sentMsgs b := by
  induction a with
  | nil => rfl
  | cons e a ih => cases e <;> simp [sentMsgs, ih]

/-- Actions of other threads, while send_handler runs. -/
theorem Tx.step_other {batch : Nat} {s s' : Tx} {a : TxAct} {es : List TxEv} (hs : s.step batch a = some (s', es)) (ha : a.inStrand = false)
    (hpc : s.pc = .idle) {i : Nat} {d : WrDone} (hd : s.dones[i]? = some d) :
    s'.pc = .idle ∧ s'.dones[i]? = some d ∧ s'.sendingMsgs = s.sendingMsgs ∧ handedMsgs es = [] := by
  have hna : s.noAsync = false := by
    unfold Tx.noAsync
    cases hd' : s.dones with
    | nil => rw [hd'] at hd; simp at hd
    | cons => simp
  have keep : ∀ ms r f, handedMsgs (setPromises ms r ++ [f]) = handedMsgs [f] := by
    intro ms r f; rw [handedMsgs_append, (setPromises_view ms r).2.2.1]; rfl
  cases a with
  | send m prior fits =>
    simp only [Tx.step, Option.some.injEq] at hs
    unfold Tx.send at hs
    split at hs
    · cases hs; exact ⟨hpc, hd, rfl, rfl⟩
    · simp only at hs
      split at hs <;> split at hs <;> cases hs <;> exact ⟨hpc, hd, rfl, rfl⟩
  | sendList ms prior =>
    simp only [Tx.step, Option.some.injEq] at hs
    unfold Tx.sendList at hs
    simp only at hs
    split at hs <;> cases hs <;> exact ⟨hpc, hd, rfl, rfl⟩
  | loadReady => simp only [Tx.step] at hs; split at hs <;> cases hs; exact ⟨hpc, hd, rfl, rfl⟩
  | loadFlag => simp only [Tx.step] at hs; split at hs <;> cases hs; exact ⟨hpc, hd, rfl, rfl⟩
  | runPosted => cases ha
  | strand => cases ha
  | handler i => cases ha
  | transfer j k =>
    simp only [Tx.step, Option.bind_eq_bind] at hs
    cases hw : s.writes[j]? with
    | none => rw [hw] at hs; cases hs
    | some w =>
      rw [hw] at hs; simp only [Option.bind_some] at hs
      split at hs <;> cases hs
      exact ⟨hpc, hd, rfl, rfl⟩
  | complete j ok =>
    simp only [Tx.step, Option.bind_eq_bind] at hs
    cases hw : s.writes[j]? with
    | none => rw [hw] at hs; cases hs
    | some w =>
      rw [hw] at hs; simp only [Option.bind_some] at hs
      split at hs <;> cases hs
      refine ⟨hpc, ?_, rfl, rfl⟩
      have hl : i < s.dones.length := by
        rcases Nat.lt_or_ge i s.dones.length with h | h
        · exact h
        · rw [List.getElem?_eq_none h] at hd; cases hd
      simp only [List.getElem?_append_left hl]; exact hd
  | pop =>
    simp only [Tx.step] at hs
    split at hs <;> cases hs
    · exact ⟨hpc, hd, rfl, rfl⟩
    · exact ⟨hpc, hd, rfl, keep _ _ _⟩
  | popAll => simp only [Tx.step, Option.some.injEq] at hs; cases hs; exact ⟨hpc, hd, rfl, keep _ _ _⟩
  | shrink n => simp only [Tx.step, Option.some.injEq] at hs; cases hs; exact ⟨hpc, hd, rfl, rfl⟩
  | linkUp => simp only [Tx.step, hna, or_true, if_true] at hs; cases hs
  | linkDown => simp only [Tx.step, Option.some.injEq] at hs; cases hs; exact ⟨hpc, hd, rfl, rfl⟩
  | onClose => simp only [Tx.step, hna, or_true, if_true] at hs; cases hs
  | reset => simp only [Tx.step, hna, true_or, or_true, if_true] at hs; cases hs

/-- Only send_handler reports. -/
theorem Tx.step_silent {batch : Nat} {s s' : Tx} {a : TxAct} {es : List TxEv} (hs : s.step batch a = some (s', es)) (ha : ∀ i, a ≠ .handler i) :
    sentMsgs es = [] ∧ txFailed es = [] := by
  have keep : ∀ ms r f, sentMsgs (setPromises ms r ++ [f]) = sentMsgs [f] ∧ txFailed (setPromises ms r ++ [f]) = txFailed [f] := by
    intro ms r f; rw [sentMsgs_append, txFailed_append, (setPromises_view ms r).2.1, (setPromises_view ms r).2.2.2.1]; exact ⟨rfl, rfl⟩
  cases a with
  | send m prior fits =>
    simp only [Tx.step, Option.some.injEq] at hs
    unfold Tx.send at hs
    split at hs
    · cases hs; exact ⟨rfl, rfl⟩
    · simp only at hs
      split at hs <;> split at hs <;> cases hs <;> exact ⟨rfl, rfl⟩
  | sendList ms prior =>
    simp only [Tx.step, Option.some.injEq] at hs
    unfold Tx.sendList at hs
    simp only at hs
    split at hs <;> cases hs <;> exact ⟨rfl, rfl⟩
  | loadReady => simp only [Tx.step] at hs; split at hs <;> cases hs; exact ⟨rfl, rfl⟩
  | loadFlag => simp only [Tx.step] at hs; split at hs <;> cases hs; exact ⟨rfl, rfl⟩
  | runPosted => simp only [Tx.step] at hs; split at hs <;> cases hs; exact ⟨rfl, rfl⟩
  | strand =>
    simp only [Tx.step] at hs
    unfold Tx.strand at hs
    split at hs
    · cases hs
    · split at hs <;> cases hs <;> exact ⟨rfl, rfl⟩
    · simp only at hs; split at hs <;> cases hs <;> exact ⟨rfl, rfl⟩
    · cases hs; exact ⟨rfl, rfl⟩
    · cases hs; exact ⟨rfl, rfl⟩
    · cases hs; exact ⟨rfl, rfl⟩
  | handler i => exact absurd rfl (ha i)
  | transfer j k =>
    simp only [Tx.step, Option.bind_eq_bind] at hs
    cases hw : s.writes[j]? with
    | none => rw [hw] at hs; cases hs
    | some w =>
      rw [hw] at hs; simp only [Option.bind_some] at hs
      split at hs <;> cases hs
      exact ⟨rfl, rfl⟩
  | complete j ok =>
    simp only [Tx.step, Option.bind_eq_bind] at hs
    cases hw : s.writes[j]? with
    | none => rw [hw] at hs; cases hs
    | some w =>
      rw [hw] at hs; simp only [Option.bind_some] at hs
      split at hs <;> cases hs
      exact ⟨rfl, rfl⟩
  | pop =>
    simp only [Tx.step] at hs
    split at hs <;> cases hs
    · exact ⟨rfl, rfl⟩
    · exact keep _ _ _
  | popAll => simp only [Tx.step, Option.some.injEq] at hs; cases hs; exact keep _ _ _
  | shrink n => simp only [Tx.step, Option.some.injEq] at hs; cases hs; exact ⟨rfl, rfl⟩
  | linkUp => simp only [Tx.step] at hs; split at hs <;> cases hs; exact ⟨rfl, rfl⟩
  | linkDown => simp only [Tx.step, Option.some.injEq] at hs; cases hs; exact ⟨rfl, rfl⟩
  | onClose =>
    simp only [Tx.step] at hs
    split at hs <;> cases hs
    unfold Tx.onClose
    exact ⟨(setPromises_view _ _).2.1, (setPromises_view _ _).2.2.2.1⟩
  | reset => simp only [Tx.step] at hs; split at hs <;> cases hs; exact ⟨rfl, rfl⟩

/-- Only send_handler reports errors. -/
theorem Tx.step_no_error {batch : Nat} {s s' : Tx} {a : TxAct} {es : List TxEv} (hs : s.step batch a = some (s', es)) (ha : ∀ i, a ≠ .handler i) :
    ∀ ms, TxEv.sendError ms ∉ es := by
  have prom : ∀ ms r x, TxEv.sendError x ∉ setPromises ms r := by
    intro ms r x hc
    unfold setPromises at hc
    obtain ⟨m, _, hm⟩ := List.mem_filterMap.mp hc
    cases hp : m.p <;> rw [hp] at hm <;> cases hm
  have keep : ∀ ms r f x, TxEv.sendError x ∉ [f] → TxEv.sendError x ∉ setPromises ms r ++ [f] := by
    intro ms r f x hx hc
    rcases List.mem_append.mp hc with hc | hc
    · exact prom _ _ _ hc
    · exact hx hc
  cases a with
  | send m prior fits =>
    simp only [Tx.step, Option.some.injEq] at hs
    unfold Tx.send at hs
    split at hs
    · cases hs; simp
    · simp only at hs
      split at hs <;> split at hs <;> cases hs <;> simp
  | sendList ms prior =>
    simp only [Tx.step, Option.some.injEq] at hs
    unfold Tx.sendList at hs
    simp only at hs
    split at hs <;> cases hs <;> simp
  | loadReady => simp only [Tx.step] at hs; split at hs <;> cases hs; simp
  | loadFlag => simp only [Tx.step] at hs; split at hs <;> cases hs; simp
  | runPosted => simp only [Tx.step] at hs; split at hs <;> cases hs; simp
  | strand =>
    simp only [Tx.step] at hs
    unfold Tx.strand at hs
    split at hs
    · cases hs
    · split at hs <;> cases hs <;> simp
    · simp only at hs; split at hs <;> cases hs <;> simp
    · cases hs; simp
    · cases hs; simp
    · cases hs; simp
  | handler i => exact absurd rfl (ha i)
  | transfer j k =>
    simp only [Tx.step, Option.bind_eq_bind] at hs
    cases hw : s.writes[j]? with
    | none => rw [hw] at hs; cases hs
    | some w =>
      rw [hw] at hs; simp only [Option.bind_some] at hs
      split at hs <;> cases hs
      simp
  | complete j ok =>
    simp only [Tx.step, Option.bind_eq_bind] at hs
    cases hw : s.writes[j]? with
    | none => rw [hw] at hs; cases hs
    | some w =>
      rw [hw] at hs; simp only [Option.bind_some] at hs
      split at hs <;> cases hs
      simp
  | pop =>
    simp only [Tx.step] at hs
    split at hs <;> cases hs
    · simp
    · exact fun x => keep _ _ _ x (by simp)
  | popAll => simp only [Tx.step, Option.some.injEq] at hs; cases hs; exact fun x => keep _ _ _ x (by simp)
  | shrink n => simp only [Tx.step, Option.some.injEq] at hs; cases hs; simp
  | linkUp => simp only [Tx.step] at hs; split at hs <;> cases hs; simp
  | linkDown => simp only [Tx.step, Option.some.injEq] at hs; cases hs; simp
  | onClose =>
    simp only [Tx.step] at hs
    split at hs <;> cases hs
    unfold Tx.onClose
    exact prom _ _
  | reset => simp only [Tx.step] at hs; split at hs <;> cases hs; simp

/-- What send_handler does after a successful write. -/
theorem Tx.handler_ok {batch : Nat} {s s' : Tx} {es : List TxEv} {i : Nat} {d : WrDone} (hd : s.dones[i]? = some d) (hok : d.ok = true)
    (hs : s.step batch (.handler i) = some (s', es)) :
    sentMsgs es = s.sendingMsgs ∧ txFailed es = [] ∧ txRemoved es = [] ∧ acceptedMsgs es = [] ∧ s'.sendingMsgs = [] ∧ s'.q = s.q := by
  simp only [Tx.step, Option.bind_eq_bind, hd, Option.bind_some] at hs
  split at hs
  · cases hs
  · unfold Tx.handler at hs
    rw [if_pos hok] at hs
    cases hs
    obtain ⟨h1, h2, h3, h4, h5⟩ := setPromises_view s.sendingMsgs .success
    refine ⟨?_, ?_, ?_, ?_, rfl, rfl⟩
    · rw [sentMsgs_append, h2]; simp [sentMsgs]
    · rw [txFailed_append, h4]; rfl
    · rw [txRemoved_append, h5]; rfl
    · rw [acceptedMsgs_append, h1]; rfl

/-- What it does after a failed one. -/
theorem Tx.handler_err {batch : Nat} {s s' : Tx} {es : List TxEv} {i : Nat} {d : WrDone} (hd : s.dones[i]? = some d) (hok : d.ok = false)
    (hs : s.step batch (.handler i) = some (s', es)) : sentMsgs es = [] ∧ txFailed es = s.sendingMsgs := by
  simp only [Tx.step, Option.bind_eq_bind, hd, Option.bind_some] at hs
  split at hs
  · cases hs
  · unfold Tx.handler at hs
    rw [if_neg (by simp [hok])] at hs
    cases hs
    obtain ⟨h1, h2, h3, h4, h5⟩ := setPromises_view s.sendingMsgs .notApplicable
    refine ⟨?_, ?_⟩
    · rw [sentMsgs_append, h2]; rfl
    · rw [txFailed_append, h4]; simp [txFailed]

/-- With a batch size of 0 there is one message per write. -/
theorem Tx.run_single {as : List TxAct} {s : Tx} {es : List TxEv} (h : Tx.Run 0 Tx.init as s es) : s.sendingMsgs.length ≤ 1 := by
  generalize h0 : Tx.init = s0 at h
  induction h with
  | nil => subst h0; simp [Tx.init]
  | snoc s1 s2 as a es fs hr hs ih =>
    subst h0
    have hi := (Tx.run_inv Tx.init_inv hr).1
    cases a with
    | strand =>
      simp only [Tx.step] at hs
      unfold Tx.strand at hs
      split at hs
      · cases hs
      · split at hs <;> cases hs <;> exact ih
      · next hpc =>
        have hown := hi.owner
        rw [hpc] at hown
        have hle : (if s1.sending = true then 1 else 0) ≤ 1 := by split <;> omega
        simp only [TxPc.owner] at hown
        have hw : s1.writes = [] := List.length_eq_zero_iff.mp (by omega)
        have hdn : s1.dones = [] := List.length_eq_zero_iff.mp (by omega)
        have hsm := hi.none hw hdn
        have h1 : (s1.q.moveOutBytes TxMsg.sz s1.sendingMsgs 0).2 = s1.sendingMsgs ++ s1.q.items.take 1 := (moveOut_one s1.q s1.sendingMsgs).1
        have hlen : (s1.q.moveOutBytes TxMsg.sz s1.sendingMsgs 0).2.length ≤ 1 := by
          rw [h1, hsm]; simp; omega
        simp only at hs
        split at hs <;> cases hs <;> exact hlen
      · cases hs; exact ih
      · cases hs; exact ih
      · cases hs; exact ih
    | handler i =>
      simp only [Tx.step, Option.bind_eq_bind] at hs
      cases hd : s1.dones[i]? with
      | none => rw [hd] at hs; cases hs
      | some d =>
        rw [hd] at hs; simp only [Option.bind_some] at hs
        split at hs
        · cases hs
        · unfold Tx.handler at hs
          split at hs <;> cases hs <;> simp
    | send m prior fits =>
      simp only [Tx.step, Option.some.injEq] at hs
      unfold Tx.send at hs
      split at hs
      · cases hs; exact ih
      · simp only at hs
        split at hs <;> split at hs <;> cases hs <;> exact ih
    | sendList ms prior =>
      simp only [Tx.step, Option.some.injEq] at hs
      unfold Tx.sendList at hs
      simp only at hs
      split at hs <;> cases hs <;> exact ih
    | loadReady => simp only [Tx.step] at hs; split at hs <;> cases hs; exact ih
    | loadFlag => simp only [Tx.step] at hs; split at hs <;> cases hs; exact ih
    | runPosted => simp only [Tx.step] at hs; split at hs <;> cases hs; exact ih
    | transfer j k =>
      simp only [Tx.step, Option.bind_eq_bind] at hs
      cases hw : s1.writes[j]? with
      | none => rw [hw] at hs; cases hs
      | some w =>
        rw [hw] at hs; simp only [Option.bind_some] at hs
        split at hs <;> cases hs
        exact ih
    | complete j ok =>
      simp only [Tx.step, Option.bind_eq_bind] at hs
      cases hw : s1.writes[j]? with
      | none => rw [hw] at hs; cases hs
      | some w =>
        rw [hw] at hs; simp only [Option.bind_some] at hs
        split at hs <;> cases hs
        exact ih
    | pop => simp only [Tx.step] at hs; split at hs <;> cases hs <;> exact ih
    | popAll => simp only [Tx.step, Option.some.injEq] at hs; cases hs; exact ih
    | shrink n => simp only [Tx.step, Option.some.injEq] at hs; cases hs; exact ih
    | linkUp => simp only [Tx.step] at hs; split at hs <;> cases hs; exact ih
    | linkDown => simp only [Tx.step, Option.some.injEq] at hs; cases hs; exact ih
    | onClose => simp only [Tx.step] at hs; split at hs <;> cases hs; exact ih
    | reset => simp only [Tx.step] at hs; split at hs <;> cases hs; simp

/-! the machine with the notifications -/

/-- The write whose send_handler runs. -/
def NtPh.idx : NtPh → Option Nat
  | .idle => none
  | .notified i _ => some i
  | .rest i => some i

/-- The messages already reported whose send_handler still runs. -/
def Nt.current (s : Nt) : List Bytes := if s.ph = .idle then [] else s.tx.sendingMsgs.map TxMsg.data

structure Nt.Sim (ws : Bool) (mode : NtMode) (as : List NtAct) (s : Nt) (es : List NtEv) (bs : List TxAct) (tes : List TxEv) : Prop where
  run : Tx.Run (mode.size ws) Tx.init bs s.tx tes
  accepted : ntAccepted es = (acceptedMsgs tes).map TxMsg.data
  written : ntWritten es = (sentMsgs tes).map TxMsg.data ++ s.current
  failed : ntFailed es = (txFailed tes).map TxMsg.data
  removed : ntRemoved es = (txRemoved tes).map TxMsg.data
  ph : ∀ i, s.ph.idx = some i → s.tx.pc = .idle ∧ ∃ d, s.tx.dones[i]? = some d ∧ d.ok = true
  left : ∀ i left, s.ph = .notified i left → mode ≠ .batch → left ≠ []
  same : (∀ ms l, NtEv.onSend ms l ∈ es → l = ms) → ∀ i left, s.ph = .notified i left → left = s.tx.sendingMsgs.map TxMsg.data
  bad : s.bad = false
  notified : mode ≠ .none → ntNotified es = ntWritten es
  prior : ∀ ms, TxEv.accept ms true ∈ tes → ∃ l, NtEv.accepted l true ∈ es
  acts : ∀ i, TxAct.complete i false ∈ bs → NtAct.tx (.complete i false) ∈ as
  isOpen : ntRemoved es = [] → ntFailed es = [] → ntOpen false es = true → match s.ph with
    | .notified _ _ => True
    | .rest _ => s.tx.q.items ≠ []
    | .idle => s.tx.q.items ≠ [] ∨ s.tx.sendingMsgs ≠ []

theorem Tx.flight_getD (s : Tx) : s.ideal.flight.getD [] = s.sendingMsgs := by
  unfold Tx.ideal
  by_cases h : s.sendingMsgs = [] <;> simp [h]

theorem NtPh.idx_none {p : NtPh} (h : p ≠ .idle) : ∃ i, p.idx = some i := by
  cases p <;> first | exact absurd rfl h | exact ⟨_, rfl⟩

theorem NtMode.calls_view (mode : NtMode) (ms left : List Bytes) :
    ntAccepted (mode.calls ms left) = [] ∧ ntWritten (mode.calls ms left) = [] ∧ ntFailed (mode.calls ms left) = [] ∧ ntRemoved (mode.calls ms left) = [] ∧
    (∀ b, ntOpen b (mode.calls ms left) = b) ∧ (∀ m, NtEv.onAll m ∉ mode.calls ms left) := by
  cases mode <;> simp [NtMode.calls, ntAccepted, ntWritten, ntFailed, ntRemoved, ntOpen]

theorem Nt.init_sim (ws : Bool) (mode : NtMode) : Nt.Sim ws mode [] Nt.init [] [] [] where
  run := Tx.Run.nil _
  accepted := rfl
  written := rfl
  failed := rfl
  removed := rfl
  ph := by intro i h; cases h
  left := by intro i l h; cases h
  same := by intro _ i l h; cases h
  bad := rfl
  notified := fun _ => rfl
  prior := by intro m h; cases h
  acts := by intro i h; cases h
  isOpen := by intro _ _ h; cases h

theorem append_nil_left {α : Type} {a b : List α} (h : a ++ b = []) : a = [] := (List.append_eq_nil_iff.mp h).1

theorem Nt.step_sim {ws : Bool} {mode : NtMode} {as : List NtAct} {s s' : Nt} {es fs : List NtEv} {bs : List TxAct} {tes : List TxEv} {a : NtAct}
    (h : Nt.Sim ws mode as s es bs tes) (hs : Nt.step ws mode s a = some (s', fs)) :
    ∃ bs' tes', Nt.Sim ws mode (as ++ [a]) s' (es ++ fs) bs' tes' := by
  have hi := (Tx.run_inv Tx.init_inv h.run).1
  cases a with
  | tx a =>
    simp only [Nt.step] at hs
    split at hs
    · cases hs
    · next hc1 =>
      split at hs
      · cases hs
      · next hc2 =>
        cases ht : s.tx.step (mode.size ws) a with
        | none => rw [ht] at hs; cases hs
        | some r =>
          obtain ⟨t, ues⟩ := r
          rw [ht] at hs
          simp only [Option.map_some, Option.some.injEq, Prod.mk.injEq] at hs
          obtain ⟨hs1, hs2⟩ := hs
          subst hs1; subst hs2
          obtain ⟨v1, v2, v3, v4, v5, v6⟩ := ntTx_view ues
          have hmon := (Tx.step_inv hi ht).2
          have hsilent : sentMsgs ues = [] := by
            by_cases hh : ∃ i, a = .handler i
            · obtain ⟨i, rfl⟩ := hh
              cases hd : s.tx.dones[i]? with
              | none => simp only [Tx.step, Option.bind_eq_bind, hd] at ht; cases ht
              | some d =>
                simp only [TxAct.succeeds, hd, Option.map_some, Option.getD_some] at hc2
                exact (Tx.handler_err hd (by simpa using hc2) ht).1
            · exact (Tx.step_silent ht (fun i hi => hh ⟨i, hi⟩)).1
          have hother : ∀ i, s.ph.idx = some i → ∃ d, s.tx.dones[i]? = some d ∧ d.ok = true ∧ t.pc = .idle ∧ t.dones[i]? = some d ∧ t.sendingMsgs = s.tx.sendingMsgs ∧ handedMsgs ues = [] := by
            intro i hph
            obtain ⟨h1, d, h2, h3⟩ := h.ph i hph
            have hin : a.inStrand = false := by
              cases hin : a.inStrand with
              | false => rfl
              | true => exact absurd ⟨hin, by intro hc; rw [hc] at hph; cases hph⟩ hc1
            obtain ⟨k1, k2, k3, k4⟩ := Tx.step_other ht hin h1 h2
            exact ⟨d, h2, h3, k1, k2, k3, k4⟩
          have hcur : (Nt.mk t s.ph s.bad).current = s.current := by
            unfold Nt.current
            by_cases hp : s.ph = .idle
            · simp [hp]
            · obtain ⟨i, hix⟩ := NtPh.idx_none hp
              obtain ⟨d, _, _, _, _, k, _⟩ := hother i hix
              simp only [if_neg hp, k]
          refine ⟨bs ++ [a], tes ++ ues, ?_⟩
          refine { run := Tx.Run.snoc _ _ _ _ _ _ _ h.run ht, accepted := ?_, written := ?_, failed := ?_, removed := ?_, ph := ?_, left := h.left, same := ?_, bad := h.bad,
                   notified := ?_, prior := ?_, acts := ?_, isOpen := ?_ }
          · rw [ntAccepted_append, v1, h.accepted, acceptedMsgs_append, List.map_append]
          · rw [ntWritten_append, v2, h.written, sentMsgs_append, hsilent, List.append_nil, List.append_nil, hcur]
          · rw [ntFailed_append, v4, h.failed, txFailed_append, List.map_append]
          · rw [ntRemoved_append, v5, h.removed, txRemoved_append, List.map_append]
          · intro i hix
            obtain ⟨d, _, k2, k3, k4, _⟩ := hother i hix
            exact ⟨k3, d, k4, k2⟩
          · intro hun i left hp
            have := h.same (fun ms l hm => hun ms l (List.mem_append_left _ hm)) i left hp
            have hp' : s.ph = .notified i left := hp
            obtain ⟨d, _, _, _, _, k, _⟩ := hother i (by rw [hp']; rfl)
            rw [this, k]
          · intro hm
            rw [ntNotified_append, ntWritten_append, v2, v3, h.notified hm]
          · intro m hm
            rcases List.mem_append.mp hm with hm | hm
            · obtain ⟨l, hl⟩ := h.prior m hm; exact ⟨l, List.mem_append_left _ hl⟩
            · exact ⟨_, List.mem_append_right _ (List.mem_filterMap.mpr ⟨_, hm, rfl⟩)⟩
          · intro i hm
            rcases List.mem_append.mp hm with hm | hm
            · exact List.mem_append_left _ (h.acts i hm)
            · simp only [List.mem_singleton] at hm
              rw [← hm]; simp
          · intro hrm hfl hop
            rw [ntRemoved_append] at hrm
            rw [ntFailed_append] at hfl
            rw [ntOpen_append, v6] at hop
            have hold := h.isOpen (append_nil_left hrm) (append_nil_left hfl) hop
            have hr0 : txRemoved ues = [] := by
              have := (List.append_eq_nil_iff.mp hrm).2; rw [v5] at this; simpa using this
            have hf0 : txFailed ues = [] := by
              have := (List.append_eq_nil_iff.mp hfl).2; rw [v4] at this; simpa using this
            cases hp : s.ph with
            | notified i l => trivial
            | rest i =>
              rw [hp] at hold
              simp only at hold ⊢
              obtain ⟨d, _, _, _, _, k, kh⟩ := hother i (by rw [hp]; rfl)
              intro hc
              obtain ⟨x, hx⟩ := List.exists_mem_of_ne_nil _ hold
              have hcnt := monitor_account hmon x
              rw [Tx.flight_getD, Tx.flight_getD] at hcnt
              have hx2 := List.count_pos_iff.mpr hx
              simp only [Tx.ideal, hc, hsilent, hf0, hr0, k, List.count_nil] at hcnt
              omega
            | idle =>
              rw [hp] at hold
              simp only at hold ⊢
              have := monitor_busy hmon hsilent hf0 hr0 (by rw [Tx.flight_getD]; exact hold)
              rw [Tx.flight_getD] at this
              exact this
  | begin i left =>
    simp only [Nt.step] at hs
    cases hd : s.tx.dones[i]? with
    | none => rw [hd] at hs; cases hs
    | some d =>
      rw [hd] at hs
      simp only at hs
      split at hs
      · cases hs
      · next hc =>
        simp only [not_or, Decidable.not_not, Bool.not_eq_false] at hc
        obtain ⟨c1, c2, c3, c4⟩ := hc
        cases hs
        have hne : s.tx.sendingMsgs ≠ [] := hi.some (.inr (by intro hc; rw [hc] at hd; simp at hd))
        obtain ⟨v1, v2, v3, v4, v5, v6⟩ := NtMode.calls_view mode (s.tx.sendingMsgs.map TxMsg.data) left
        have hcur : s.current = [] := by simp [Nt.current, c1]
        refine ⟨bs, tes, ?_⟩
        refine { run := h.run, accepted := ?_, written := ?_, failed := ?_, removed := ?_, ph := ?_, left := ?_, same := ?_, bad := h.bad,
                 notified := ?_, prior := ?_, acts := ?_, isOpen := ?_ }
        · rw [ntAccepted_append, h.accepted]; simp [ntAccepted, v1]
        · rw [ntWritten_append, h.written, hcur]; simp [ntWritten, v2, Nt.current]
        · rw [ntFailed_append, h.failed]; simp [ntFailed, v3]
        · rw [ntRemoved_append, h.removed]; simp [ntRemoved, v4]
        · intro j hj
          cases hj
          exact ⟨c2, d, hd, c3⟩
        · intro j l hj hm
          cases hj
          cases mode with
          | batch => exact absurd rfl hm
          | none => simp only [NtMode.mayLeave, beq_iff_eq] at c4; rw [c4]; simpa using hne
          | one =>
            simp only [NtMode.mayLeave, Bool.and_eq_true, beq_iff_eq] at c4
            intro hc
            have := c4.1
            rw [hc] at this
            simp only [List.length_nil, List.length_map] at this
            exact hne (List.length_eq_zero_iff.mp this.symm)
        · intro hun j l hj
          cases hj
          cases mode with
          | none => simpa only [NtMode.mayLeave, beq_iff_eq] using c4
          | batch => exact hun _ _ (List.mem_append_right _ (by simp [NtMode.calls]))
          | one =>
            simp only [NtMode.mayLeave, Bool.and_eq_true, beq_iff_eq] at c4
            have := hun ((s.tx.sendingMsgs.map TxMsg.data).take 1) (left.take 1) (List.mem_append_right _ (by simp [NtMode.calls]))
            rw [← List.take_append_drop 1 left, this, c4.2, List.take_append_drop]
        · intro hm
          rw [ntNotified_append, ntWritten_append, h.notified hm]
          congr 1
          simp only [ntNotified, ntWritten, v2, List.append_nil]
          cases mode with
          | none => exact absurd rfl hm
          | batch => simp [NtMode.calls, ntNotified]
          | one =>
            have hl := Tx.run_single (by have := h.run; simpa only [NtMode.size] using this)
            simp only [NtMode.calls, ntNotified, List.append_nil]
            exact List.take_of_length_le (by simpa using hl)
        · intro m hm; obtain ⟨l, hl⟩ := h.prior m hm; exact ⟨l, List.mem_append_left _ hl⟩
        · intro j hj; exact List.mem_append_left _ (h.acts j hj)
        · intro _ _ _; trivial
  | check =>
    simp only [Nt.step] at hs
    cases hp : s.ph with
    | idle => rw [hp] at hs; cases hs
    | rest i => rw [hp] at hs; cases hs
    | notified i left =>
      rw [hp] at hs
      simp only at hs
      have hphc := h.ph i (by rw [hp]; rfl)
      have hcur : ∀ s2 : Nt, s2.tx = s.tx → s2.ph = .rest i → s2.current = s.current := by
        intro s2 e1 e2
        simp [Nt.current, e1, e2, hp]
      split at hs
      · next hem =>
        split at hs
        · cases hs
          refine ⟨bs, tes, ?_⟩
          refine { run := h.run, accepted := ?_, written := ?_, failed := ?_, removed := ?_, ph := ?_, left := ?_, same := ?_, bad := h.bad,
                   notified := ?_, prior := ?_, acts := ?_, isOpen := ?_ }
          · rw [ntAccepted_append, h.accepted]; simp [ntAccepted]
          · rw [ntWritten_append, h.written, hcur ({ s with ph := .rest i }) rfl rfl]; simp [ntWritten]
          · rw [ntFailed_append, h.failed]; simp [ntFailed]
          · rw [ntRemoved_append, h.removed]; simp [ntRemoved]
          · intro j hj; cases hj; exact hphc
          · intro j l hj; cases hj
          · intro _ j l hj; cases hj
          · intro hm; rw [ntNotified_append, ntWritten_append, h.notified hm]; simp [ntNotified, ntWritten]
          · intro m hm; obtain ⟨l, hl⟩ := h.prior m hm; exact ⟨l, List.mem_append_left _ hl⟩
          · intro j hj; exact List.mem_append_left _ (h.acts j hj)
          · intro _ _ hop; rw [ntOpen_append] at hop; cases hop
        · cases hs
          refine ⟨bs, tes, ?_⟩
          refine { run := h.run, accepted := ?_, written := ?_, failed := ?_, removed := ?_, ph := ?_, left := ?_, same := ?_, bad := h.bad,
                   notified := ?_, prior := ?_, acts := ?_, isOpen := ?_ }
          · rw [ntAccepted_append, h.accepted]; simp [ntAccepted]
          · rw [ntWritten_append, h.written, hcur ({ s with ph := .rest i }) rfl rfl]; simp [ntWritten]
          · rw [ntFailed_append, h.failed]; simp [ntFailed]
          · rw [ntRemoved_append, h.removed]; simp [ntRemoved]
          · intro j hj; cases hj; exact hphc
          · intro j l hj; cases hj
          · intro _ j l hj; cases hj
          · intro hm; rw [ntNotified_append, ntWritten_append, h.notified hm]; simp [ntNotified, ntWritten]
          · intro m hm; obtain ⟨l, hl⟩ := h.prior m hm; exact ⟨l, List.mem_append_left _ hl⟩
          · intro j hj; exact List.mem_append_left _ (h.acts j hj)
          · intro _ _ hop; rw [ntOpen_append] at hop; cases hop
        · next hl hm =>
          exact absurd (List.getLast?_eq_none_iff.mp hl) (h.left i left hp (by intro hc; exact hm hc))
      · next hem =>
        cases hs
        refine ⟨bs, tes, ?_⟩
        refine { run := h.run, accepted := ?_, written := ?_, failed := ?_, removed := ?_, ph := ?_, left := ?_, same := ?_, bad := h.bad,
                 notified := ?_, prior := ?_, acts := ?_, isOpen := ?_ }
        · rw [List.append_nil, h.accepted]
        · rw [List.append_nil, h.written, hcur ({ s with ph := .rest i }) rfl rfl]
        · rw [List.append_nil, h.failed]
        · rw [List.append_nil, h.removed]
        · intro j hj; cases hj; exact hphc
        · intro j l hj; cases hj
        · intro _ j l hj; cases hj
        · intro hm; rw [List.append_nil, h.notified hm]
        · intro m hm; obtain ⟨l, hl⟩ := h.prior m hm; exact ⟨l, List.mem_append_left _ hl⟩
        · intro j hj; exact List.mem_append_left _ (h.acts j hj)
        · intro _ _ _ hc; exact hem (by simpa using hc)
  | finish =>
    simp only [Nt.step] at hs
    cases hp : s.ph with
    | idle => rw [hp] at hs; cases hs
    | notified i l => rw [hp] at hs; cases hs
    | rest i =>
      rw [hp] at hs
      simp only at hs
      obtain ⟨hpc, d, hd, hok⟩ := h.ph i (by rw [hp]; rfl)
      cases ht : s.tx.step (mode.size ws) (.handler i) with
      | none => rw [ht] at hs; cases hs
      | some r =>
        obtain ⟨t, ues⟩ := r
        rw [ht] at hs
        simp only [Option.map_some, Option.some.injEq, Prod.mk.injEq] at hs
        obtain ⟨hs1, hs2⟩ := hs
        subst hs1; subst hs2
        obtain ⟨v1, v2, v3, v4, v5, v6⟩ := ntTx_view ues
        obtain ⟨k1, k2, k3, k4, k5, k6⟩ := Tx.handler_ok hd hok ht
        refine ⟨bs ++ [.handler i], tes ++ ues, ?_⟩
        refine { run := Tx.Run.snoc _ _ _ _ _ _ _ h.run ht, accepted := ?_, written := ?_, failed := ?_, removed := ?_, ph := ?_, left := ?_, same := ?_, bad := h.bad,
                 notified := ?_, prior := ?_, acts := ?_, isOpen := ?_ }
        · rw [ntAccepted_append, v1, h.accepted, acceptedMsgs_append, List.map_append]
        · rw [ntWritten_append, v2, h.written, sentMsgs_append, k1]
          simp [Nt.current, hp]
        · rw [ntFailed_append, v4, h.failed, txFailed_append, List.map_append]
        · rw [ntRemoved_append, v5, h.removed, txRemoved_append, List.map_append]
        · intro j hj; cases hj
        · intro j l hj; cases hj
        · intro _ j l hj; cases hj
        · intro hm; rw [ntNotified_append, ntWritten_append, v2, v3, h.notified hm]
        · intro m hm
          rcases List.mem_append.mp hm with hm | hm
          · obtain ⟨l, hl⟩ := h.prior m hm; exact ⟨l, List.mem_append_left _ hl⟩
          · exact ⟨_, List.mem_append_right _ (List.mem_filterMap.mpr ⟨_, hm, rfl⟩)⟩
        · intro j hj
          rcases List.mem_append.mp hj with hj | hj
          · exact List.mem_append_left _ (h.acts j hj)
          · simp at hj
        · intro hrm hfl hop
          rw [ntRemoved_append] at hrm
          rw [ntFailed_append] at hfl
          rw [ntOpen_append, v6] at hop
          have hold := h.isOpen (append_nil_left hrm) (append_nil_left hfl) hop
          rw [hp] at hold
          simp only at hold ⊢
          left
          rw [k6]; exact hold

theorem Nt.run_sim {ws : Bool} {mode : NtMode} {as : List NtAct} {s : Nt} {es : List NtEv} (h : Nt.Run ws mode Nt.init as s es) :
    ∃ bs tes, Nt.Sim ws mode as s es bs tes := by
  generalize h0 : Nt.init = s0 at h
  induction h with
  | nil => subst h0; exact ⟨[], [], Nt.init_sim ws mode⟩
  | snoc s1 s2 as a es fs hr hs ih =>
    subst h0
    obtain ⟨bs, tes, hsim⟩ := ih
    exact Nt.step_sim hsim hs

/-- Order. -/
theorem monitor_order {t t' : IdealTx} {es : List TxEv} (h : t.monitor es = some t') (hp : ∀ ms, TxEv.accept ms true ∉ es) (hf : txFailed es = []) (hr : txRemoved es = [])
    (hne : ∀ ms, TxEv.sendError ms ∈ es → ms ≠ []) :
    t.flight.getD [] ++ t.waiting ++ acceptedMsgs es = sentMsgs es ++ (t'.flight.getD [] ++ t'.waiting) := by
  induction es generalizing t with
  | nil => simp [IdealTx.monitor] at h; subst h; simp [acceptedMsgs, sentMsgs]
  | cons e es ih =>
    simp only [IdealTx.monitor] at h
    cases he : t.event e with
    | none => rw [he] at h; cases h
    | some t1 =>
      rw [he] at h
      have hp' : ∀ m, TxEv.accept m true ∉ es := fun m hm => hp m (List.mem_cons_of_mem _ hm)
      have hne' : ∀ ms, TxEv.sendError ms ∈ es → ms ≠ [] := fun m hm => hne m (List.mem_cons_of_mem _ hm)
      have strip : ∀ ms, ms = [] → (stripPrefix ms t.waiting).map (fun w => { t with waiting := w }) = some t1 → t1 = t := by
        intro ms hms hm; subst hms; simp only [stripPrefix, Option.map_some, Option.some.injEq] at hm; rw [← hm]
      cases e with
      | accept m prior =>
        have ih := ih h hp' hf hr hne'
        simp only [IdealTx.event, Option.some.injEq] at he
        subst he
        have : prior = false := by
          cases prior with
          | false => rfl
          | true => exact absurd List.mem_cons_self (hp m)
        subst this
        simp only [acceptedMsgs, sentMsgs, Bool.false_eq_true, if_false] at ih ⊢
        rw [← ih]; simp
      | handOff m =>
        have ih := ih h hp' hf hr hne'
        simp only [IdealTx.event] at he
        split at he
        · next hc =>
          cases hs : stripPrefix m t.waiting with
          | none => rw [hs] at he; cases he
          | some w =>
            rw [hs] at he; cases he
            rw [stripPrefix_some hs, hc.1]
            simp only [acceptedMsgs, sentMsgs] at ih ⊢
            rw [← ih]; simp
        · cases he
      | sent m =>
        have ih := ih h hp' hf hr hne'
        simp only [IdealTx.event] at he
        split at he
        · next hc =>
          cases he
          rw [hc]
          simp only [acceptedMsgs, sentMsgs] at ih ⊢
          rw [List.append_assoc m, ← ih]; simp
        · cases he
      | sendError m => exact absurd (append_nil_left hf) (hne m List.mem_cons_self)
      | popped ms =>
        have hr' := List.append_eq_nil_iff.mp hr
        rw [strip ms hr'.1 he] at h
        exact ih h hp' hf hr'.2 hne'
      | discarded ms =>
        have hr' := List.append_eq_nil_iff.mp hr
        rw [strip ms hr'.1 he] at h
        exact ih h hp' hf hr'.2 hne'
      | cleared ms =>
        have hr' := List.append_eq_nil_iff.mp hr
        rw [strip ms hr'.1 he] at h
        exact ih h hp' hf hr'.2 hne'
      | resolved p r =>
        simp only [IdealTx.event, Option.some.injEq] at he
        subst he
        exact ih h hp' hf hr hne'

theorem failedSinceUp_none {as : List TxAct} (hn : ∀ i, TxAct.complete i false ∉ as) : failedSinceUp as = false := by
  unfold failedSinceUp
  induction as with
  | nil => rfl
  | cons a as ih =>
    have ih := ih (fun i hm => hn i (List.mem_cons_of_mem _ hm))
    cases a with
    | complete i ok =>
      cases ok with
      | true => simpa only [List.foldl_cons] using ih
      | false => exact absurd List.mem_cons_self (hn i)
    | _ => simpa only [List.foldl_cons] using ih

/-- Without failing writes nothing fails. -/
theorem Tx.run_nofail {batch : Nat} {as : List TxAct} {s : Tx} {es : List TxEv} (h : Tx.Run batch Tx.init as s es) (hn : ∀ i, TxAct.complete i false ∉ as) :
    txFailed es = [] := by
  generalize h0 : Tx.init = s0 at h
  induction h with
  | nil => rfl
  | snoc s1 s2 as a es fs hr hs ih =>
    subst h0
    have hn' : ∀ i, TxAct.complete i false ∉ as := fun i hm => hn i (List.mem_append_left _ hm)
    rw [txFailed_append, ih hn', List.nil_append]
    by_cases hh : ∃ i, a = .handler i
    · obtain ⟨i, rfl⟩ := hh
      cases hd : s1.dones[i]? with
      | none => simp only [Tx.step, Option.bind_eq_bind, hd] at hs; cases hs
      | some d => exact (Tx.handler_ok hd ((Tx.run_live hr).dones (failedSinceUp_none hn') d (List.mem_of_getElem? hd)) hs).2.1
    · exact (Tx.step_silent hs (fun i hi => hh ⟨i, hi⟩)).2

/-- Errors are reported with messages. -/
theorem Tx.run_error_some {batch : Nat} {as : List TxAct} {s : Tx} {es : List TxEv} (h : Tx.Run batch Tx.init as s es) :
    ∀ ms, TxEv.sendError ms ∈ es → ms ≠ [] := by
  generalize h0 : Tx.init = s0 at h
  induction h with
  | nil => intro ms h; cases h
  | snoc s1 s2 as a es fs hr hs ih =>
    subst h0
    intro ms hm
    rcases List.mem_append.mp hm with hm | hm
    · exact ih ms hm
    · have hi := (Tx.run_inv Tx.init_inv hr).1
      by_cases hh : ∃ i, a = .handler i
      · obtain ⟨i, rfl⟩ := hh
        cases hd : s1.dones[i]? with
        | none => simp only [Tx.step, Option.bind_eq_bind, hd] at hs; cases hs
        | some d =>
          have hne : s1.sendingMsgs ≠ [] := hi.some (.inr (by intro hc; rw [hc] at hd; simp at hd))
          simp only [Tx.step, Option.bind_eq_bind, hd, Option.bind_some] at hs
          split at hs
          · cases hs
          · unfold Tx.handler at hs
            have hnp : ∀ r, TxEv.sendError ms ∉ setPromises s1.sendingMsgs r := by
              intro r hc
              unfold setPromises at hc
              obtain ⟨m, _, hm⟩ := List.mem_filterMap.mp hc
              cases hp : m.p <;> rw [hp] at hm <;> cases hm
            split at hs <;> cases hs
            · rcases List.mem_append.mp hm with hm | hm
              · exact absurd hm (hnp _)
              · simp at hm
            · rcases List.mem_append.mp hm with hm | hm
              · exact absurd hm (hnp _)
              · simp only [List.mem_singleton, TxEv.sendError.injEq] at hm; rw [hm]; exact hne
      · have := (Tx.step_silent hs (fun i hi => hh ⟨i, hi⟩)).2
        intro hc
        subst hc
        exact Tx.step_no_error hs (fun i hi => hh ⟨i, hi⟩) _ hm

theorem ntSplit_append {es fs es1 es2 : List NtEv} {e : NtEv} (h : es ++ fs = es1 ++ e :: es2) :
    (∃ r, es = es1 ++ e :: r) ∨ ∃ fs1, es1 = es ++ fs1 ∧ fs = fs1 ++ e :: es2 := by
  rcases List.append_eq_append_iff.mp h with ⟨a, h1, h2⟩ | ⟨a, h1, h2⟩
  · exact .inr ⟨a, h1, h2⟩
  · cases a with
    | nil => exact .inr ⟨[], by simpa using h1.symm, by simpa using h2.symm⟩
    | cons x a =>
      simp only [List.cons_append, List.cons.injEq] at h2
      exact .inl ⟨a, by rw [h1, h2.1]⟩

end StAsio
