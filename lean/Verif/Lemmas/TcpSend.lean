import Verif.Spec.SendOrder
import Verif.Lemmas.Queue
set_option autoImplicit false
namespace StAsio

theorem stripPrefix_append (p r : List TxMsg) : stripPrefix p (p ++ r) = some r := by
  induction p with
  | nil => rfl
  | cons a p ih => simp [stripPrefix, ih]

theorem stripPrefix_some {p l r : List TxMsg} (h : stripPrefix p l = some r) : l = p ++ r := by
  induction p generalizing l with
  | nil => simpa [stripPrefix] using h
  | cons a p ih =>
    cases l with
    | nil => simp [stripPrefix] at h
    | cons b l =>
      simp only [stripPrefix] at h
      split at h
      · rename_i hab; rw [hab, ih h]; rfl
      · cases h

theorem monitor_append (t : IdealTx) (es es' : List TxEv) :
    t.monitor (es ++ es') = (t.monitor es).bind (fun t => t.monitor es') := by
  induction es generalizing t with
  | nil => rfl
  | cons e es ih =>
    simp only [List.cons_append, IdealTx.monitor]
    cases t.event e with
    | none => rfl
    | some t' => exact ih t'

theorem monitor_promises (t : IdealTx) (ms : List TxMsg) (r : SyncRes) (es : List TxEv) :
    t.monitor (setPromises ms r ++ es) = t.monitor es := by
  induction ms with
  | nil => rfl
  | cons m ms ih =>
    unfold setPromises at *
    cases hp : m.p with
    | none => simp [hp, ih]
    | some p => simp [hp, IdealTx.monitor, IdealTx.event, ih]

def TxPc.owner : TxPc → Nat
  | .move => 1
  | .clear => 1
  | .errClear => 1
  | _ => 0

structure Tx.Inv (s : Tx) : Prop where
  bad : s.bad = false
  exact : s.q.Exact TxMsg.sz
  owner : s.writes.length + s.dones.length + s.pc.owner = if s.sending then 1 else 0
  wbufs : ∀ w ∈ s.writes, w.bufs = s.sendingMsgs ∧ w.done ≤ (TxMsg.bytes w.bufs).length ∧ ∃ pre, s.wire = pre ++ (TxMsg.bytes w.bufs).take w.done
  dbufs : ∀ d ∈ s.dones, d.bufs = s.sendingMsgs ∧ (d.ok = true → ∃ pre, s.wire = pre ++ TxMsg.bytes d.bufs)
  some : s.writes ≠ [] ∨ s.dones ≠ [] → s.sendingMsgs ≠ []
  none : s.writes = [] → s.dones = [] → s.sendingMsgs = []

theorem Tx.init_inv : Tx.init.Inv where
  bad := rfl
  exact := rfl
  owner := rfl
  wbufs := by intro w h; simp [Tx.init] at h
  dbufs := by intro w h; simp [Tx.init] at h
  some := by intro h; simp [Tx.init] at h
  none := fun _ _ => rfl

/-- The state of the ideal sender for a state of the machine. -/
def Tx.ideal (s : Tx) : IdealTx := { waiting := s.q.items, flight := if s.sendingMsgs = [] then none else some s.sendingMsgs }

theorem moveOutBytes_spec (q : Q TxMsg) (h : q.Exact TxMsg.sz) (dest : List TxMsg) (n : Nat) :
    ∃ p, (q.moveOutBytes TxMsg.sz dest n).2 = dest ++ p ∧ q.items = p ++ (q.moveOutBytes TxMsg.sz dest n).1.items ∧
      (q.moveOutBytes TxMsg.sz dest n).1.Exact TxMsg.sz := by
  obtain ⟨q', r, h1, h2, p, h3, h4, _⟩ := Q.step_spec TxMsg.sz h (.moveOutBytes dest n) trivial
  simp only [Q.step, Option.some.injEq, Prod.mk.injEq] at h1
  obtain ⟨e1, e2⟩ := h1
  subst e1; subst e2
  exact ⟨p, h3, h4, h2⟩

/-- Moving out of a non-empty queue moves something. -/
theorem moveOutBytes_nonempty (q : Q TxMsg) (dest : List TxMsg) (n : Nat) (hne : q.items ≠ []) :
    (q.moveOutBytes TxMsg.sz dest n).2 ≠ [] := by
  unfold Q.moveOutBytes
  split
  · simp [Q.moveOutCount, hne]
  · obtain ⟨k, h1, h2, h3, _⟩ := scanBytes_eq TxMsg.sz n q.items 0 0 (by decide)
    rw [h2]
    simp only [splice_eq, Nat.zero_add]
    intro hc
    simp at hc
    have := h3 hne
    rcases hc.2 with hc | hc
    · omega
    · exact hne hc

theorem length_one_eq {α : Type} {l : List α} (h : l.length ≤ 1) {i : Nat} {a : α} (hi : l[i]? = some a) : l = [a] ∧ i = 0 := by
  cases l with
  | nil => simp at hi
  | cons b l =>
    cases l with
    | nil =>
      cases i with
      | zero => simp at hi; simp [hi]
      | succ i => simp at hi
    | cons c l => simp at h

theorem noAsync_true {s : Tx} (h : s.noAsync = true) : s.posted = 0 ∧ s.pc = .idle ∧ s.writes = [] ∧ s.dones = [] := by
  simpa [Tx.noAsync, and_assoc] using h

theorem Tx.step_inv {batch : Nat} {s s' : Tx} {a : TxAct} {es : List TxEv} (h : s.Inv) (hs : s.step batch a = some (s', es)) :
    s'.Inv ∧ s.ideal.monitor es = some s'.ideal := by
  have hown := h.owner
  have hle : s.writes.length + s.dones.length ≤ 1 := by
    have : (if s.sending then 1 else 0) ≤ 1 := by split <;> omega
    omega
  cases a with
  | send m prior fits =>
    simp only [Tx.step, Option.some.injEq] at hs
    unfold Tx.send at hs
    split at hs
    · cases hs; exact ⟨h, rfl⟩
    · cases fits with
      | false => cases prior <;> simp [Q.enqueue, Q.enqueueFront] at hs <;> obtain ⟨rfl, rfl⟩ := hs <;> exact ⟨h, rfl⟩
      | true =>
        have he := h.exact
        unfold Q.Exact at he
        cases prior with
        | false =>
          simp [Q.enqueue] at hs
          obtain ⟨rfl, rfl⟩ := hs
          refine ⟨⟨h.bad, ?_, h.owner, h.wbufs, h.dbufs, h.some, h.none⟩, rfl⟩
          simp only [Q.Exact, sumSize_append, sumSize_cons, sumSize_nil, w64add, he]; omega
        | true =>
          simp [Q.enqueueFront] at hs
          obtain ⟨rfl, rfl⟩ := hs
          refine ⟨⟨h.bad, ?_, h.owner, h.wbufs, h.dbufs, h.some, h.none⟩, rfl⟩
          simp only [Q.Exact, sumSize_cons, w64add, he]; omega
  | sendList ms prior =>
    have he := h.exact
    unfold Q.Exact at he
    have hd : Q.declared TxMsg.sz ms (getSizeInByte TxMsg.sz ms) = some (sumSize TxMsg.sz ms % 2 ^ 64) := by
      unfold Q.declared
      rw [getSizeInByte_eq]
      split
      · rfl
      · simp
    simp only [Tx.step, Option.some.injEq] at hs
    unfold Tx.sendList at hs
    cases prior with
    | false =>
      simp [Q.moveIn, hd] at hs
      obtain ⟨rfl, rfl⟩ := hs
      refine ⟨⟨h.bad, ?_, h.owner, h.wbufs, h.dbufs, h.some, h.none⟩, rfl⟩
      simp only [Q.Exact, sumSize_append, w64add, he]; omega
    | true =>
      simp [Q.moveInFront, hd] at hs
      obtain ⟨rfl, rfl⟩ := hs
      refine ⟨⟨h.bad, ?_, h.owner, h.wbufs, h.dbufs, h.some, h.none⟩, rfl⟩
      simp only [Q.Exact, sumSize_append, w64add, he]; omega
  | loadReady =>
    simp only [Tx.step] at hs
    split at hs
    · cases hs
    · cases hs; exact ⟨⟨h.bad, h.exact, h.owner, h.wbufs, h.dbufs, h.some, h.none⟩, rfl⟩
  | loadFlag =>
    simp only [Tx.step] at hs
    split at hs
    · cases hs
    · cases hs; exact ⟨⟨h.bad, h.exact, h.owner, h.wbufs, h.dbufs, h.some, h.none⟩, rfl⟩
  | runPosted =>
    simp only [Tx.step] at hs
    split at hs
    · cases hs
    · rename_i hc
      have hpc : s.pc = .idle := by
        cases hp : s.pc <;> simp [hp] at hc ⊢
      cases hs
      refine ⟨⟨h.bad, h.exact, ?_, h.wbufs, h.dbufs, h.some, h.none⟩, rfl⟩
      rw [hpc] at hown; exact hown
  | strand =>
    simp only [Tx.step, Tx.strand] at hs
    cases hpc : s.pc with
    | idle => rw [hpc] at hs; cases hs
    | test =>
      rw [hpc] at hs hown
      simp only at hs
      split at hs
      · cases hs
        exact ⟨⟨h.bad, h.exact, hown, h.wbufs, h.dbufs, h.some, h.none⟩, rfl⟩
      · rename_i hsend
        cases hs
        refine ⟨⟨h.bad, h.exact, ?_, h.wbufs, h.dbufs, h.some, h.none⟩, rfl⟩
        simp [hsend] at hown
        simp [hown, TxPc.owner]
    | move =>
      rw [hpc] at hs hown
      simp only at hs
      have hw : s.writes = [] ∧ s.dones = [] ∧ s.sending = true := by
        simp only [TxPc.owner] at hown
        have : (if s.sending then 1 else 0) ≤ 1 := by split <;> omega
        refine ⟨List.length_eq_zero_iff.mp (by omega), List.length_eq_zero_iff.mp (by omega), ?_⟩
        cases hse : s.sending
        · simp [hse] at hown
        · rfl
      have hsm := h.none hw.1 hw.2.1
      obtain ⟨p, m1, m2, m3⟩ := moveOutBytes_spec s.q h.exact s.sendingMsgs batch
      rw [hsm, List.nil_append] at m1
      rw [hsm] at m2 m3
      rw [hsm] at hs
      split at hs
      · rename_i hem
        rw [m1] at hem
        have hp : p = [] := by simpa using hem
        subst hp
        cases hs
        refine ⟨⟨h.bad, m3, by simpa [TxPc.owner] using hown, ?_, ?_, ?_, ?_⟩, ?_⟩
        · intro w hm; simp [hw.1] at hm
        · intro w hm; simp [hw.2.1] at hm
        · intro hc; simp [hw.1, hw.2.1] at hc
        · intro _ _; exact m1
        · simp only [IdealTx.monitor, Tx.ideal, hsm, m1]
          simp at m2
          rw [← m2]
      · rename_i hem
        rw [m1] at hem
        have hp : p ≠ [] := by simpa using hem
        cases hs
        refine ⟨⟨h.bad, m3, by simp [TxPc.owner, hw.1, hw.2.1, hw.2.2], ?_, ?_, ?_, ?_⟩, ?_⟩
        · intro w hm
          simp [hw.1] at hm
          subst hm
          simp
        · intro w hm; simp [hw.2.1] at hm
        · intro _; simp [m1, hp]
        · intro hc; simp at hc
        · simp [IdealTx.monitor, Tx.ideal, hsm, IdealTx.event, m1, hp]
          rw [m2, stripPrefix_append]
          rfl
    | clear =>
      rw [hpc] at hs hown
      simp only at hs
      cases hs
      refine ⟨⟨h.bad, h.exact, ?_, h.wbufs, h.dbufs, h.some, h.none⟩, rfl⟩
      have : (if s.sending then 1 else 0) ≤ 1 := by split <;> omega
      simp only [TxPc.owner] at hown
      show s.writes.length + s.dones.length + 0 = 0
      omega
    | check =>
      rw [hpc] at hs hown
      simp only at hs
      cases hs
      refine ⟨⟨h.bad, h.exact, ?_, h.wbufs, h.dbufs, h.some, h.none⟩, rfl⟩
      simp only [TxPc.owner] at hown
      split <;> simpa [TxPc.owner] using hown
    | errClear =>
      rw [hpc] at hs hown
      simp only at hs
      cases hs
      refine ⟨⟨h.bad, h.exact, ?_, h.wbufs, h.dbufs, h.some, h.none⟩, rfl⟩
      have : (if s.sending then 1 else 0) ≤ 1 := by split <;> omega
      simp only [TxPc.owner] at hown
      show s.writes.length + s.dones.length + 0 = 0
      omega
  | transfer i k =>
    simp only [Tx.step] at hs
    cases hw : s.writes[i]? with
    | none => simp [hw] at hs
    | some w =>
      simp only [hw, Option.bind_eq_bind, Option.bind_some] at hs
      split at hs
      · cases hs
      · rename_i hk
        cases hs
        obtain ⟨e1, e2⟩ := length_one_eq (by omega) hw
        subst e2
        obtain ⟨b1, b2, pre, b3⟩ := h.wbufs w (by rw [e1]; simp)
        have hd0 : s.dones = [] := by rw [e1] at hle; simp at hle; exact List.length_eq_zero_iff.mp (by omega)
        have hk2 : k ≤ (TxMsg.bytes w.bufs).length - w.done := by
          rw [List.length_drop] at hk; omega
        refine ⟨⟨?_, h.exact, by simpa using h.owner, ?_, ?_, ?_, ?_⟩, rfl⟩
        · simp [h.bad, b1]
        · intro w' hm
          simp [e1] at hm
          subst hm
          refine ⟨b1, by simp only; omega, pre, ?_⟩
          simp only
          rw [b3, List.append_assoc, List.take_add]
        · intro d hm; simp [hd0] at hm
        · intro _; exact h.some (Or.inl (by rw [e1]; simp))
        · intro hc; simp [e1] at hc
  | complete i ok =>
    simp only [Tx.step] at hs
    cases hw : s.writes[i]? with
    | none => simp [hw] at hs
    | some w =>
      simp only [hw, Option.bind_eq_bind, Option.bind_some] at hs
      split at hs
      · cases hs
      · rename_i hk
        cases hs
        obtain ⟨e1, e2⟩ := length_one_eq (by omega) hw
        subst e2
        obtain ⟨b1, b2, pre, b3⟩ := h.wbufs w (by rw [e1]; simp)
        have hd0 : s.dones = [] := by rw [e1] at hle; simp at hle; exact List.length_eq_zero_iff.mp (by omega)
        have hsm := h.some (Or.inl (by rw [e1]; simp))
        refine ⟨⟨h.bad, h.exact, ?_, ?_, ?_, ?_, ?_⟩, rfl⟩
        · have := h.owner; simp [e1, hd0] at this ⊢; exact this
        · intro w' hm; simp [e1] at hm
        · intro d hm
          simp [hd0] at hm
          subst hm
          refine ⟨b1, ?_⟩
          intro hok
          simp only at hok
          refine ⟨pre, ?_⟩
          simp only
          have : w.done = (TxMsg.bytes w.bufs).length := by
            rcases Nat.lt_or_ge w.done (TxMsg.bytes w.bufs).length with hlt | hge
            · exact absurd ⟨hok, by omega⟩ hk
            · omega
          rw [b3, this, List.take_length]
        · intro _; exact hsm
        · intro _ hc; simp at hc
  | handler i =>
    simp only [Tx.step] at hs
    cases hd : s.dones[i]? with
    | none => simp [hd] at hs
    | some d =>
      simp only [hd, Option.bind_eq_bind, Option.bind_some] at hs
      split at hs
      · cases hs
      · rename_i hpc
        have hpc : s.pc = .idle := by
          cases hp : s.pc <;> simp [hp] at hpc ⊢
        obtain ⟨e1, e2⟩ := length_one_eq (by omega) hd
        subst e2
        have hw0 : s.writes = [] := by rw [e1] at hle; simp at hle; exact hle
        have hsm := h.some (Or.inr (by rw [e1]; simp))
        obtain ⟨b1, b2⟩ := h.dbufs d (by rw [e1]; simp)
        have hse : s.sending = true := by
          rw [hpc, e1, hw0] at hown
          simp [TxPc.owner] at hown
          exact hown
        have hb : (s.bad || s.sendingMsgs.isEmpty || s.sendingMsgs != d.bufs) = false := by
          simp [h.bad, b1, hsm]
        simp only [Option.some.injEq] at hs
        unfold Tx.handler at hs
        simp only [hb] at hs
        split at hs
        · cases hs
          refine ⟨⟨rfl, h.exact, by simp [hw0, e1, hse, TxPc.owner], ?_, ?_, ?_, ?_⟩, ?_⟩
          · intro w hm; simp [hw0] at hm
          · intro w hm; simp [e1] at hm
          · intro hc; simp [hw0, e1] at hc
          · intro _ _; rfl
          · rw [monitor_promises]
            simp [IdealTx.monitor, IdealTx.event, Tx.ideal, hsm]
        · cases hs
          refine ⟨⟨rfl, h.exact, by simp [hw0, e1, hse, TxPc.owner], ?_, ?_, ?_, ?_⟩, ?_⟩
          · intro w hm; simp [hw0] at hm
          · intro w hm; simp [e1] at hm
          · intro hc; simp [hw0, e1] at hc
          · intro _ _; rfl
          · rw [monitor_promises]
            simp [IdealTx.monitor, IdealTx.event, Tx.ideal, hsm]
  | pop =>
    simp only [Tx.step] at hs
    have he := h.exact
    unfold Q.Exact at he
    cases hi : s.q.items with
    | nil =>
      simp [Q.tryDequeue, hi] at hs
      obtain ⟨rfl, rfl⟩ := hs
      exact ⟨h, rfl⟩
    | cons m l =>
      simp [Q.tryDequeue, hi] at hs
      obtain ⟨rfl, rfl⟩ := hs
      refine ⟨⟨h.bad, ?_, h.owner, h.wbufs, h.dbufs, h.some, h.none⟩, ?_⟩
      · rw [hi, sumSize_cons] at he
        simp only [Q.Exact, he]
        unfold w64sub; omega
      · rw [monitor_promises]
        simp [IdealTx.monitor, IdealTx.event, Tx.ideal, hi, stripPrefix]
  | popAll =>
    simp only [Tx.step, Option.some.injEq, Prod.mk.injEq] at hs
    obtain ⟨rfl, rfl⟩ := hs
    refine ⟨⟨h.bad, rfl, h.owner, h.wbufs, h.dbufs, h.some, h.none⟩, ?_⟩
    rw [monitor_promises]
    have : stripPrefix s.q.items s.q.items = some [] := by simpa using stripPrefix_append s.q.items []
    simp [IdealTx.monitor, IdealTx.event, Tx.ideal, Q.swap, this]
  | shrink n =>
    simp only [Tx.step, Option.some.injEq, Prod.mk.injEq] at hs
    obtain ⟨rfl, rfl⟩ := hs
    obtain ⟨p, m1, m2, m3⟩ := moveOutBytes_spec s.q h.exact [] n
    refine ⟨⟨h.bad, m3, h.owner, h.wbufs, h.dbufs, h.some, h.none⟩, ?_⟩
    rw [List.nil_append] at m1
    simp only [IdealTx.monitor, IdealTx.event, Tx.ideal, m1]
    rw [m2, stripPrefix_append]
    rfl
  | linkUp =>
    simp only [Tx.step] at hs
    split at hs
    · cases hs
    · rename_i hc
      cases hs
      have hna : s.writes = [] ∧ s.dones = [] := by
        have := noAsync_true (s := s) (by simpa using fun hf => hc (Or.inr hf))
        exact ⟨this.2.2.1, this.2.2.2⟩
      refine ⟨⟨h.bad, h.exact, h.owner, ?_, ?_, h.some, h.none⟩, rfl⟩
      · intro w hm; simp [hna.1] at hm
      · intro w hm; simp [hna.2] at hm
  | linkDown =>
    simp only [Tx.step, Option.some.injEq, Prod.mk.injEq] at hs
    obtain ⟨rfl, rfl⟩ := hs
    exact ⟨⟨h.bad, h.exact, h.owner, h.wbufs, h.dbufs, h.some, h.none⟩, rfl⟩
  | onClose =>
    simp only [Tx.step] at hs
    split at hs
    · cases hs
    · cases hs
      exact ⟨h, by have := monitor_promises s.ideal s.sendingMsgs .notApplicable []; simpa [IdealTx.monitor, Tx.onClose] using this⟩
  | reset =>
    simp only [Tx.step] at hs
    split at hs
    · cases hs
    · rename_i hc
      cases hs
      have hna : s.pc = .idle ∧ s.writes = [] ∧ s.dones = [] := by
        have := noAsync_true (s := s) (by simpa using fun hf => hc (Or.inr (Or.inl hf)))
        exact ⟨this.2.1, this.2.2.1, this.2.2.2⟩
      have hsm := h.none hna.2.1 hna.2.2
      refine ⟨⟨h.bad, rfl, by simp [hna, TxPc.owner], ?_, ?_, ?_, ?_⟩, ?_⟩
      · intro w hm; simp [hna.2.1] at hm
      · intro w hm; simp [hna.2.2] at hm
      · intro hc; simp [hna.2.1, hna.2.2] at hc
      · intro _ _; rfl
      · have : stripPrefix s.q.items s.q.items = some [] := by simpa using stripPrefix_append s.q.items []
        simp [IdealTx.monitor, IdealTx.event, Tx.ideal, Q.clear, this, hsm]

theorem Tx.run_inv {batch : Nat} {s s' : Tx} {as : List TxAct} {es : List TxEv} (h : s.Inv) (hr : Tx.Run batch s as s' es) :
    s'.Inv ∧ s.ideal.monitor es = some s'.ideal := by
  induction hr with
  | nil => exact ⟨h, rfl⟩
  | snoc s1 s2 as a es es' _ hs ih =>
    obtain ⟨i1, i2⟩ := ih
    obtain ⟨j1, j2⟩ := Tx.step_inv i1 hs
    exact ⟨j1, by rw [monitor_append, i2]; exact j2⟩

end StAsio
