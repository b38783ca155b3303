import Verif.Lemmas.TcpSend2
set_option autoImplicit false
namespace StAsio

/-! ### progress -/

/-- Actions the library and the kernel perform on their own (no new send, no error, no shutdown). -/
def TxAct.Internal : TxAct → Prop
  | .loadReady | .loadFlag | .runPosted | .strand | .transfer _ _ | .complete _ true | .handler _ => True
  | _ => False

def Tx.pcWork (s : Tx) : Nat :=
  match s.pc with
  | .idle => 0
  | .errClear => 1
  | .test => if s.q.items.isEmpty then 4 else 2
  | .move => if s.q.items.isEmpty then 3 else 1
  | .clear => if s.q.items.isEmpty then 2 else 4
  | .check => if s.q.items.isEmpty then 1 else 3

def msgWork : List TxMsg → Nat
  | [] => 0
  | m :: ms => m.sz + 10 + msgWork ms

def writeWork : List Wr → Nat
  | [] => 0
  | w :: ws => ((TxMsg.bytes w.bufs).length - w.done) + 6 + writeWork ws

/-- Upper bound of the number of internal actions possible. -/
def Tx.work (s : Tx) : Nat := 7 * s.atReady + 6 * s.atFlag + 5 * s.posted + s.pcWork + writeWork s.writes + 5 * s.dones.length + msgWork s.q.items

theorem msgWork_append (a b : List TxMsg) : msgWork (a ++ b) = msgWork a + msgWork b := by
  induction a with
  | nil => simp [msgWork]
  | cons m a ih => simp only [List.cons_append, msgWork, ih]; omega

theorem msgWork_bytes {p : List TxMsg} (hp : p ≠ []) : (TxMsg.bytes p).length + 10 ≤ msgWork p := by
  have h1 : ∀ l : List TxMsg, (TxMsg.bytes l).length ≤ msgWork l := by
    intro l
    induction l with
    | nil => simp [TxMsg.bytes, msgWork]
    | cons m l ih => simp only [TxMsg.bytes, List.map_cons, List.flatten_cons, List.length_append, msgWork, TxMsg.sz] at *; omega
  cases p with
  | nil => exact absurd rfl hp
  | cons m l =>
    have := h1 l
    simp only [TxMsg.bytes, List.map_cons, List.flatten_cons, List.length_append, msgWork, TxMsg.sz] at *; omega

theorem Tx.pcWork_le (s : Tx) : s.pcWork ≤ 4 := by
  unfold Tx.pcWork
  split <;> (try split) <;> omega

theorem Tx.step_work {batch : Nat} {s s' : Tx} {a : TxAct} {es : List TxEv} (h : s.Inv) (ha : a.Internal)
    (hs : s.step batch a = some (s', es)) : s'.work < s.work := by
  have hown := h.owner
  have hle : s.writes.length + s.dones.length ≤ 1 := by
    have : (if s.sending then 1 else 0) ≤ 1 := by split <;> omega
    omega
  cases a with
  | loadReady =>
    simp only [Tx.step] at hs
    split at hs
    · cases hs
    · cases hs
      simp only [Tx.work, Tx.pcWork]
      split <;> omega
  | loadFlag =>
    simp only [Tx.step] at hs
    split at hs
    · cases hs
    · cases hs
      simp only [Tx.work, Tx.pcWork]
      split <;> omega
  | runPosted =>
    simp only [Tx.step] at hs
    split at hs
    · cases hs
    · rename_i hc
      cases hs
      have hpc : s.pc = .idle := by
        cases hpc : s.pc <;> first | rfl | exact absurd (Or.inr (by simp [hpc])) hc
      have : s.posted ≠ 0 := fun h0 => hc (Or.inl h0)
      simp only [Tx.work, Tx.pcWork, hpc]
      split <;> omega
  | strand =>
    simp only [Tx.step, Tx.strand] at hs
    cases hpc : s.pc with
    | idle => rw [hpc] at hs; cases hs
    | test =>
      rw [hpc] at hs
      simp only at hs
      split at hs
      · cases hs; simp only [Tx.work, Tx.pcWork, hpc]; split <;> omega
      · cases hs; simp only [Tx.work, Tx.pcWork, hpc]; split <;> omega
    | move =>
      rw [hpc] at hs hown
      simp only at hs
      have hw : s.writes = [] ∧ s.dones = [] := by
        simp only [TxPc.owner] at hown
        have : (if s.sending then 1 else 0) ≤ 1 := by split <;> omega
        exact ⟨List.length_eq_zero_iff.mp (by omega), List.length_eq_zero_iff.mp (by omega)⟩
      have hsm := h.none hw.1 hw.2
      obtain ⟨p, m1, m2, m3⟩ := moveOutBytes_spec s.q h.exact s.sendingMsgs batch
      rw [hsm] at m1 hs m2
      simp only [List.nil_append] at m1
      split at hs
      · rename_i he
        cases hs
        rw [m1] at he
        have hp : p = [] := by simpa using he
        have hq : s.q.items = [] := by
          cases hqi : s.q.items with
          | nil => rfl
          | cons m l =>
            exact absurd (m1.trans hp) (moveOutBytes_nonempty s.q [] batch (by simp [hqi]))
        have hq' : (Q.moveOutBytes TxMsg.sz s.q [] batch).1.items = [] := by
          rw [hq, hp] at m2; simpa using m2.symm
        simp [Tx.work, Tx.pcWork, hpc, hq, hq']
      · rename_i he
        cases hs
        rw [m1] at he
        have hp : p ≠ [] := by simpa using he
        have hb := msgWork_bytes hp
        simp only [Tx.work, Tx.pcWork, hpc, m1, hw.1, hw.2]
        rw [m2, msgWork_append]
        simp only [List.nil_append, writeWork, List.length_nil, Nat.sub_zero]
        omega
    | clear => rw [hpc] at hs; simp only at hs; cases hs; simp only [Tx.work, Tx.pcWork, hpc]; split <;> omega
    | check =>
      rw [hpc] at hs; simp only at hs; cases hs
      simp only [Tx.work, Tx.pcWork, hpc]
      by_cases hq : s.q.items.isEmpty = true
      · simp only [hq, if_true]; omega
      · simp only [hq]; simp
    | errClear => rw [hpc] at hs; simp only at hs; cases hs; simp only [Tx.work, Tx.pcWork, hpc]; omega
  | transfer i k =>
    simp only [Tx.step] at hs
    cases hw : s.writes[i]? with
    | none => simp [hw] at hs
    | some w =>
      simp only [hw, Option.bind_eq_bind, Option.bind_some] at hs
      split at hs
      · cases hs
      · rename_i hk
        cases hs
        obtain ⟨e1, e2⟩ := length_one_eq (by omega) hw
        subst e2
        simp only [not_or, List.length_drop, Nat.not_lt] at hk
        simp only [Tx.work, Tx.pcWork, e1, List.set_cons_zero, writeWork]
        omega
  | complete i ok =>
    simp only [Tx.step] at hs
    cases hw : s.writes[i]? with
    | none => simp [hw] at hs
    | some w =>
      simp only [hw, Option.bind_eq_bind, Option.bind_some] at hs
      split at hs
      · cases hs
      · cases hs
        obtain ⟨e1, e2⟩ := length_one_eq (by omega) hw
        subst e2
        simp only [Tx.work, Tx.pcWork, e1, List.eraseIdx_cons_zero, writeWork, List.length_append, List.length_cons, List.length_nil]
        omega
  | handler i =>
    simp only [Tx.step] at hs
    cases hd : s.dones[i]? with
    | none => simp [hd] at hs
    | some d =>
      simp only [hd, Option.bind_eq_bind, Option.bind_some] at hs
      split at hs
      · cases hs
      · rename_i hc
        have hpc : s.pc = .idle := by
          cases hpc : s.pc <;> first | rfl | exact absurd (by simp [hpc]) hc
        have hlt : i < s.dones.length := by
          rcases Nat.lt_or_ge i s.dones.length with h1 | h1
          · exact h1
          · rw [List.getElem?_eq_none h1] at hd; cases hd
        simp only [Option.some.injEq] at hs
        unfold Tx.handler at hs
        simp only at hs
        split at hs
        · cases hs
          simp only [Tx.work, Tx.pcWork, hpc, List.length_eraseIdx, hlt, if_true]
          split <;> omega
        · cases hs
          simp only [Tx.work, Tx.pcWork, hpc, List.length_eraseIdx, hlt, if_true]
          omega
  | send m prior fits => exact absurd ha (by simp [TxAct.Internal])
  | sendList ms prior => exact absurd ha (by simp [TxAct.Internal])
  | pop => exact absurd ha (by simp [TxAct.Internal])
  | popAll => exact absurd ha (by simp [TxAct.Internal])
  | shrink n => exact absurd ha (by simp [TxAct.Internal])
  | linkUp => exact absurd ha (by simp [TxAct.Internal])
  | linkDown => exact absurd ha (by simp [TxAct.Internal])
  | onClose => exact absurd ha (by simp [TxAct.Internal])
  | reset => exact absurd ha (by simp [TxAct.Internal])

theorem Tx.run_work {batch : Nat} {s s' : Tx} {as : List TxAct} {es : List TxEv} (h : s.Inv) (hr : Tx.Run batch s as s' es)
    (ha : ∀ a ∈ as, a.Internal) : as.length + s'.work ≤ s.work := by
  induction hr with
  | nil => simp
  | snoc s1 s2 as a es es' hr hs ih =>
    have hinv := (Tx.run_inv h hr).1
    have h1 := ih (fun x hx => ha x (by simp [hx]))
    have h2 := Tx.step_work hinv (ha a (by simp)) hs
    simp only [List.length_append, List.length_cons, List.length_nil]
    omega

/-- All threads and the strand are idle, no write is outstanding. -/
def Tx.Quiet (s : Tx) : Prop :=
  s.posted = 0 ∧ s.pc = .idle ∧ s.writes = [] ∧ s.dones = [] ∧ s.atReady = 0 ∧ s.atFlag = 0

theorem Tx.progress (batch : Nat) (s : Tx) (hi : s.Inv) (h : ¬ s.Quiet) : ∃ a s' es, TxAct.Internal a ∧ s.step batch a = some (s', es) := by
  by_cases h1 : s.atReady = 0
  · by_cases h2 : s.atFlag = 0
    · by_cases hpc : s.pc = .idle
      · by_cases h3 : s.posted = 0
        · cases hd : s.dones with
          | cons d l => exact ⟨.handler 0, _, _, trivial, by simp only [Tx.step, hd, List.getElem?_cons_zero, Option.bind_eq_bind, Option.bind_some]; rw [if_neg (by simp [hpc])]⟩
          | nil =>
            cases hw : s.writes with
            | nil => exact absurd ⟨h3, hpc, hw, hd, h1, h2⟩ h
            | cons w l =>
              by_cases hx : w.done = (TxMsg.bytes w.bufs).length
              · exact ⟨.complete 0 true, _, _, trivial, by simp only [Tx.step, hw, List.getElem?_cons_zero, Option.bind_eq_bind, Option.bind_some]; rw [if_neg (by simp [hx])]⟩
              · have hn : ¬ (1 = 0 ∨ ((TxMsg.bytes w.bufs).drop w.done).length < 1) := by
                  rw [List.length_drop]
                  have := (hi.wbufs w (by simp [hw])).2.1
                  omega
                exact ⟨.transfer 0 1, _, _, trivial, by simp only [Tx.step, hw, List.getElem?_cons_zero, Option.bind_eq_bind, Option.bind_some]; rw [if_neg hn]⟩
        · exact ⟨.runPosted, _, _, trivial, by simp only [Tx.step]; rw [if_neg (by simp [h3, hpc])]⟩
      · refine ⟨.strand, ?_⟩
        cases hp : s.pc with
        | idle => exact absurd hp hpc
        | test =>
          cases hse : s.sending
          · exact ⟨_, _, trivial, by simp only [Tx.step, Tx.strand, hp, hse]; rfl⟩
          · exact ⟨_, _, trivial, by simp only [Tx.step, Tx.strand, hp, hse]; rfl⟩
        | move =>
          by_cases he : (Q.moveOutBytes TxMsg.sz s.q s.sendingMsgs batch).2.isEmpty = true
          · exact ⟨_, _, trivial, by simp only [Tx.step, Tx.strand, hp, he]; rfl⟩
          · exact ⟨_, _, trivial, by simp only [Tx.step, Tx.strand, hp]; rw [if_neg he]⟩
        | clear => exact ⟨_, _, trivial, by simp only [Tx.step, Tx.strand, hp]; rfl⟩
        | check => exact ⟨_, _, trivial, by simp only [Tx.step, Tx.strand, hp]; rfl⟩
        | errClear => exact ⟨_, _, trivial, by simp only [Tx.step, Tx.strand, hp]; rfl⟩
    · exact ⟨.loadFlag, _, _, trivial, by simp only [Tx.step]; rw [if_neg h2]⟩
  · exact ⟨.loadReady, _, _, trivial, by simp only [Tx.step]; rw [if_neg h1]⟩

theorem Tx.run_trans {batch : Nat} {s s1 s2 : Tx} {as bs : List TxAct} {es fs : List TxEv} (h1 : Tx.Run batch s as s1 es) (h2 : Tx.Run batch s1 bs s2 fs) :
    Tx.Run batch s (as ++ bs) s2 (es ++ fs) := by
  induction h2 with
  | nil => simpa using h1
  | snoc s2 s3 bs a fs fs' _ hs ih =>
    rw [← List.append_assoc, ← List.append_assoc]
    exact Tx.Run.snoc _ _ _ _ _ _ _ ih hs

theorem Tx.run_nil {batch : Nat} {s s1 : Tx} {es : List TxEv} (h : Tx.Run batch s [] s1 es) : s1 = s ∧ es = [] := by
  generalize hl : ([] : List TxAct) = l at h
  cases h with
  | nil => exact ⟨rfl, rfl⟩
  | snoc => simp at hl

theorem Tx.run_one {batch : Nat} {s s1 : Tx} {a : TxAct} {es : List TxEv} (h : s.step batch a = some (s1, es)) : Tx.Run batch s [a] s1 es := by
  have := Tx.Run.snoc _ _ _ _ _ _ _ (Tx.Run.nil (batch := batch) s) h
  simpa using this

theorem Tx.drain (batch : Nat) : ∀ (n : Nat) (s : Tx), s.Inv → s.work ≤ n →
    ∃ as s' es, Tx.Run batch s as s' es ∧ (∀ a ∈ as, TxAct.Internal a) ∧ s'.Quiet := by
  intro n
  induction n with
  | zero =>
    intro s hi hw
    by_cases hq : s.Quiet
    · exact ⟨[], s, [], Tx.Run.nil s, by simp, hq⟩
    · obtain ⟨a, s', es, ha, hs⟩ := Tx.progress batch s hi hq
      have := Tx.step_work hi ha hs
      omega
  | succ n ih =>
    intro s hi hw
    by_cases hq : s.Quiet
    · exact ⟨[], s, [], Tx.Run.nil s, by simp, hq⟩
    · obtain ⟨a, s', es, ha, hs⟩ := Tx.progress batch s hi hq
      have h1 := Tx.step_work hi ha hs
      obtain ⟨as, s2, fs, r, hia, hq2⟩ := ih s' (Tx.step_inv hi hs).1 (by omega)
      refine ⟨[a] ++ as, s2, es ++ fs, Tx.run_trans (Tx.run_one hs) r, ?_, hq2⟩
      intro b hb
      simp at hb
      rcases hb with rfl | hb
      · exact ha
      · exact hia b hb

theorem Tx.exec_run {batch : Nat} {s s' : Tx} {as : List TxAct} {es : List TxEv} (h : Tx.exec batch s as = some (s', es)) : Tx.Run batch s as s' es := by
  induction as generalizing s es with
  | nil => simp [Tx.exec] at h; obtain ⟨rfl, rfl⟩ := h; exact Tx.Run.nil _
  | cons a as ih =>
    simp only [Tx.exec, Option.bind_eq_bind] at h
    rw [Option.bind_eq_some_iff] at h
    obtain ⟨⟨s1, e1⟩, h1, h2⟩ := h
    rw [Option.bind_eq_some_iff] at h2
    obtain ⟨⟨s2, e2⟩, h2, h3⟩ := h2
    simp at h3
    obtain ⟨rfl, rfl⟩ := h3
    exact Tx.run_trans (Tx.run_one h1) (ih h2)

theorem Tx.internal_run {batch : Nat} {s s' : Tx} {as : List TxAct} {es : List TxEv} (hr : Tx.Run batch s as s' es) (ha : ∀ a ∈ as, TxAct.Internal a) :
    s'.ready = s.ready ∧ acceptedMsgs es = [] := by
  induction hr with
  | nil => exact ⟨rfl, rfl⟩
  | snoc s1 s2 as a es es' hr hs ih =>
    have ih := ih (fun x hx => ha x (by simp [hx]))
    have hia := ha a (by simp)
    rw [acceptedMsgs_append, ih.2, ← ih.1]
    simp only [List.nil_append]
    cases a with
    | loadReady =>
      simp only [Tx.step] at hs
      split at hs
      · cases hs
      · cases hs; exact ⟨rfl, rfl⟩
    | loadFlag =>
      simp only [Tx.step] at hs
      split at hs
      · cases hs
      · cases hs; exact ⟨rfl, rfl⟩
    | runPosted =>
      simp only [Tx.step] at hs
      split at hs
      · cases hs
      · cases hs; exact ⟨rfl, rfl⟩
    | strand =>
      simp only [Tx.step, Tx.strand] at hs
      cases hpc : s1.pc with
      | idle => rw [hpc] at hs; cases hs
      | test => rw [hpc] at hs; simp only at hs; split at hs <;> (cases hs; exact ⟨rfl, rfl⟩)
      | move => rw [hpc] at hs; simp only at hs; split at hs <;> (cases hs; exact ⟨rfl, rfl⟩)
      | clear => rw [hpc] at hs; simp only at hs; cases hs; exact ⟨rfl, rfl⟩
      | check => rw [hpc] at hs; simp only at hs; cases hs; exact ⟨rfl, rfl⟩
      | errClear => rw [hpc] at hs; simp only at hs; cases hs; exact ⟨rfl, rfl⟩
    | transfer i k =>
      simp only [Tx.step] at hs
      cases hw : s1.writes[i]? with
      | none => simp [hw] at hs
      | some w =>
        simp only [hw, Option.bind_eq_bind, Option.bind_some] at hs
        split at hs
        · cases hs
        · cases hs; exact ⟨rfl, rfl⟩
    | complete i ok =>
      simp only [Tx.step] at hs
      cases hw : s1.writes[i]? with
      | none => simp [hw] at hs
      | some w =>
        simp only [hw, Option.bind_eq_bind, Option.bind_some] at hs
        split at hs
        · cases hs
        · cases hs; exact ⟨rfl, rfl⟩
    | handler i =>
      simp only [Tx.step] at hs
      cases hd : s1.dones[i]? with
      | none => simp [hd] at hs
      | some d =>
        simp only [hd, Option.bind_eq_bind, Option.bind_some] at hs
        split at hs
        · cases hs
        · simp only [Option.some.injEq] at hs
          unfold Tx.handler at hs
          simp only at hs
          split at hs <;> (cases hs; exact ⟨rfl, by rw [acceptedMsgs_append, (other_promises _ _).2.1]; rfl⟩)
    | send m prior fits => exact absurd hia (by simp [TxAct.Internal])
    | sendList ms prior => exact absurd hia (by simp [TxAct.Internal])
    | pop => exact absurd hia (by simp [TxAct.Internal])
    | popAll => exact absurd hia (by simp [TxAct.Internal])
    | shrink n => exact absurd hia (by simp [TxAct.Internal])
    | linkUp => exact absurd hia (by simp [TxAct.Internal])
    | linkDown => exact absurd hia (by simp [TxAct.Internal])
    | onClose => exact absurd hia (by simp [TxAct.Internal])
    | reset => exact absurd hia (by simp [TxAct.Internal])

theorem failedSinceUp_internal (as bs : List TxAct) (h : ∀ b ∈ bs, TxAct.Internal b) (hf : failedSinceUp as = false) : failedSinceUp (as ++ bs) = false := by
  induction bs generalizing as with
  | nil => simpa using hf
  | cons b bs ih =>
    have : as ++ b :: bs = (as ++ [b]) ++ bs := by simp
    rw [this]
    refine ih _ (fun x hx => h x (by simp [hx])) ?_
    have hb := h b (by simp)
    unfold failedSinceUp at *
    rw [List.foldl_append, hf]
    cases b with
    | complete i ok => cases ok
                       · exact absurd hb (by simp [TxAct.Internal])
                       · rfl
    | _ => rfl

end StAsio
