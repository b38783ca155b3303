import Verif.Spec.Fair
import Verif.Props.C20_C23_TcpSend
import Verif.Lemmas.Notify
/-!
# C22: no message waits for ever, however much others send

`C22_drains` is about a sender nobody uses any more. Here the threads go on sending for ever: an infinite execution of Model/TcpSend.lean from the moment a link comes up, in which the scheduler is fair.
-/
set_option autoImplicit false
namespace StAsio

/-- What happens on a link that stays up and works: sends without priority, and everything the library and the kernel do. -/
def TxAct.steady : TxAct → Bool
  | .send _ prior _ => !prior
  | .sendList _ prior => !prior
  | .loadReady | .loadFlag | .runPosted | .strand | .transfer _ _ | .handler _ => true
  | .complete _ ok => ok
  | _ => false

/-- The kernel takes bytes of an outstanding write, or completes it. -/
def TxAct.kernel : TxAct → Bool
  | .transfer _ _ => true
  | .complete _ ok => ok
  | _ => false

/-- The strand runs send_handler. -/
def TxAct.isHandler : TxAct → Bool
  | .handler _ => true
  | _ => false

structure Tx.Up (s : Tx) : Prop where
  inv : s.Inv
  live : Tx.Live false s
  ready : s.ready = true

/-- What a step that is not one of do_send_msg leaves as it is. -/
theorem Tx.step_frame {batch : Nat} {s s' : Tx} {a : TxAct} {es : List TxEv} (h : s.Inv) (ha : a.steady = true) (hn : a ≠ .strand) (hs : s.step batch a = some (s', es)) :
    s'.ready = s.ready ∧ s'.sending = s.sending ∧ (∃ l, s'.q.items = s.q.items ++ l) ∧ (s.pc ≠ .idle → s'.pc = s.pc) := by
  have hm := (Tx.step_inv h hs).2
  cases a with
  | send m prior fits =>
    have hp : prior = false := by simpa [TxAct.steady] using ha
    subst hp
    simp only [Tx.step, Tx.send, Bool.false_eq_true, if_false, Option.some.injEq] at hs
    split at hs
    · cases hs; exact ⟨rfl, rfl, ⟨[], by simp⟩, fun _ => rfl⟩
    · split at hs
      · cases hs
        simp [IdealTx.monitor, IdealTx.event, Tx.ideal] at hm
        exact ⟨rfl, rfl, ⟨_, hm.symm⟩, fun _ => rfl⟩
      · cases hs; exact ⟨rfl, rfl, ⟨[], by simp⟩, fun _ => rfl⟩
  | sendList ms prior =>
    have hp : prior = false := by simpa [TxAct.steady] using ha
    subst hp
    simp only [Tx.step, Tx.sendList, Bool.false_eq_true, if_false, Option.some.injEq] at hs
    split at hs
    · cases hs; exact ⟨rfl, rfl, ⟨[], by simp⟩, fun _ => rfl⟩
    · cases hs
      simp [IdealTx.monitor, IdealTx.event, Tx.ideal] at hm
      exact ⟨rfl, rfl, ⟨_, hm.symm⟩, fun _ => rfl⟩
  | loadReady =>
    simp only [Tx.step] at hs
    split at hs
    · cases hs
    · cases hs; exact ⟨rfl, rfl, ⟨[], by simp⟩, fun _ => rfl⟩
  | loadFlag =>
    simp only [Tx.step] at hs
    split at hs
    · cases hs
    · cases hs; exact ⟨rfl, rfl, ⟨[], by simp⟩, fun _ => rfl⟩
  | runPosted =>
    simp only [Tx.step] at hs
    split at hs
    · cases hs
    · rename_i h1
      cases hs; exact ⟨rfl, rfl, ⟨[], by simp⟩, fun hc => absurd (Or.inr hc) h1⟩
  | strand => exact absurd rfl hn
  | transfer i k =>
    simp only [Tx.step, Option.bind_eq_bind, Option.bind_eq_some_iff] at hs
    obtain ⟨w, _, hs⟩ := hs
    split at hs
    · cases hs
    · cases hs; exact ⟨rfl, rfl, ⟨[], by simp⟩, fun _ => rfl⟩
  | complete i ok =>
    simp only [Tx.step, Option.bind_eq_bind, Option.bind_eq_some_iff] at hs
    obtain ⟨w, _, hs⟩ := hs
    split at hs
    · cases hs
    · cases hs; exact ⟨rfl, rfl, ⟨[], by simp⟩, fun _ => rfl⟩
  | handler i =>
    simp only [Tx.step, Option.bind_eq_bind, Option.bind_eq_some_iff] at hs
    obtain ⟨d, _, hs⟩ := hs
    split at hs
    · cases hs
    · rename_i h1
      simp only [Tx.handler] at hs
      split at hs <;> cases hs <;> exact ⟨rfl, rfl, ⟨[], by simp⟩, fun hc => absurd hc h1⟩
  | _ => simp [TxAct.steady] at ha

theorem Tx.strand_ready {batch : Nat} {s s' : Tx} {es : List TxEv} (hs : s.step batch .strand = some (s', es)) : s'.ready = s.ready := by
  simp only [Tx.step, Tx.strand] at hs
  (repeat' split at hs) <;> cases hs <;> rfl

theorem Tx.step_up {batch : Nat} {s s' : Tx} {a : TxAct} {es : List TxEv} (h : s.Up) (ha : a.steady = true) (hs : s.step batch a = some (s', es)) : s'.Up := by
  refine ⟨(Tx.step_inv h.inv hs).1, ?_, ?_⟩
  · have := Tx.step_live h.inv h.live hs
    cases a with
    | complete i ok => cases ok with
      | true => exact this
      | false => simp [TxAct.steady] at ha
    | linkUp => simp [TxAct.steady] at ha
    | _ => exact this
  · by_cases hn : a = .strand
    · subst hn; rw [Tx.strand_ready hs]; exact h.ready
    · rw [(Tx.step_frame h.inv ha hn hs).1]; exact h.ready

/-- An upper bound for the steps of do_send_msg before the strand is free again. -/
def Tx.rank (s : Tx) : Nat := match s.pc with
  | .idle => 0
  | .test => if s.sending then 1 else if s.q.items = [] then 6 else 2
  | .move => if s.q.items = [] then 5 else 1
  | .clear => 4
  | .check => 3
  | .errClear => 1

theorem Tx.strand_rank {batch : Nat} {s s' : Tx} {es : List TxEv} (hs : s.step batch .strand = some (s', es)) : s'.rank < s.rank := by
  simp only [Tx.step, Tx.strand] at hs
  split at hs
  · cases hs
  · rename_i hp
    split at hs <;> cases hs
    · rename_i h1; simp [Tx.rank, hp, h1]
    · rename_i h1; simp only [Tx.rank, hp, h1]; split <;> simp
  · rename_i hp
    split at hs <;> cases hs
    · rename_i h1
      have : s.q.items = [] := Classical.byContradiction fun hc => moveOutBytes_nonempty s.q s.sendingMsgs batch hc (by simpa using h1)
      simp [Tx.rank, hp, this]
    · simp only [Tx.rank, hp]; split <;> omega
  · rename_i hp; cases hs; simp [Tx.rank, hp]
  · rename_i hp; cases hs
    cases h1 : s.q.items.isEmpty
    · have : s.q.items ≠ [] := by intro hc; simp [hc] at h1
      simp only [Tx.rank, hp, Bool.false_eq_true, if_false, this]; split <;> omega
    · simp [Tx.rank, hp]
  · rename_i hp; cases hs; simp [Tx.rank, hp]

theorem Tx.other_rank {batch : Nat} {s s' : Tx} {a : TxAct} {es : List TxEv} (h : s.Inv) (ha : a.steady = true) (hn : a ≠ .strand) (hp : s.pc ≠ .idle) (hs : s.step batch a = some (s', es)) : s'.rank ≤ s.rank := by
  obtain ⟨_, h2, ⟨l, h3⟩, h4⟩ := Tx.step_frame h ha hn hs
  have h4 := h4 hp
  have h5 : s'.q.items = [] → s.q.items = [] := by rw [h3]; intro hc; simp at hc; exact hc.1
  simp only [Tx.rank, h4, h2]
  cases hc : s.pc <;> simp only [] <;> (repeat' split) <;> (try omega) <;> (exfalso; rename_i h6 h7; first | exact h7 (h5 h6) | (rename_i h8; exact h7 (h5 h6)))

/-- Steps of the kernel before the outstanding write is completed, at most. -/
def Tx.left (s : Tx) : Nat := (s.writes.map fun w => (TxMsg.bytes w.bufs).length - w.done + 1).sum

/-- Until send_handler runs, the batch in flight stays what it is, and the kernel gets on with it. -/
theorem Tx.step_flight {batch : Nat} {s s' : Tx} {a : TxAct} {es : List TxEv} (h : s.Up) (hf : s.sendingMsgs ≠ []) (ha : a.steady = true) (hn : a.isHandler = false) (hs : s.step batch a = some (s', es)) :
    s'.sendingMsgs = s.sendingMsgs ∧ s.dones.length ≤ s'.dones.length ∧ (if a.kernel then s'.left < s.left else s'.left = s.left) := by
  have hown := h.inv.owner
  have h1 : 1 ≤ s.writes.length + s.dones.length := by
    by_cases hc : s.writes.length + s.dones.length = 0
    · exact absurd (h.inv.none (List.length_eq_zero_iff.mp (by omega)) (List.length_eq_zero_iff.mp (by omega))) hf
    · omega
  have h2 : s.writes.length + s.dones.length = 1 ∧ s.pc.owner = 0 ∧ s.sending = true := by
    cases hc : s.sending <;> simp only [hc, Bool.false_eq_true, if_true, if_false] at hown
    · omega
    · exact ⟨by omega, by omega, rfl⟩
  cases a with
  | send m prior fits =>
    simp only [Tx.step, Tx.send, Option.some.injEq] at hs
    (repeat' split at hs) <;> cases hs <;> exact ⟨rfl, Nat.le_refl _, rfl⟩
  | sendList ms prior =>
    simp only [Tx.step, Tx.sendList, Option.some.injEq] at hs
    (repeat' split at hs) <;> cases hs <;> exact ⟨rfl, Nat.le_refl _, rfl⟩
  | loadReady =>
    simp only [Tx.step] at hs
    split at hs <;> cases hs <;> exact ⟨rfl, Nat.le_refl _, rfl⟩
  | loadFlag =>
    simp only [Tx.step] at hs
    split at hs <;> cases hs <;> exact ⟨rfl, Nat.le_refl _, rfl⟩
  | runPosted =>
    simp only [Tx.step] at hs
    split at hs <;> cases hs <;> exact ⟨rfl, Nat.le_refl _, rfl⟩
  | strand =>
    have h3 := h2.2.1
    simp only [Tx.step, Tx.strand] at hs
    split at hs
    · cases hs
    · split at hs <;> cases hs <;> exact ⟨rfl, Nat.le_refl _, rfl⟩
    all_goals first
      | (rename_i hp; rw [hp] at h3; simp [TxPc.owner] at h3; done)
      | (cases hs; exact ⟨rfl, Nat.le_refl _, rfl⟩)
  | transfer i k =>
    simp only [Tx.step, Option.bind_eq_bind, Option.bind_eq_some_iff] at hs
    obtain ⟨w, hw, hs⟩ := hs
    obtain ⟨hw1, rfl⟩ := length_one_eq (by omega) hw
    split at hs
    · cases hs
    · rename_i hk
      cases hs
      refine ⟨rfl, Nat.le_refl _, ?_⟩
      simp only [List.length_drop] at hk
      simp [TxAct.kernel, Tx.left, hw1]
      omega
  | complete i ok =>
    have hk : ok = true := by simpa [TxAct.steady] using ha
    subst hk
    simp only [Tx.step, Option.bind_eq_bind, Option.bind_eq_some_iff] at hs
    obtain ⟨w, hw, hs⟩ := hs
    obtain ⟨hw1, rfl⟩ := length_one_eq (by omega) hw
    split at hs
    · cases hs
    · cases hs
      refine ⟨rfl, by simp, ?_⟩
      simp [TxAct.kernel, Tx.left, hw1]
  | handler i => simp [TxAct.isHandler] at hn
  | _ => simp [TxAct.steady] at ha

/-- do_send_msg is about to take messages out. -/
def Tx.Taking (s : Tx) : Prop := (s.pc = .test ∧ s.sending = false) ∨ s.pc = .move

/-- As long as nothing is handed to async_write although messages wait. -/
theorem Tx.step_wait {batch : Nat} {s s' : Tx} {a : TxAct} {es : List TxEv} (h : s.Up) (hf : s.sendingMsgs = []) (hq : s.q.items ≠ []) (ha : a.steady = true) (hs : s.step batch a = some (s', es))
    (hf' : s'.sendingMsgs = []) :
    s'.q.items ≠ [] ∧ (s.Taking → s'.Taking) ∧ (s.pc = .idle → a = .runPosted → s'.Taking) ∧
    (s.pc = .idle → a ≠ .runPosted → s'.pc = .idle ∧ s.posted ≤ s'.posted ∧ (a = .loadFlag → 0 < s'.posted) ∧ (a ≠ .loadFlag → s.atFlag ≤ s'.atFlag) ∧
      (a = .loadReady → 0 < s'.atFlag) ∧ (a ≠ .loadReady → s.atReady ≤ s'.atReady)) := by
  have hw : s.writes = [] := Classical.byContradiction fun hc => h.inv.some (.inl hc) hf
  have hd : s.dones = [] := Classical.byContradiction fun hc => h.inv.some (.inr hc) hf
  have hown := h.inv.owner
  have hidle : s.pc = .idle → s.sending = false := by
    intro hp
    rw [hw, hd, hp] at hown
    cases hc : s.sending
    · rfl
    · rw [hc] at hown; cases hown
  by_cases hn : a = .strand
  · subst hn
    simp only [Tx.step, Tx.strand] at hs
    split at hs
    · cases hs
    · rename_i hp
      split at hs <;> cases hs
      · rename_i h1
        exact ⟨hq, fun hj => by (rcases hj with hj | hj); exact absurd (h1.symm.trans hj.2) (by decide); exact absurd (hp.symm.trans hj) (by decide),
          fun hc => absurd (hp.symm.trans hc) (by decide), fun hc => absurd (hp.symm.trans hc) (by decide)⟩
      · exact ⟨hq, fun _ => .inr rfl, fun hc => absurd (hp.symm.trans hc) (by decide), fun hc => absurd (hp.symm.trans hc) (by decide)⟩
    · rename_i hp
      split at hs
      · rename_i h1; exact absurd (by simpa using h1) (moveOutBytes_nonempty s.q s.sendingMsgs batch hq)
      · rename_i h1; cases hs; exact absurd hf' (by simpa using h1)
    all_goals
      rename_i hp
      cases hs
      exact ⟨hq, fun hj => by (rcases hj with hj | hj); exact absurd (hp.symm.trans hj.1) (by decide); exact absurd (hp.symm.trans hj) (by decide),
        fun hc => absurd (hp.symm.trans hc) (by decide), fun hc => absurd (hp.symm.trans hc) (by decide)⟩
  · obtain ⟨_, h2, ⟨l, h3⟩, h4⟩ := Tx.step_frame h.inv ha hn hs
    refine ⟨by rw [h3]; simp [hq], ?_, ?_, ?_⟩
    · intro hj
      rcases hj with hj | hj
      · exact .inl ⟨by rw [h4 (by rw [hj.1]; decide)]; exact hj.1, by rw [h2]; exact hj.2⟩
      · exact .inr (by rw [h4 (by rw [hj]; decide)]; exact hj)
    · rintro hp rfl
      simp only [Tx.step] at hs
      split at hs
      · cases hs
      · cases hs; exact .inl ⟨rfl, hidle hp⟩
    · intro hp hr
      cases a with
      | send m prior fits =>
        simp only [Tx.step, Tx.send, Option.some.injEq] at hs
        (repeat' split at hs) <;> cases hs <;> simp [hp]
      | sendList ms prior =>
        simp only [Tx.step, Tx.sendList, Option.some.injEq] at hs
        (repeat' split at hs) <;> cases hs <;> simp [hp]
      | loadReady =>
        simp only [Tx.step] at hs
        split at hs
        · cases hs
        · cases hs; simp [hp, h.ready]
      | loadFlag =>
        simp only [Tx.step] at hs
        split at hs
        · cases hs
        · cases hs; simp [hp, hidle hp]
      | runPosted => exact absurd rfl hr
      | strand => exact absurd rfl hn
      | transfer i k => simp [Tx.step, hw] at hs
      | complete i ok => simp [Tx.step, hw] at hs
      | handler i => simp [Tx.step, hd] at hs
      | _ => simp [TxAct.steady] at ha

section
variable {batch : Nat} {s : Nat → Tx} {a : Nat → Option TxAct} {e : Nat → List TxEv}

/-- The executions looked at. -/
structure Tx.Going (batch : Nat) (s : Nat → Tx) (a : Nat → Option TxAct) (e : Nat → List TxEv) : Prop where
  exec : Exec (Tx.step batch) s a e
  up : (s 0).Up
  steady : ∀ n x, a n = some x → x.steady = true
  strand : Fair (Tx.step batch) s a (· == .strand)
  posted : Fair (Tx.step batch) s a (· == .runPosted)
  load : Fair (Tx.step batch) s a (· == .loadReady)
  flag : Fair (Tx.step batch) s a (· == .loadFlag)
  kernel : Fair (Tx.step batch) s a TxAct.kernel
  handler : Fair (Tx.step batch) s a TxAct.isHandler

theorem Tx.Going.all (h : Tx.Going batch s a e) (n : Nat) : (s n).Up := by
  induction n with
  | zero => exact h.up
  | succ n ih =>
    cases ha : a n with
    | none => rw [(h.exec.idle n ha).1]; exact ih
    | some x =>
      obtain ⟨es, hs, _⟩ := h.exec.next n x ha
      exact Tx.step_up ih (h.steady n x ha) hs

/-- The strand is free again and again. -/
theorem Tx.Going.free (h : Tx.Going batch s a e) : Often (fun n => (s n).pc = .idle) := by
  suffices ∀ r n, (s n).rank ≤ r → ∃ m, n ≤ m ∧ (s m).pc = .idle from fun n => this _ n (Nat.le_refl _)
  intro r
  induction r with
  | zero =>
    intro n hr
    refine ⟨n, Nat.le_refl _, ?_⟩
    cases hp : (s n).pc <;> simp only [Tx.rank, hp] at hr <;> (repeat' split at hr) <;> first | rfl | omega
  | succ r ih =>
    intro n hr
    apply Classical.byContradiction
    intro hc
    have hc : ∀ m, n ≤ m → (s m).pc ≠ .idle := fun m hm hp => hc ⟨m, hm, hp⟩
    have hmono : ∀ k, (s (n + k)).rank ≤ (s n).rank := by
      intro k
      induction k with
      | zero => exact Nat.le_refl _
      | succ k ihk =>
        refine Nat.le_trans ?_ ihk
        rw [← Nat.add_assoc]
        cases ha : a (n + k) with
        | none => rw [(h.exec.idle _ ha).1]; exact Nat.le_refl _
        | some x =>
          obtain ⟨es, hs, _⟩ := h.exec.next _ x ha
          by_cases hx : x = .strand
          · subst hx; exact Nat.le_of_lt (Tx.strand_rank hs)
          · exact Tx.other_rank (h.all _).inv (h.steady _ x ha) hx (hc _ (by omega)) hs
    obtain ⟨m, hm, x, hx, ha⟩ := h.strand (fun k => by
      refine ⟨n + k, by omega, .strand, rfl, ?_⟩
      have := hc (n + k) (by omega)
      simp only [Tx.step, Tx.strand]
      (repeat' split) <;> simp_all) n
    have hx : x = .strand := by simpa using hx
    subst hx
    obtain ⟨es, hs, _⟩ := h.exec.next _ _ ha
    have h1 := Tx.strand_rank hs
    have h2 := hmono (m - n)
    rw [show n + (m - n) = m by omega] at h2
    obtain ⟨m', h3, h4⟩ := ih (m + 1) (by omega)
    exact hc m' (by omega) h4

/-- A batch in flight is reported in the end. -/
theorem Tx.Going.reported (h : Tx.Going batch s a e) {n : Nat} (hf : (s n).sendingMsgs ≠ []) : ∃ m, n ≤ m ∧ ∃ i, a m = some (.handler i) := by
  apply Classical.byContradiction
  intro hc
  have hc : ∀ m x, n ≤ m → a m = some x → x.isHandler = false := by
    intro m x hm ha
    cases x with
    | handler i => exact absurd ⟨m, hm, i, ha⟩ hc
    | _ => rfl
  have hkeep : ∀ m, n ≤ m → (s m).sendingMsgs ≠ [] := by
    intro m hm
    obtain ⟨k, rfl⟩ := Nat.exists_eq_add_of_le hm
    clear hm
    induction k with
    | zero => exact hf
    | succ k ih =>
      rw [← Nat.add_assoc]
      cases ha : a (n + k) with
      | none => rw [(h.exec.idle _ ha).1]; exact ih
      | some x =>
        obtain ⟨es, hs, _⟩ := h.exec.next _ x ha
        rw [(Tx.step_flight (h.all _) ih (h.steady _ x ha) (hc _ x (by omega) ha) hs).1]
        exact ih
  have hstep : ∀ m, n ≤ m → (s m).dones.length ≤ (s (m + 1)).dones.length ∧ (s (m + 1)).left ≤ (s m).left ∧ ((∃ x, x.kernel = true ∧ a m = some x) → (s (m + 1)).left < (s m).left) := by
    intro m hm
    cases ha : a m with
    | none => rw [(h.exec.idle _ ha).1]; simp
    | some x =>
      obtain ⟨es, hs, _⟩ := h.exec.next _ x ha
      have h1 := Tx.step_flight (h.all _) (hkeep m hm) (h.steady _ x ha) (hc _ x hm ha) hs
      refine ⟨h1.2.1, ?_, ?_⟩
      · have := h1.2.2; split at this <;> omega
      · rintro ⟨y, hy, hxy⟩
        cases hxy
        have := h1.2.2
        rwa [if_pos hy] at this
  -- the write is completed
  have hdone : ∀ b m, n ≤ m → (s m).left ≤ b → ∃ m', m ≤ m' ∧ (s m').dones ≠ [] := by
    intro b
    induction b with
    | zero =>
      intro m hm hl
      refine ⟨m, Nat.le_refl _, fun hd => ?_⟩
      cases hw : (s m).writes with
      | nil => exact hkeep m hm ((h.all m).inv.none hw hd)
      | cons w ws => simp [Tx.left, hw] at hl
    | succ b ih =>
      intro m hm hl
      apply Classical.byContradiction
      intro hno
      have hno : ∀ m', m ≤ m' → (s m').dones = [] := fun m' hm' => Classical.byContradiction fun hd => hno ⟨m', hm', hd⟩
      have hmono : ∀ k, (s (m + k)).left ≤ (s m).left := by
        intro k
        induction k with
        | zero => exact Nat.le_refl _
        | succ k ihk => exact Nat.le_trans (hstep (m + k) (by omega)).2.1 ihk
      obtain ⟨m1, h1, h2⟩ := h.kernel (fun k => by
        refine ⟨m + k, by omega, ?_⟩
        cases hw : (s (m + k)).writes with
        | nil => exact absurd ((h.all _).inv.none hw (hno _ (by omega))) (hkeep _ (by omega))
        | cons w ws =>
          have h3 := (h.all (m + k)).inv.wbufs w (by simp [hw])
          by_cases hd : w.done = (TxMsg.bytes w.bufs).length
          · exact ⟨.complete 0 true, rfl, by simp [Tx.step, hw, hd]⟩
          · refine ⟨.transfer 0 1, rfl, ?_⟩
            have : 0 < (TxMsg.bytes w.bufs).length - w.done := by omega
            simp [Tx.step, hw]
            omega) m
      have h4 := (hstep m1 (by omega)).2.2 h2
      have h5 := hmono (m1 - m)
      rw [show m + (m1 - m) = m1 by omega] at h5
      obtain ⟨m', h6, h7⟩ := ih (m1 + 1) (by omega) (by omega)
      exact h7 (hno m' (by omega))
  obtain ⟨m1, h1, h2⟩ := hdone _ n (Nat.le_refl _) (Nat.le_refl _)
  have hd : ∀ k, 0 < (s (m1 + k)).dones.length := by
    intro k
    induction k with
    | zero => exact List.length_pos_iff.mpr h2
    | succ k ih => exact Nat.lt_of_lt_of_le ih (hstep (m1 + k) (by omega)).1
  obtain ⟨m, h3, x, hx, ha⟩ := h.handler (fun k => by
    obtain ⟨m, hm, hp⟩ := h.free (m1 + k)
    refine ⟨m, by omega, .handler 0, rfl, ?_⟩
    have h4 := hd (m - m1)
    rw [show m1 + (m - m1) = m by omega] at h4
    simp [Tx.step, hp, List.getElem?_eq_getElem h4]) m1
  rw [hc m x (by omega) ha] at hx
  cases hx

/-- Messages that wait are handed to async_write in the end. -/
theorem Tx.Going.taken (h : Tx.Going batch s a e) {n : Nat} (hq : (s n).q.items ≠ []) : ∃ m, n ≤ m ∧ (s m).sendingMsgs ≠ [] := by
  apply Classical.byContradiction
  intro hc
  have hf : ∀ m, n ≤ m → (s m).sendingMsgs = [] := fun m hm => Classical.byContradiction fun hd => hc ⟨m, hm, hd⟩
  have hkeep : ∀ k, (s (n + k)).q.items ≠ [] := by
    intro k
    induction k with
    | zero => exact hq
    | succ k ih =>
      rw [← Nat.add_assoc]
      cases ha : a (n + k) with
      | none => rw [(h.exec.idle _ ha).1]; exact ih
      | some x =>
        obtain ⟨es, hs, _⟩ := h.exec.next _ x ha
        exact (Tx.step_wait (h.all _) (hf _ (by omega)) ih (h.steady _ x ha) hs (hf _ (by omega))).1
  have hq : ∀ m, n ≤ m → (s m).q.items ≠ [] := fun m hm => by rw [show m = n + (m - n) by omega]; exact hkeep _
  -- do_send_msg never gets so far
  have hno : ∀ m, n ≤ m → ¬ (s m).Taking := by
    intro m hm hj
    have hall : ∀ k, (s (m + k)).Taking := by
      intro k
      induction k with
      | zero => exact hj
      | succ k ih =>
        rw [← Nat.add_assoc]
        cases ha : a (m + k) with
        | none => rw [(h.exec.idle _ ha).1]; exact ih
        | some x =>
          obtain ⟨es, hs, _⟩ := h.exec.next _ x ha
          exact (Tx.step_wait (h.all _) (hf _ (by omega)) (hq _ (by omega)) (h.steady _ x ha) hs (hf _ (by omega))).2.1 ih
    obtain ⟨m', h1, h2⟩ := h.free m
    have := hall (m' - m)
    rw [show m + (m' - m) = m' by omega] at this
    rcases this with this | this
    · exact absurd (h2.symm.trans this.1) (by decide)
    · exact absurd (h2.symm.trans this) (by decide)
  obtain ⟨m0, h0, hp0⟩ := h.free n
  have hidle : ∀ k, (s (m0 + k)).pc = .idle := by
    intro k
    induction k with
    | zero => exact hp0
    | succ k ih =>
      rw [← Nat.add_assoc]
      cases ha : a (m0 + k) with
      | none => rw [(h.exec.idle _ ha).1]; exact ih
      | some x =>
        obtain ⟨es, hs, _⟩ := h.exec.next _ x ha
        obtain ⟨_, _, h3, h4⟩ := Tx.step_wait (h.all _) (hf _ (by omega)) (hq _ (by omega)) (h.steady _ x ha) hs (hf _ (by omega))
        by_cases hx : x = .runPosted
        · exact absurd (h3 ih hx) (hno _ (by omega))
        · exact (h4 ih hx).1
  have hidle : ∀ m, m0 ≤ m → (s m).pc = .idle := fun m hm => by rw [show m = m0 + (m - m0) by omega]; exact hidle _
  have hstep : ∀ m x, m0 ≤ m → a m = some x → x ≠ .runPosted ∧ (s m).posted ≤ (s (m + 1)).posted ∧ (x = .loadFlag → 0 < (s (m + 1)).posted) ∧ (x ≠ .loadFlag → (s m).atFlag ≤ (s (m + 1)).atFlag) ∧
      (x = .loadReady → 0 < (s (m + 1)).atFlag) ∧ (x ≠ .loadReady → (s m).atReady ≤ (s (m + 1)).atReady) := by
    intro m x hm ha
    obtain ⟨es, hs, _⟩ := h.exec.next _ x ha
    obtain ⟨_, _, h3, h4⟩ := Tx.step_wait (h.all _) (hf _ (by omega)) (hq _ (by omega)) (h.steady _ x ha) hs (hf _ (by omega))
    by_cases hx : x = .runPosted
    · exact absurd (h3 (hidle m hm) hx) (hno _ (by omega))
    · exact ⟨hx, (h4 (hidle m hm) hx).2⟩
  have hposted : ∀ m, m0 ≤ m → (s m).posted = 0 := by
    intro m hm
    apply Classical.byContradiction
    intro hd
    have hall : ∀ k, 0 < (s (m + k)).posted := by
      intro k
      induction k with
      | zero => exact Nat.pos_of_ne_zero hd
      | succ k ih =>
        rw [← Nat.add_assoc]
        cases ha : a (m + k) with
        | none => rw [(h.exec.idle _ ha).1]; exact ih
        | some x => exact Nat.lt_of_lt_of_le ih (hstep _ x (by omega) ha).2.1
    obtain ⟨m', h1, x, hx, ha⟩ := h.posted (fun k => ⟨m + k, by omega, .runPosted, rfl, by
      have := hall k
      simp [Tx.step, hidle (m + k) (by omega), Nat.ne_of_gt this]⟩) m
    exact (hstep m' x (by omega) ha).1 (by simpa using hx)
  have hflag : ∀ m, m0 ≤ m → (s m).atFlag = 0 := by
    intro m hm
    apply Classical.byContradiction
    intro hd
    have hnl : ∀ m' x, m0 ≤ m' → a m' = some x → x ≠ .loadFlag := fun m' x hm' ha hx => by
      have := (hstep m' x hm' ha).2.2.1 hx
      rw [hposted _ (by omega)] at this
      omega
    have hall : ∀ k, 0 < (s (m + k)).atFlag := by
      intro k
      induction k with
      | zero => exact Nat.pos_of_ne_zero hd
      | succ k ih =>
        rw [← Nat.add_assoc]
        cases ha : a (m + k) with
        | none => rw [(h.exec.idle _ ha).1]; exact ih
        | some x => exact Nat.lt_of_lt_of_le ih ((hstep _ x (by omega) ha).2.2.2.1 (hnl _ x (by omega) ha))
    obtain ⟨m', h1, x, hx, ha⟩ := h.flag (fun k => ⟨m + k, by omega, .loadFlag, rfl, by
      have := hall k
      simp [Tx.step, Nat.ne_of_gt this]⟩) m
    exact hnl m' x (by omega) ha (by simpa using hx)
  have hready : ∀ m, m0 ≤ m → (s m).atReady = 0 := by
    intro m hm
    apply Classical.byContradiction
    intro hd
    have hnl : ∀ m' x, m0 ≤ m' → a m' = some x → x ≠ .loadReady := fun m' x hm' ha hx => by
      have := (hstep m' x hm' ha).2.2.2.2.1 hx
      rw [hflag _ (by omega)] at this
      omega
    have hall : ∀ k, 0 < (s (m + k)).atReady := by
      intro k
      induction k with
      | zero => exact Nat.pos_of_ne_zero hd
      | succ k ih =>
        rw [← Nat.add_assoc]
        cases ha : a (m + k) with
        | none => rw [(h.exec.idle _ ha).1]; exact ih
        | some x => exact Nat.lt_of_lt_of_le ih ((hstep _ x (by omega) ha).2.2.2.2.2 (hnl _ x (by omega) ha))
    obtain ⟨m', h1, x, hx, ha⟩ := h.load (fun k => ⟨m + k, by omega, .loadReady, rfl, by
      have := hall k
      simp [Tx.step, Nat.ne_of_gt this]⟩) m
    exact hnl m' x (by omega) ha (by simpa using hx)
  have hs0 := hidle m0 (Nat.le_refl _)
  have hsend : (s m0).sending = false := by
    have hown := (h.all m0).inv.owner
    have h1 : (s m0).writes = [] := Classical.byContradiction fun hc => (h.all m0).inv.some (.inl hc) (hf _ h0)
    have h2 : (s m0).dones = [] := Classical.byContradiction fun hc => (h.all m0).inv.some (.inr hc) (hf _ h0)
    rw [h1, h2, hs0] at hown
    cases hc : (s m0).sending
    · rfl
    · rw [hc] at hown; cases hown
  rcases (h.all m0).live.wake rfl (h.all m0).ready (hq m0 h0) with h1 | h1 | h1 | h1 | h1 | h1
  · exact absurd (hsend.symm.trans h1) (by decide)
  · rw [hposted _ (Nat.le_refl _)] at h1; omega
  · exact absurd (hs0.symm.trans h1) (by decide)
  · exact absurd (hs0.symm.trans h1) (by decide)
  · rw [hready _ (Nat.le_refl _)] at h1; omega
  · rw [hflag _ (Nat.le_refl _)] at h1; omega

/-- Every finite part of the execution is a run. -/
theorem Tx.Going.run (h : Tx.Going batch s a e) (n : Nat) : ∃ as, Tx.Run batch (s 0) as (s n) (e n) ∧ ∀ x ∈ as, x.steady = true := by
  induction n with
  | zero => rw [h.exec.start]; exact ⟨[], .nil _, by simp⟩
  | succ n ih =>
    obtain ⟨as, h1, h2⟩ := ih
    cases ha : a n with
    | none => rw [(h.exec.idle n ha).1, (h.exec.idle n ha).2]; exact ⟨as, h1, h2⟩
    | some x =>
      obtain ⟨es, hs, he⟩ := h.exec.next n x ha
      rw [he]
      refine ⟨as ++ [x], .snoc _ _ _ _ _ _ _ h1 hs, ?_⟩
      intro y hy
      rcases List.mem_append.mp hy with hy | hy
      · exact h2 y hy
      · rw [List.mem_singleton.mp hy]; exact h.steady n x ha

/-- What a steady step makes observable. -/
theorem Tx.step_plain {batch : Nat} {s s' : Tx} {a : TxAct} {es : List TxEv} (h : s.Up) (ha : a.steady = true) (hs : s.step batch a = some (s', es)) :
    (∀ ev ∈ es, PlainEv ev) ∧ ∀ ms, TxEv.sendError ms ∉ es := by
  have hp : ∀ ms r, ∀ ev ∈ setPromises ms r, PlainEv ev ∧ ∀ l, ev ≠ TxEv.sendError l := by
    intro ms r ev hev
    simp only [setPromises, List.mem_filterMap, Option.map_eq_some_iff] at hev
    obtain ⟨m, _, p, _, rfl⟩ := hev
    simp [PlainEv]
  cases a with
  | send m prior fits =>
    have hpr : prior = false := by simpa [TxAct.steady] using ha
    subst hpr
    simp only [Tx.step, Tx.send, Option.some.injEq] at hs
    (repeat' split at hs) <;> cases hs <;> simp [PlainEv]
  | sendList ms prior =>
    have hpr : prior = false := by simpa [TxAct.steady] using ha
    subst hpr
    simp only [Tx.step, Tx.sendList, Option.some.injEq] at hs
    (repeat' split at hs) <;> cases hs <;> simp [PlainEv]
  | loadReady =>
    simp only [Tx.step] at hs
    split at hs <;> cases hs <;> simp
  | loadFlag =>
    simp only [Tx.step] at hs
    split at hs <;> cases hs <;> simp
  | runPosted =>
    simp only [Tx.step] at hs
    split at hs <;> cases hs <;> simp
  | strand =>
    simp only [Tx.step, Tx.strand] at hs
    (repeat' split at hs) <;> cases hs <;> simp [PlainEv]
  | transfer i k =>
    simp only [Tx.step, Option.bind_eq_bind, Option.bind_eq_some_iff] at hs
    obtain ⟨w, _, hs⟩ := hs
    split at hs <;> cases hs <;> simp
  | complete i ok =>
    simp only [Tx.step, Option.bind_eq_bind, Option.bind_eq_some_iff] at hs
    obtain ⟨w, _, hs⟩ := hs
    split at hs <;> cases hs <;> simp
  | handler i =>
    simp only [Tx.step, Option.bind_eq_bind, Option.bind_eq_some_iff] at hs
    obtain ⟨d, hd, hs⟩ := hs
    have hok := h.live.dones rfl d (List.mem_of_getElem? hd)
    split at hs
    · cases hs
    · simp only [Tx.handler, hok, if_true] at hs
      cases hs
      refine ⟨fun ev hev => ?_, fun ms hev => ?_⟩ <;> rcases List.mem_append.mp hev with hev | hev
      · exact (hp _ _ ev hev).1
      · rw [List.mem_singleton.mp hev]; simp [PlainEv]
      · exact (hp _ _ _ hev).2 ms rfl
      · simp at hev
  | _ => simp [TxAct.steady] at ha

theorem Tx.Going.plain (h : Tx.Going batch s a e) (n : Nat) : (∀ ev ∈ e n, PlainEv ev) ∧ ∀ ms, TxEv.sendError ms ∉ e n := by
  induction n with
  | zero => rw [h.exec.start]; simp
  | succ n ih =>
    cases ha : a n with
    | none => rw [(h.exec.idle n ha).2]; exact ih
    | some x =>
      obtain ⟨es, hs, he⟩ := h.exec.next n x ha
      have h1 := Tx.step_plain (h.all n) (h.steady n x ha) hs
      rw [he]
      refine ⟨fun ev hev => ?_, fun ms hev => ?_⟩ <;> rcases List.mem_append.mp hev with hev | hev
      · exact ih.1 ev hev
      · exact h1.1 ev hev
      · exact ih.2 ms hev
      · exact h1.2 ms hev

/-- What was in the send buffer and what was accepted since is what was reported, what is in flight and what waits, in this order. -/
theorem Tx.Going.order (h : Tx.Going batch s a e) (h0 : (s 0).sendingMsgs = []) (n : Nat) :
    (s 0).q.items ++ acceptedMsgs (e n) = sentMsgs (e n) ++ (s n).sendingMsgs ++ (s n).q.items ∧ handedMsgs (e n) = sentMsgs (e n) ++ (s n).sendingMsgs := by
  obtain ⟨as, hr, _⟩ := h.run n
  have hm := (Tx.run_inv h.up.inv hr).2
  have h1 := monitor_plain hm (h.plain n).1
  have h2 := monitor_flight hm (h.plain n).2
  rw [Tx.flight_getD, Tx.flight_getD, h0, List.nil_append] at h2
  rw [h2] at h1
  exact ⟨h1, h2⟩

theorem Tx.Going.grow (h : Tx.Going batch s a e) (n k : Nat) : acceptedMsgs (e n) <+: acceptedMsgs (e (n + k)) ∧ sentMsgs (e n) <+: sentMsgs (e (n + k)) := by
  induction k with
  | zero => exact ⟨List.prefix_refl _, List.prefix_refl _⟩
  | succ k ih =>
    rw [← Nat.add_assoc]
    cases ha : a (n + k) with
    | none => rw [(h.exec.idle _ ha).2]; exact ih
    | some x =>
      obtain ⟨es, _, he⟩ := h.exec.next _ x ha
      rw [he, acceptedMsgs_append, sentMsgs_append]
      exact ⟨ih.1.trans (List.prefix_append _ _), ih.2.trans (List.prefix_append _ _)⟩

/-- Everything accepted so far is reported in the end. -/
theorem Tx.Going.count (h : Tx.Going batch s a e) (h0 : (s 0).sendingMsgs = []) (t d : Nat) :
    ∀ n, t ≤ ((s 0).q.items ++ acceptedMsgs (e n)).length → t ≤ (sentMsgs (e n)).length + d → ∃ m, n ≤ m ∧ t ≤ (sentMsgs (e m)).length := by
  induction d with
  | zero => intro n _ h2; exact ⟨n, Nat.le_refl _, h2⟩
  | succ d ih =>
    intro n h1 h2
    by_cases h3 : t ≤ (sentMsgs (e n)).length
    · exact ⟨n, Nat.le_refl _, h3⟩
    have h4 : ∃ m, n ≤ m ∧ (s m).sendingMsgs ≠ [] := by
      by_cases h5 : (s n).sendingMsgs = []
      · refine h.taken (n := n) fun h6 => ?_
        rw [(h.order h0 n).1, h5, h6] at h1
        simp at h1
        omega
      · exact ⟨n, Nat.le_refl _, h5⟩
    obtain ⟨m1, h5, h6⟩ := h4
    obtain ⟨m2, h7, i, ha⟩ := h.reported h6
    obtain ⟨es, hs, he⟩ := h.exec.next m2 _ ha
    have hs' := hs
    simp only [Tx.step, Option.bind_eq_bind, Option.bind_eq_some_iff] at hs'
    obtain ⟨x, hd, _⟩ := hs'
    have hmem := List.mem_of_getElem? hd
    have h8 := (Tx.handler_ok hd ((h.all m2).live.dones rfl x hmem) hs).1
    have h9 : (s m2).sendingMsgs ≠ [] := (h.all m2).inv.some (.inr (List.ne_nil_of_mem hmem))
    have h10 := List.length_pos_iff.mpr h9
    have g := h.grow n (m2 - n)
    rw [show n + (m2 - n) = m2 by omega] at g
    have g' := h.grow n (m2 + 1 - n)
    rw [show n + (m2 + 1 - n) = m2 + 1 by omega] at g'
    obtain ⟨m, h11, h12⟩ := ih (m2 + 1) (by
      have := g'.1.length_le
      rw [List.length_append] at h1 ⊢
      omega) (by
      have := g.2.length_le
      rw [he, sentMsgs_append, h8, List.length_append]
      omega)
    exact ⟨m, by omega, h12⟩

end

/-- C22, for ever: from the moment a link comes up, with no failure and no shutdown, threads may go on sending (without priority) for ever. If each of the activities involved is not put off for ever -- a
thread inside send_msg, a posted do_send_msg, do_send_msg, the kernel, send_handler -- then every message accepted before or after the link came up is reported as sent at some time, in the order of
acceptance, with nothing left out before it; and its bytes and those of all messages before it are on the wire then. -/
theorem C22_no_starvation (batch : Nat) (as0 : List TxAct) (s0 : Tx) (es0 es1 : List TxEv) (s : Nat → Tx) (a : Nat → Option TxAct) (e : Nat → List TxEv)
    (h0 : Tx.Run batch Tx.init as0 s0 es0) (hu : Tx.step batch s0 .linkUp = some (s 0, es1)) (he : Exec (Tx.step batch) s a e) (ha : ∀ n x, a n = some x → x.steady = true)
    (f1 : Fair (Tx.step batch) s a (· == .loadReady)) (f2 : Fair (Tx.step batch) s a (· == .loadFlag)) (f3 : Fair (Tx.step batch) s a (· == .runPosted))
    (f4 : Fair (Tx.step batch) s a (· == .strand)) (f5 : Fair (Tx.step batch) s a TxAct.kernel) (f6 : Fair (Tx.step batch) s a TxAct.isHandler) (n : Nat) :
    ∃ m, s0.q.items ++ acceptedMsgs (e n) <+: sentMsgs (e m) ∧ TxMsg.bytes (s0.q.items ++ acceptedMsgs (e n)) <+: (s m).wire := by
  have hr1 : Tx.Run batch Tx.init (as0 ++ [.linkUp]) (s 0) (es0 ++ es1) := .snoc _ _ _ _ _ _ _ h0 hu
  have hst : (s 0).ready = true ∧ (s 0).q = s0.q ∧ (s 0).wire = [] ∧ (s 0).writes = [] ∧ (s 0).dones = [] := by
    simp only [Tx.step] at hu
    split at hu
    · cases hu
    · rename_i hc
      have hna := noAsync_true (s := s0) (by simpa using fun hf => hc (Or.inr hf))
      simp only [Option.some.injEq, Prod.mk.injEq] at hu
      rw [← hu.1]
      exact ⟨rfl, rfl, rfl, hna.2.2.1, hna.2.2.2⟩
  have hup : (s 0).Up := by
    refine ⟨(Tx.run_inv Tx.init_inv hr1).1, ?_, hst.1⟩
    have := Tx.run_live hr1
    simpa [failedSinceUp] using this
  have h : Tx.Going batch s a e := ⟨he, hup, ha, f4, f3, f1, f2, f5, f6⟩
  have hs0 : (s 0).sendingMsgs = [] := hup.inv.none hst.2.2.2.1 hst.2.2.2.2
  rw [← hst.2.1]
  obtain ⟨m, h1, h2⟩ := h.count hs0 ((s 0).q.items ++ acceptedMsgs (e n)).length _ n (Nat.le_refl _) (Nat.le_add_left _ _)
  have h3 : (s 0).q.items ++ acceptedMsgs (e n) <+: sentMsgs (e m) := by
    have g := (h.grow n (m - n)).1
    rw [show n + (m - n) = m by omega] at g
    have h4 : (s 0).q.items ++ acceptedMsgs (e n) <+: (s 0).q.items ++ acceptedMsgs (e m) := (List.prefix_append_right_inj _).mpr g
    have h5 : sentMsgs (e m) <+: (s 0).q.items ++ acceptedMsgs (e m) := by
      rw [(h.order hs0 m).1, List.append_assoc]; exact List.prefix_append _ _
    exact List.prefix_of_prefix_length_le h4 h5 h2
  refine ⟨m, h3, ?_⟩
  obtain ⟨l, hl⟩ := h3
  obtain ⟨as, hr, hst2⟩ := h.run m
  have hw := Tx.run_wire hup.inv hr (by
    intro x hx
    have := hst2 x hx
    constructor
    · rintro i rfl; simp [TxAct.steady] at this
    · rintro rfl; simp [TxAct.steady] at this)
  rw [hst.2.2.1, (h.order hs0 m).2, ← hl] at hw
  have hu0 : (s 0).unwritten = [] := by simp [Tx.unwritten, hst.2.2.2.1]
  rw [hu0, List.nil_append, List.nil_append, TxMsg.bytes_append, TxMsg.bytes_append] at hw
  have hlen : (s m).unwritten.length ≤ (TxMsg.bytes (s m).sendingMsgs).length := by
    have hown := (h.all m).inv.owner
    cases hws : (s m).writes with
    | nil => simp [Tx.unwritten, hws]
    | cons w ws =>
      have : ws = [] := by
        rw [hws] at hown
        have : (if (s m).sending then 1 else 0) ≤ 1 := by split <;> omega
        simp at hown
        exact List.length_eq_zero_iff.mp (by omega)
      subst this
      have h6 := ((h.all m).inv.wbufs w (by simp [hws])).1
      simp [Tx.unwritten, hws, h6]
  have h7 : (s m).wire <+: TxMsg.bytes ((s 0).q.items ++ acceptedMsgs (e n)) ++ TxMsg.bytes l ++ TxMsg.bytes (s m).sendingMsgs := ⟨_, hw⟩
  refine List.prefix_of_prefix_length_le ?_ h7 ?_
  · rw [List.append_assoc]; exact List.prefix_append _ _
  · have := congrArg List.length hw
    simp only [List.length_append] at this
    omega

/-! A sender that sends one message after the other for ever, and how one without fairness or with priority starves a message. -/

/-- Actions taken in turn, for ever. -/
def fairCycle : List TxAct := [.send ⟨[1], none⟩ false true, .loadReady, .loadFlag, .runPosted, .strand, .strand, .transfer 0 1, .complete 0 true, .handler 0, .strand, .strand, .strand]

/-- The states in between, without what was written. -/
def fairState (cyc : List TxAct) (base : Tx) (r : Nat) (w : Bytes) : Tx := match Tx.exec 0 base (cyc.take r) with
  | some (s, _) => { s with wire := w }
  | none => base

def fairEvents (cyc : List TxAct) (base : Tx) (r : Nat) : List TxEv := match Tx.exec 0 base (cyc.take r), cyc[r]? with
  | some (s, _), some a => match s.step 0 a with
    | some (_, es) => es
    | none => []
  | _, _ => []

def fairTrace (c : Nat) (ev : Nat → List TxEv) : Nat → List TxEv
  | 0 => []
  | n + 1 => fairTrace c ev n ++ ev (n % c)

/-- The socket right after its link came up. -/
def fairBase : Tx := { Tx.init with ready := true, atReady := 1 }

theorem fairCycle_step (r : Nat) (hr : r < 12) (w : Bytes) : ∃ x, fairCycle[r]? = some x ∧ x.steady = true ∧
    (fairState fairCycle fairBase r w).step 0 x = some (fairState fairCycle fairBase ((r + 1) % 12) (if r = 6 then w ++ [1] else w), fairEvents fairCycle fairBase r) := by
  have : r = 0 ∨ r = 1 ∨ r = 2 ∨ r = 3 ∨ r = 4 ∨ r = 5 ∨ r = 6 ∨ r = 7 ∨ r = 8 ∨ r = 9 ∨ r = 10 ∨ r = 11 := by omega
  rcases this with rfl | rfl | rfl | rfl | rfl | rfl | rfl | rfl | rfl | rfl | rfl | rfl <;> exact ⟨_, rfl, rfl, rfl⟩

/-- A periodic schedule in which an action of a class occurs is fair to it. -/
theorem fair_cycle {step : Tx → TxAct → Option (Tx × List TxEv)} {s : Nat → Tx} {a : Nat → Option TxAct} {c : TxAct → Bool} (p r : Nat) (x : TxAct) (hp : 0 < p) (hc : c x = true)
    (ha : ∀ k, a (p * k + r) = some x) : Fair step s a c := by
  intro _ n
  refine ⟨p * n + r, ?_, x, hc, ha n⟩
  have : 1 * n ≤ p * n := Nat.mul_le_mul_right n hp
  omega

/-- Non-vacuity of `C22_no_starvation`: one message after the other, for ever; each of them is sent. -/
theorem C22_no_starvation_demo : ∃ (s : Nat → Tx) (a : Nat → Option TxAct) (e : Nat → List TxEv), Tx.step 0 Tx.init .linkUp = some (s 0, []) ∧ Exec (Tx.step 0) s a e ∧ (∀ n x, a n = some x → x.steady = true) ∧
    Fair (Tx.step 0) s a (· == .loadReady) ∧ Fair (Tx.step 0) s a (· == .loadFlag) ∧ Fair (Tx.step 0) s a (· == .runPosted) ∧
    Fair (Tx.step 0) s a (· == .strand) ∧ Fair (Tx.step 0) s a TxAct.kernel ∧ Fair (Tx.step 0) s a TxAct.isHandler ∧
    (∀ k, (acceptedMsgs (e (12 * k))).length = k) ∧ ∀ k, ∃ m, k ≤ (sentMsgs (e m)).length := by
  let s : Nat → Tx := fun n => fairState fairCycle fairBase (n % 12) (List.replicate ((n + 5) / 12) 1)
  let a : Nat → Option TxAct := fun n => fairCycle[n % 12]?
  let e := fairTrace 12 (fairEvents fairCycle fairBase)
  have hacc : ∀ k, (acceptedMsgs (e (12 * k))).length = k := by
    intro k
    induction k with
    | zero => rfl
    | succ k ih =>
      show (acceptedMsgs (fairTrace 12 (fairEvents fairCycle fairBase) (12 * k + 12))).length = k + 1
      have hm : ∀ i, i < 12 → (12 * k + i) % 12 = i := fun i hi => by omega
      simp only [fairTrace, acceptedMsgs_append, List.length_append]
      simp only [hm 11 (by omega), hm 10 (by omega), hm 9 (by omega), hm 8 (by omega), hm 7 (by omega), hm 6 (by omega), hm 5 (by omega), hm 4 (by omega), hm 3 (by omega), hm 2 (by omega), hm 1 (by omega),
        show (12 * k) % 12 = 0 by omega]
      have : (acceptedMsgs (fairTrace 12 (fairEvents fairCycle fairBase) (12 * k))).length = k := ih
      rw [this]
      rfl
  have hex : Exec (Tx.step 0) s a e := by
    refine ⟨rfl, fun n hn => ?_, fun n x hx => ?_⟩
    · obtain ⟨x, hx, _⟩ := fairCycle_step (n % 12) (Nat.mod_lt _ (by decide)) []
      exact absurd (hx.symm.trans hn) (by simp)
    · obtain ⟨y, hy, _, hs⟩ := fairCycle_step (n % 12) (Nat.mod_lt _ (by decide)) (List.replicate ((n + 5) / 12) 1)
      cases hy.symm.trans hx
      refine ⟨_, ?_, rfl⟩
      show (fairState fairCycle fairBase (n % 12) (List.replicate ((n + 5) / 12) 1)).step 0 x = some (fairState fairCycle fairBase ((n + 1) % 12) (List.replicate ((n + 1 + 5) / 12) 1), _)
      rw [hs, show (n % 12 + 1) % 12 = (n + 1) % 12 by omega]
      split
      · rw [show (n + 1 + 5) / 12 = (n + 5) / 12 + 1 by omega, List.replicate_succ']
      · rw [show (n + 1 + 5) / 12 = (n + 5) / 12 by omega]
  have hst : ∀ n x, a n = some x → x.steady = true := by
    intro n x hx
    obtain ⟨y, hy, h1, _⟩ := fairCycle_step (n % 12) (Nat.mod_lt _ (by decide)) []
    cases hy.symm.trans hx
    exact h1
  have hat : ∀ r k, r < 12 → a (12 * k + r) = fairCycle[r]? := by
    intro r k hr
    show fairCycle[(12 * k + r) % 12]? = _
    rw [show (12 * k + r) % 12 = r by omega]
  have f1 : Fair (Tx.step 0) s a (· == .loadReady) := fair_cycle 12 1 .loadReady (by decide) rfl (fun k => hat 1 k (by decide))
  have f2 : Fair (Tx.step 0) s a (· == .loadFlag) := fair_cycle 12 2 .loadFlag (by decide) rfl (fun k => hat 2 k (by decide))
  have f3 : Fair (Tx.step 0) s a (· == .runPosted) := fair_cycle 12 3 .runPosted (by decide) rfl (fun k => hat 3 k (by decide))
  have f4 : Fair (Tx.step 0) s a (· == .strand) := fair_cycle 12 4 .strand (by decide) rfl (fun k => hat 4 k (by decide))
  have f5 : Fair (Tx.step 0) s a TxAct.kernel := fair_cycle 12 6 (.transfer 0 1) (by decide) rfl (fun k => hat 6 k (by decide))
  have f6 : Fair (Tx.step 0) s a TxAct.isHandler := fair_cycle 12 8 (.handler 0) (by decide) rfl (fun k => hat 8 k (by decide))
  refine ⟨s, a, e, rfl, hex, hst, f1, f2, f3, f4, f5, f6, hacc, fun k => ?_⟩
  obtain ⟨m, hm, _⟩ := C22_no_starvation 0 [] Tx.init [] [] s a e (.nil _) rfl hex hst f1 f2 f3 f4 f5 f6 (12 * k)
  refine ⟨m, ?_⟩
  have := hm.length_le
  rw [List.length_append, hacc k] at this
  omega

/-- The socket with one message being written and another one waiting. -/
def starveBase : Tx := match Tx.exec 0 Tx.init [.linkUp, .send ⟨[2], none⟩ false true, .send ⟨[1], none⟩ true true, .loadReady, .loadFlag, .runPosted, .strand, .strand] with
  | some (s, _) => s
  | none => Tx.init

def starveCycle : List TxAct := [.send ⟨[1], none⟩ true true, .loadReady, .loadFlag, .transfer 0 1, .complete 0 true, .handler 0, .strand]

theorem starveCycle_step (r : Nat) (hr : r < 7) (w : Bytes) : ∃ x, starveCycle[r]? = some x ∧ (x = .send ⟨[1], none⟩ true true ∨ x.steady = true) ∧
    (fairState starveCycle starveBase r w).step 0 x = some (fairState starveCycle starveBase ((r + 1) % 7) (if r = 3 then w ++ [1] else w), fairEvents starveCycle starveBase r) ∧
    ⟨[2], none⟩ ∈ (fairState starveCycle starveBase r w).q.items ∧ (fairState starveCycle starveBase r w).posted = 0 := by
  have : r = 0 ∨ r = 1 ∨ r = 2 ∨ r = 3 ∨ r = 4 ∨ r = 5 ∨ r = 6 := by omega
  rcases this with rfl | rfl | rfl | rfl | rfl | rfl | rfl
  · exact ⟨_, rfl, .inl rfl, rfl, List.contains_iff_mem.mp (by rfl), rfl⟩
  all_goals exact ⟨_, rfl, .inr rfl, rfl, List.contains_iff_mem.mp (by rfl), rfl⟩

/-- Priority starves: in an equally fair execution (one message per write) in which one thread goes on sending with priority, a message accepted before stays in the send buffer for ever. -/
theorem C22_fails_priority : ∃ (as0 : List TxAct) (es0 : List TxEv) (s : Nat → Tx) (a : Nat → Option TxAct) (e : Nat → List TxEv), Tx.Run 0 Tx.init as0 (s 0) es0 ∧ (s 0).ready = true ∧ failedSinceUp as0 = false ∧
    Exec (Tx.step 0) s a e ∧ (∀ n x, a n = some x → x = .send ⟨[1], none⟩ true true ∨ x.steady = true) ∧
    Fair (Tx.step 0) s a (· == .loadReady) ∧ Fair (Tx.step 0) s a (· == .loadFlag) ∧ Fair (Tx.step 0) s a (· == .runPosted) ∧
    Fair (Tx.step 0) s a (· == .strand) ∧ Fair (Tx.step 0) s a TxAct.kernel ∧ Fair (Tx.step 0) s a TxAct.isHandler ∧
    ⟨[2], none⟩ ∈ acceptedMsgs es0 ∧ ∀ n, ⟨[2], none⟩ ∈ (s n).q.items := by
  let s : Nat → Tx := fun n => fairState starveCycle starveBase (n % 7) (List.replicate ((n + 3) / 7) 1)
  let a : Nat → Option TxAct := fun n => starveCycle[n % 7]?
  let e := fairTrace 7 (fairEvents starveCycle starveBase)
  have hex : Exec (Tx.step 0) s a e := by
    refine ⟨rfl, fun n hn => ?_, fun n x hx => ?_⟩
    · obtain ⟨x, hx, _⟩ := starveCycle_step (n % 7) (Nat.mod_lt _ (by decide)) []
      exact absurd (hx.symm.trans hn) (by simp)
    · obtain ⟨y, hy, _, hs, _⟩ := starveCycle_step (n % 7) (Nat.mod_lt _ (by decide)) (List.replicate ((n + 3) / 7) 1)
      cases hy.symm.trans hx
      refine ⟨_, ?_, rfl⟩
      show (fairState starveCycle starveBase (n % 7) (List.replicate ((n + 3) / 7) 1)).step 0 x = some (fairState starveCycle starveBase ((n + 1) % 7) (List.replicate ((n + 1 + 3) / 7) 1), _)
      rw [hs, show (n % 7 + 1) % 7 = (n + 1) % 7 by omega]
      split
      · rw [show (n + 1 + 3) / 7 = (n + 3) / 7 + 1 by omega, List.replicate_succ']
      · rw [show (n + 1 + 3) / 7 = (n + 3) / 7 by omega]
  have hat : ∀ r k, r < 7 → a (7 * k + r) = starveCycle[r]? := by
    intro r k hr
    show starveCycle[(7 * k + r) % 7]? = _
    rw [show (7 * k + r) % 7 = r by omega]
  have hrun := Tx.exec_run (batch := 0) (s := Tx.init) (s' := s 0) (es := [.accept [⟨[2], none⟩] false, .accept [⟨[1], none⟩] true, .handOff [⟨[1], none⟩]])
    (as := [.linkUp, .send ⟨[2], none⟩ false true, .send ⟨[1], none⟩ true true, .loadReady, .loadFlag, .runPosted, .strand, .strand]) (by rfl)
  refine ⟨_, _, s, a, e, hrun, rfl, rfl, hex, ?_, fair_cycle 7 1 .loadReady (by decide) rfl (fun k => hat 1 k (by decide)), fair_cycle 7 2 .loadFlag (by decide) rfl (fun k => hat 2 k (by decide)), ?_,
    fair_cycle 7 6 .strand (by decide) rfl (fun k => hat 6 k (by decide)), fair_cycle 7 3 (.transfer 0 1) (by decide) rfl (fun k => hat 3 k (by decide)),
    fair_cycle 7 5 (.handler 0) (by decide) rfl (fun k => hat 5 k (by decide)), by decide, fun n => (starveCycle_step (n % 7) (Nat.mod_lt _ (by decide)) _).choose_spec.2.2.2.1⟩
  · intro n x hx
    obtain ⟨y, hy, h1, _⟩ := starveCycle_step (n % 7) (Nat.mod_lt _ (by decide)) []
    cases hy.symm.trans hx
    exact h1
  · intro ho
    obtain ⟨m, _, x, hx, hs⟩ := ho 0
    have hx : x = .runPosted := by simpa using hx
    subst hx
    have : (s m).posted = 0 := (starveCycle_step (m % 7) (Nat.mod_lt _ (by decide)) _).choose_spec.2.2.2.2
    simp [Tx.step, this] at hs

end StAsio
