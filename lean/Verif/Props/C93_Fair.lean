import Verif.Props.C93_Protocols
import Verif.Props.C56_Fair
/-!
C93 for ever: with any pair, a sender that never stops sending, a receiver that never stops receiving.
-/
set_option autoImplicit false
namespace StAsio

/-- What an action means for the sending socket. -/
def GPipe.txAct {K : Codec} (_ : GPipe K) : PAct → Option TxAct
  | .send call fits => match K.pack call with
    | some (some bs) => some (if call.single then .send ⟨bs.flatten, none⟩ false fits else .sendList (bs.map (fun b => ⟨b, none⟩)) false)
    | _ => none
  | .tx a => some a
  | _ => none

/-- What an action means for the receiving socket. -/
def GPipe.rxAct {K : Codec} (cwf : Bool) (s : GPipe K) : PAct → Option RAct
  | .rx a => some a
  | .net k => match s.conn.ph with
    | .reading cap got _ => match readSome K.ops cwf s.conn cap got ((s.tx.wire.drop s.off).take k) with
      | some conn => if readDone conn.ph then some (.read (newMsgs s.conn.log conn.log)) else none
      | none => none
    | _ => none
  | _ => none

theorem GPipe.step_tx {K : Codec} {cwf : Bool} {batch limit : Nat} {s s' : GPipe K} {a : PAct} {es : List PEv} (hs : s.step cwf batch limit a = some (s', es)) :
    match GPipe.txAct s a with
      | none => s'.tx = s.tx
      | some y => y.steady = true ∧ ∃ fs, s.tx.step batch y = some (s'.tx, fs) := by
  cases a with
  | send call fits =>
    simp only [GPipe.step] at hs
    simp only [GPipe.txAct]
    split at hs
    · next h => rw [h]; cases hs; rfl
    · next h => rw [h]; cases hs; rfl
    · next bs h =>
      rw [h]
      cases hs
      simp only
      cases hc : call.single
      · exact ⟨rfl, _, by simp only [Tx.step]; rfl⟩
      · exact ⟨rfl, _, by simp only [Tx.step]; rfl⟩
  | tx a =>
    simp only [GPipe.step] at hs
    split at hs
    · next hh =>
      obtain ⟨r, h1, h2⟩ := Option.map_eq_some_iff.mp hs
      cases h2
      refine ⟨?_, r.2, h1⟩
      cases a with
      | complete i ok => cases ok <;> simp_all [TxAct.healthy, TxAct.steady]
      | _ => simp_all [TxAct.healthy, TxAct.steady]
    · cases hs
  | net k =>
    simp only [GPipe.step] at hs
    simp only [GPipe.txAct]
    (repeat' split at hs) <;> first | (cases hs; done) | (cases hs; rfl) | (obtain ⟨r, h1, h2⟩ := Option.map_eq_some_iff.mp hs; cases h2; rfl)
  | rx a =>
    simp only [GPipe.step] at hs
    simp only [GPipe.txAct]
    split at hs
    · obtain ⟨r, h1, h2⟩ := Option.map_eq_some_iff.mp hs; cases h2; rfl
    · cases hs

theorem GPipe.step_rx {K : Codec} {cwf : Bool} {batch limit : Nat} {s s' : GPipe K} {a : PAct} {es : List PEv} (hs : s.step cwf batch limit a = some (s', es)) :
    match GPipe.rxAct cwf s a with
      | none => s'.rx = s.rx ∧ handledItems es = []
      | some y => (y.healthy = true ∨ ∃ ms, y = .read ms ∧ a.isNet = true) ∧ ∃ fs, s.rx.step limit y = some (s'.rx, fs) ∧ handledItems es = rAccepted fs := by
  cases a with
  | send call fits =>
    simp only [GPipe.step] at hs
    simp only [GPipe.rxAct]
    (repeat' split at hs) <;> cases hs <;> refine ⟨rfl, ?_⟩ <;> (try split) <;> rfl
  | tx a =>
    simp only [GPipe.step] at hs
    simp only [GPipe.rxAct]
    split at hs
    · obtain ⟨r, h1, h2⟩ := Option.map_eq_some_iff.mp hs; cases h2; exact ⟨rfl, rfl⟩
    · cases hs
  | net k =>
    simp only [GPipe.step] at hs
    simp only [GPipe.rxAct]
    split at hs
    · next cap got want hrd hph =>
      simp only [hph]
      split at hs
      · split at hs
        · next h => simp only [h]; cases hs; exact ⟨rfl, rfl⟩
        · next conn h =>
          simp only [h]
          split at hs
          · next hd =>
            simp only [hd, if_true]
            obtain ⟨r, h1, h2⟩ := Option.map_eq_some_iff.mp hs
            cases h2
            exact ⟨.inr ⟨_, rfl, rfl⟩, r.2, h1, (handledItems_rxEv r.2).1⟩
          · next hd =>
            simp only [hd]
            cases hs
            exact ⟨rfl, rfl⟩
      · cases hs
    · cases hs
  | rx a =>
    simp only [GPipe.step] at hs
    simp only [GPipe.rxAct]
    split at hs
    · next hh =>
      obtain ⟨r, h1, h2⟩ := Option.map_eq_some_iff.mp hs
      cases h2
      exact ⟨.inl hh, r.2, h1, (handledItems_rxEv r.2).1⟩
    · cases hs

/-- Bytes read are never given back; only the network reads. -/
theorem GPipe.step_off {K : Codec} {cwf : Bool} {batch limit : Nat} {s s' : GPipe K} {a : PAct} {es : List PEv} (hb : s'.bad = false) (hs : s.step cwf batch limit a = some (s', es)) :
    if a.isNet then s.off < s'.off else s'.off = s.off := by
  cases a with
  | send call fits =>
    simp only [GPipe.step] at hs
    (repeat' split at hs) <;> cases hs <;> simp [PAct.isNet]
  | tx a =>
    simp only [GPipe.step] at hs
    split at hs
    · obtain ⟨r, h1, h2⟩ := Option.map_eq_some_iff.mp hs; cases h2; simp [PAct.isNet]
    · cases hs
  | net k =>
    simp only [GPipe.step] at hs
    (repeat' split at hs) <;> first | (cases hs; done) | (cases hs; simp at hb; done) | (cases hs; simp only [PAct.isNet, if_true]; omega) | (obtain ⟨r, h1, h2⟩ := Option.map_eq_some_iff.mp hs; cases h2; simp only [PAct.isNet, if_true]; omega)
  | rx a =>
    simp only [GPipe.step] at hs
    split at hs
    · obtain ⟨r, h1, h2⟩ := Option.map_eq_some_iff.mp hs; cases h2; simp [PAct.isNet]
    · cases hs

/-- While the receiver waits for data and there is some, the network can deliver. -/
theorem GPipe.net_can {K : Codec} {cwf : Bool} {w : Item → Bytes} {Ok : Item → Prop} {Shown : List Item → Nat → List Bytes → Prop} {Inv : Bytes → Conn K.σ → Prop} {batch limit : Nat}
    (hK : K.Reads cwf w Ok Shown Inv) {s : GPipe K} {es : List PEv} (h : s.Good w Ok Inv batch limit es)
    (hrd : s.rx.rd = .reading) (h3 : s.off < s.tx.wire.length) : (s.step cwf batch limit (.net 1)).isSome = true := by
  obtain ⟨cap, got, want, hph, hw, hg⟩ := hK.reading _ _ h.inv
  obtain ⟨conn, ms, hc, _, _⟩ := h.net hK (k := 1) hph (by omega) (by omega) (by omega) (by omega)
  simp only [GPipe.step, hrd, hph]
  rw [if_pos ⟨by omega, by omega, by omega, by omega⟩, hc]
  simp only
  split
  · simp only [Rx.step, hrd, ne_eq, not_true_eq_false, if_false]
    split
    · rfl
    · split <;> rfl
  · rfl

theorem GPipe.step_wire {K : Codec} {cwf : Bool} {batch limit : Nat} {s s' : GPipe K} {a : PAct} {es : List PEv} (hi : s.tx.Inv) (hs : s.step cwf batch limit a = some (s', es)) :
    s.tx.wire <+: s'.tx.wire := by
  cases a with
  | send call fits =>
    simp only [GPipe.step] at hs
    split at hs
    · cases hs; exact List.prefix_refl _
    · cases hs; exact List.prefix_refl _
    · next bs h =>
      cases hs
      cases hc : call.single
      · simp only [Bool.false_eq_true, if_false]
        rw [(Tx.sendList_step hi _).2.1]
        exact List.prefix_refl _
      · simp only [if_true]
        rw [(Tx.send_step s.tx _ fits).2.1]
        exact List.prefix_refl _
  | tx a =>
    simp only [GPipe.step] at hs
    split at hs
    · next hh =>
      obtain ⟨r, h1, h2⟩ := Option.map_eq_some_iff.mp hs
      cases h2
      exact (Tx.healthy_step hh h1).2.2.1
    · cases hs
  | net k =>
    have := GPipe.step_tx hs
    simp only [GPipe.txAct] at this
    rw [this]
    exact List.prefix_refl _
  | rx a =>
    have := GPipe.step_tx hs
    simp only [GPipe.txAct] at this
    rw [this]
    exact List.prefix_refl _

/-- None of the activities of a working link is put off for ever, and on_msg_handle, called again and again, accepts again and again. -/
structure GPipe.FairRun {K : Codec} (cwf : Bool) (batch limit : Nat) (s : Nat → GPipe K) (a : Nat → Option PAct) : Prop where
  /-- a thread inside a send function goes on -/
  loadReady : Fair (GPipe.step cwf batch limit) s a (PAct.isTx (· == .loadReady))
  loadFlag : Fair (GPipe.step cwf batch limit) s a (PAct.isTx (· == .loadFlag))
  /-- the sender's strand goes on: a posted do_send_msg, do_send_msg itself -/
  runPosted : Fair (GPipe.step cwf batch limit) s a (PAct.isTx (· == .runPosted))
  strand : Fair (GPipe.step cwf batch limit) s a (PAct.isTx (· == .strand))
  /-- the sender's kernel takes bytes and completes writes -/
  kernel : Fair (GPipe.step cwf batch limit) s a (PAct.isTx TxAct.kernel)
  /-- send_handler is called -/
  handler : Fair (GPipe.step cwf batch limit) s a (PAct.isTx TxAct.isHandler)
  /-- the network delivers -/
  net : Fair (GPipe.step cwf batch limit) s a PAct.isNet
  /-- the receiving chain goes on: after messages were stored, before the next read, when it polls a full receive buffer -/
  loadDisp : Fair (GPipe.step cwf batch limit) s a (PAct.isRx (· == .loadDisp))
  handled : Fair (GPipe.step cwf batch limit) s a (PAct.isRx (· == .handled))
  checkTimer : Fair (GPipe.step cwf batch limit) s a (PAct.isRx (· == .checkTimer))
  resume : Fair (GPipe.step cwf batch limit) s a (PAct.isRx (· == .resume))
  /-- the receiver's dispatching goes on: a posted do_dispatch_msg, do_dispatch_msg itself, the retry timer -/
  run : Fair (GPipe.step cwf batch limit) s a (PAct.isRx (· == .run))
  begin : Fair (GPipe.step cwf batch limit) s a (PAct.isRx (· == .begin))
  dis : Fair (GPipe.step cwf batch limit) s a (PAct.isRx (· == .dis))
  dtimer : Fair (GPipe.step cwf batch limit) s a (PAct.isRx (· == .dtimer))
  /-- the receiving application accepts messages -/
  accepts : Fair (GPipe.step cwf batch limit) s a (PAct.isRx (· == .ret true))

section
variable {K : Codec} {cwf : Bool} {batch limit : Nat} {s : Nat → GPipe K} {a : Nat → Option PAct} {e : Nat → List PEv}

theorem GPipe.fair_tx (c' : TxAct → Bool) (hh : ∀ y, c' y = true → y.healthy = true) (hf : Fair (GPipe.step cwf batch limit) s a (PAct.isTx c')) :
    Fair (Tx.step batch) (fun n => (s n).tx) (fun n => (a n).bind (GPipe.txAct (s n))) c' := by
  refine Fair.project (proj := GPipe.tx) hf c' (fun n y hy hs => ⟨.tx y, hy, ?_⟩) (fun n x hx _ => ?_)
  · simp only [GPipe.step, hh y hy, if_true, Option.isSome_map]
    exact hs
  · cases x with
    | tx y => exact ⟨y, hx, rfl⟩
    | _ => simp [PAct.isTx] at hx

theorem GPipe.fair_rx (c' : RAct → Bool) (hh : ∀ y, c' y = true → y.healthy = true) (hf : Fair (GPipe.step cwf batch limit) s a (PAct.isRx c')) :
    Fair (Rx.step limit) (fun n => (s n).rx) (fun n => (a n).bind (GPipe.rxAct cwf (s n))) c' := by
  refine Fair.project (proj := GPipe.rx) hf c' (fun n y hy hs => ⟨.rx y, hy, ?_⟩) (fun n x hx _ => ?_)
  · simp only [GPipe.step, hh y hy, if_true, Option.isSome_map]
    exact hs
  · cases x with
    | rx y => exact ⟨y, hx, rfl⟩
    | _ => simp [PAct.isRx] at hx

theorem GPipe.exec_tx (he : Exec (GPipe.step cwf batch limit) s a e) :
    Exec (Tx.step batch) (fun n => (s n).tx) (fun n => (a n).bind (GPipe.txAct (s n))) (partTrace (Tx.step batch) (fun n => (s n).tx) (fun n => (a n).bind (GPipe.txAct (s n)))) := by
  refine Exec.project (proj := GPipe.tx) he (fun n x es _ hs => ?_)
  have := GPipe.step_tx hs
  cases h : GPipe.txAct (s n) x with
  | none => rw [h] at this; exact this
  | some y => rw [h] at this; exact this.2

theorem GPipe.exec_rx (he : Exec (GPipe.step cwf batch limit) s a e) :
    Exec (Rx.step limit) (fun n => (s n).rx) (fun n => (a n).bind (GPipe.rxAct cwf (s n))) (partTrace (Rx.step limit) (fun n => (s n).rx) (fun n => (a n).bind (GPipe.rxAct cwf (s n)))) := by
  refine Exec.project (proj := GPipe.rx) he (fun n x es _ hs => ?_)
  have := GPipe.step_rx hs
  cases h : GPipe.rxAct cwf (s n) x with
  | none => rw [h] at this; exact this.1
  | some y =>
    rw [h] at this
    obtain ⟨_, fs, h, _⟩ := this
    exact ⟨fs, h⟩

theorem GPipe.trace_rx (he : Exec (GPipe.step cwf batch limit) s a e) (n : Nat) :
    rAccepted (partTrace (Rx.step limit) (fun n => (s n).rx) (fun n => (a n).bind (GPipe.rxAct cwf (s n))) n) = handledItems (e n) := by
  induction n with
  | zero => rw [he.start]; rfl
  | succ n ih =>
    cases ha : a n with
    | none => simp only [partTrace, ha, Option.bind_none]; rw [ih, (he.idle n ha).2]
    | some x =>
      obtain ⟨es, hs, h1⟩ := he.next n x ha
      have h2 := GPipe.step_rx hs
      rw [h1, handledItems_append, ← ih]
      simp only [partTrace, ha, Option.bind_some]
      split at h2
      · next h3 => simp only [h3]; rw [h2.2, List.append_nil]
      · next y h3 =>
        obtain ⟨_, fs, h4, h5⟩ := h2
        simp only [h3, h4]
        rw [rAccepted_append, h5]

/-- The part of `GPipe.FairRun` that concerns the network and the receiver. -/
structure GPipe.FairRx {K : Codec} (cwf : Bool) (batch limit : Nat) (s : Nat → GPipe K) (a : Nat → Option PAct) : Prop where
  net : Fair (GPipe.step cwf batch limit) s a PAct.isNet
  loadDisp : Fair (GPipe.step cwf batch limit) s a (PAct.isRx (· == .loadDisp))
  handled : Fair (GPipe.step cwf batch limit) s a (PAct.isRx (· == .handled))
  checkTimer : Fair (GPipe.step cwf batch limit) s a (PAct.isRx (· == .checkTimer))
  resume : Fair (GPipe.step cwf batch limit) s a (PAct.isRx (· == .resume))
  run : Fair (GPipe.step cwf batch limit) s a (PAct.isRx (· == .run))
  begin : Fair (GPipe.step cwf batch limit) s a (PAct.isRx (· == .begin))
  dis : Fair (GPipe.step cwf batch limit) s a (PAct.isRx (· == .dis))
  dtimer : Fair (GPipe.step cwf batch limit) s a (PAct.isRx (· == .dtimer))
  accepts : Fair (GPipe.step cwf batch limit) s a (PAct.isRx (· == .ret true))

theorem GPipe.init_parts {t : GPipe K} (h0 : GPipe.init K = some t) : t.tx = Tx.up ∧ t.rx = { Rx.init with rd := .reading } := by
  simp only [GPipe.init, Option.bind_eq_bind, Option.pure_def] at h0
  rw [Option.bind_eq_some_iff] at h0
  obtain ⟨k, _, h0⟩ := h0
  simp only [Option.some.injEq] at h0
  rw [← h0]
  exact ⟨rfl, rfl⟩

/-- Whatever the sender does, the receiver reads everything that is on its way, and everything received is handled. -/
theorem GPipe.reads_on {w : Item → Bytes} {Ok : Item → Prop} {Shown : List Item → Nat → List Bytes → Prop} {Inv : Bytes → Conn K.σ → Prop} {May : SendCall → Prop}
    (hK : K.Reads cwf w Ok Shown Inv) (hP : K.Packs w Ok May) (hlim : 0 < limit)
    (h0 : GPipe.init K = some (s 0)) (ha : ∀ n x, a n = some x → ∀ call fits, x = .send call fits → May call)
    (he : Exec (GPipe.step cwf batch limit) s a e) (hf : GPipe.FairRx cwf batch limit s a) :
    (∀ n, (s n).Good w Ok Inv batch limit (e n)) ∧ (∀ n m, n ≤ m → (s n).tx.wire.length ≤ (s m).tx.wire.length) ∧
      (∀ n, (s n).off < (s n).tx.wire.length → ∃ m, n ≤ m ∧ (s n).off < (s m).off) ∧
      ∃ re : Nat → List Bytes, (∀ n, Shown (sentItems (e n)) (s n).off (re n)) ∧ ∀ n, ∃ m, re n <+: handledItems (e m) := by
  obtain ⟨s1, h1, hg0⟩ := GPipe.init_good hK batch limit
  rw [h0] at h1
  cases h1
  have hg : ∀ n, (s n).Good w Ok Inv batch limit (e n) :=
    he.holds (fun t es => t.Good w Ok Inv batch limit es) hg0 (fun n x es hx h hs => GPipe.step_good hK hP h (ha n x hx) hs)
  have hinit := GPipe.init_parts h0
  have hwire : ∀ n m, n ≤ m → (s n).tx.wire.length ≤ (s m).tx.wire.length := by
    intro n m hm
    obtain ⟨k, rfl⟩ := Nat.exists_eq_add_of_le hm
    clear hm
    induction k with
    | zero => exact Nat.le_refl _
    | succ k ih =>
      refine Nat.le_trans ih ?_
      cases hx : a (n + k) with
      | none => rw [← Nat.add_assoc, (he.idle _ hx).1]; exact Nat.le_refl _
      | some x =>
        obtain ⟨es, hs, _⟩ := he.next _ x hx
        exact (GPipe.step_wire (hg _).tx_inv hs).length_le
  have hrx := GPipe.exec_rx he
  have hacc := GPipe.trace_rx he
  have hlink : Rx.Run limit Rx.init [.linkUp] (s 0).rx [] := by
    rw [hinit.2]
    exact Rx.run_one (by simp [Rx.step, Rx.init])
  have hrok : ∀ n y, (a n).bind (GPipe.rxAct cwf (s n)) = some y → y.healthy = true ∨ ∃ x ms, a n = some x ∧ y = .read ms ∧ x.isNet = true := by
    intro n y hy
    cases hx : a n with
    | none => simp [hx] at hy
    | some x =>
      simp only [hx, Option.bind_some] at hy
      obtain ⟨es, hs, _⟩ := he.next n x hx
      have := GPipe.step_rx hs
      rw [hy] at this
      rcases this.1 with h | ⟨ms, h, h'⟩
      · exact .inl h
      · exact .inr ⟨x, ms, rfl, h, h'⟩
  have hrok' : ∀ n y, (a n).bind (GPipe.rxAct cwf (s n)) = some y → y ≠ .loseDispatch ∧ y ≠ .pop ∧ y ≠ .popAll ∧ y ≠ .reset := by
    intro n y hy
    rcases hrok n y hy with h | ⟨x, ms, _, rfl, _⟩
    · cases y <;> simp_all [RAct.healthy]
    · simp
  have hord := Rx.fair_order hrx ⟨(hg 0).rx_inv, (hg 0).dlost⟩ (by
    intro n y hy
    have := hrok' n y hy
    cases y <;> simp_all [RAct.steady])
  generalize partTrace (Rx.step limit) (fun n => (s n).rx) (fun n => (a n).bind (GPipe.rxAct cwf (s n))) = re at hrx hacc hord
  have hlist : ∀ n, rReceived (re n) = handledItems (e n) ++ (s n).rx.cur.toList ++ (s n).rx.buf.items := by
    intro n
    have := rMonitor_plain (hord n).2.2 (hord n).2.1
    rw [hacc, hinit.2] at this
    simpa [Rx.ideal, Rx.init, Q.init] using this
  have hrec : ∀ n, Shown (sentItems (e n)) (s n).off (rReceived (re n)) := by
    intro n
    rw [hlist]
    exact ((hg n).order hK).1
  have hhandled : ∀ n, ∃ m, rReceived (re n) <+: handledItems (e m) := by
    intro n
    have f1 := GPipe.fair_rx _ (by intro y hy; cases eq_of_beq hy; rfl) hf.loadDisp
    have f2 := GPipe.fair_rx _ (by intro y hy; cases eq_of_beq hy; rfl) hf.run
    have f3 := GPipe.fair_rx _ (by intro y hy; cases eq_of_beq hy; rfl) hf.begin
    have f4 := GPipe.fair_rx _ (by intro y hy; cases eq_of_beq hy; rfl) hf.dis
    have f5 := GPipe.fair_rx _ (by intro y hy; cases eq_of_beq hy; rfl) hf.dtimer
    have f6 := GPipe.fair_rx _ (by intro y hy; cases eq_of_beq hy; rfl) hf.accepts
    obtain ⟨m, hm⟩ := C26_no_starvation_partial limit [.linkUp] [] _ _ _ hlink (hg 0).dlost hrx hrok' f1 f2 f3 f4 f5 f6 n
    refine ⟨m, ?_⟩
    rw [hacc, hinit.2] at hm
    simpa [Rx.init, Q.init] using hm
  have hgrow : ∀ n m, n ≤ m → handledItems (e n) <+: handledItems (e m) ∧ ∃ l, sentItems (e m) = sentItems (e n) ++ l := by
    intro n m hm
    obtain ⟨es, h⟩ := he.grow_le hm
    rw [h, handledItems_append, sentItems_append]
    exact ⟨List.prefix_append _ _, _, rfl⟩
  have hoff1 : ∀ n, (s n).off ≤ (s (n + 1)).off ∧ ((∃ x, a n = some x ∧ x.isNet = true) → (s n).off < (s (n + 1)).off) := by
    intro n
    cases hx : a n with
    | none => rw [(he.idle n hx).1]; exact ⟨Nat.le_refl _, by simp⟩
    | some x =>
      obtain ⟨es, hs, _⟩ := he.next n x hx
      have := GPipe.step_off (hg (n + 1)).bad hs
      refine ⟨by split at this <;> omega, ?_⟩
      rintro ⟨y, hy, h2⟩
      cases hy
      rw [if_pos h2] at this
      exact this
  have hoff : ∀ n m, n ≤ m → (s n).off ≤ (s m).off := by
    intro n m hm
    obtain ⟨k, rfl⟩ := Nat.exists_eq_add_of_le hm
    clear hm
    induction k with
    | zero => exact Nat.le_refl _
    | succ k ih => exact Nat.le_trans ih (hoff1 _).1
  have hread : ∀ n, (s n).off < (s n).tx.wire.length → ∃ m, n ≤ m ∧ (s n).off < (s m).off := by
    intro n hn
    apply Classical.byContradiction
    intro hc
    have hsame : ∀ m, n ≤ m → (s m).off = (s n).off := by
      intro m hm
      have h1 := hoff n m hm
      have h2 : ¬ (s n).off < (s m).off := fun h => hc ⟨m, hm, h⟩
      omega
    have hno : ∀ m x, n ≤ m → a m = some x → x.isNet = false := by
      intro m x hm hx
      cases hnet : x.isNet with
      | false => rfl
      | true =>
        have h1 := (hoff1 m).2 ⟨x, hx, hnet⟩
        have h2 := hsame m hm
        have h3 := hsame (m + 1) (by omega)
        omega
    have hok : ∀ m y, n ≤ m → (a m).bind (GPipe.rxAct cwf (s m)) = some y → y.healthy = true := by
      intro m y hm hy
      rcases hrok m y hy with h | ⟨x, ms, hx, _, h'⟩
      · exact h
      · rw [hno m x hm hx] at h'; cases h'
    have hstill : ∀ m, n ≤ m → rReceived (re m) = rReceived (re n) := by
      intro m hm
      obtain ⟨k, rfl⟩ := Nat.exists_eq_add_of_le hm
      clear hm
      induction k with
      | zero => rfl
      | succ k ih =>
        rw [← ih, ← Nat.add_assoc]
        cases hy : (a (n + k)).bind (GPipe.rxAct cwf (s (n + k))) with
        | none => rw [(hrx.idle _ hy).2]
        | some y =>
          obtain ⟨fs, h1, h2⟩ := hrx.next _ y hy
          rw [h2, rReceived_append, Rx.no_received (hok _ y (by omega) hy) h1, List.append_nil]
    obtain ⟨m0, hm0⟩ := hhandled n
    have hempty : ∀ m, n + m0 ≤ m → (s m).rx.rd ≠ .off ∧ (s m).rx.available limit = true := by
      intro m hm
      refine ⟨(hg m).rd, ?_⟩
      have h1 := hm0.length_le
      have h2 := (hgrow m0 m (by omega)).1.length_le
      have h3 := congrArg List.length (hlist m)
      rw [hstill m (by omega)] at h3
      simp only [List.length_append] at h3
      have h4 : (s m).rx.buf.items = [] := List.length_eq_zero_iff.mp (by omega)
      have h5 := (hg m).rx_inv.exact
      rw [Q.Exact, h4] at h5
      simp only [sumSize, List.map_nil, List.sum_nil] at h5
      simp only [Rx.available, decide_eq_true_eq]
      omega
    have hok' : ∀ m y, n + m0 ≤ m → (a m).bind (GPipe.rxAct cwf (s m)) = some y → y.healthy = true := fun m y hm => hok m y (by omega)
    have g1 := GPipe.fair_rx _ (by intro y hy; cases eq_of_beq hy; rfl) hf.loadDisp
    have g2 := GPipe.fair_rx _ (by intro y hy; cases eq_of_beq hy; rfl) hf.handled
    have g3 := GPipe.fair_rx _ (by intro y hy; cases eq_of_beq hy; rfl) hf.checkTimer
    have g4 := GPipe.fair_rx _ (by intro y hy; cases eq_of_beq hy; rfl) hf.resume
    obtain ⟨m1, hm1, hrd⟩ := Rx.reads hrx hok' hempty g1 g2 g3 g4
    have hstay := hrx.stays (ok := fun _ y => y.healthy = true) (n0 := m1) (fun k y hk hy => hok k y (by omega) hy) (J := fun _ => True) (fun _ _ => trivial) (fun t => t.rd = .reading) hrd
      (fun t t' x es _ _ hp hx hs => by
        have := Rx.rd_step hx hs
        simp only [hp] at this
        simpa using this)
    obtain ⟨m2, hm2, x, hx, hax⟩ := hf.net (fun k => ⟨m1 + k, by omega, .net 1, rfl, GPipe.net_can hK (hg _) (hstay _ (by omega)) (by
      rw [hsame _ (by omega)]
      exact Nat.lt_of_lt_of_le hn (hwire n _ (by omega)))⟩) n
    rw [hno m2 x hm2 hax] at hx
    cases hx
  exact ⟨hg, hwire, hread, fun n => rReceived (re n), hrec, hhandled⟩

/-- The generic form: `Past items ms` says that `ms` contains everything of `items`. -/
theorem GPipe.no_starvation {w : Item → Bytes} {Ok : Item → Prop} {Shown : List Item → Nat → List Bytes → Prop} {Inv : Bytes → Conn K.σ → Prop} {May : SendCall → Prop}
    {Past : List Item → List Bytes → Prop} (hK : K.Reads cwf w Ok Shown Inv) (hP : K.Packs w Ok May)
    (hpast : ∀ x y n ms, Shown (x ++ y) n ms → ((x.map w).flatten).length ≤ n → Past x ms) (hmono : ∀ x ms ms', Past x ms → ms <+: ms' → Past x ms') (hlim : 0 < limit)
    (h0 : GPipe.init K = some (s 0)) (ha : ∀ n x, a n = some x → ∀ call fits, x = .send call fits → May call)
    (he : Exec (GPipe.step cwf batch limit) s a e) (hf : GPipe.FairRun cwf batch limit s a) (n : Nat) :
    ∃ m, Past (sentItems (e n)) (handledItems (e m)) := by
  obtain ⟨hg, hwire, hread, re, hrec, hhandled⟩ := GPipe.reads_on hK hP hlim h0 ha he ⟨hf.net, hf.loadDisp, hf.handled, hf.checkTimer, hf.resume, hf.run, hf.begin, hf.dis, hf.dtimer, hf.accepts⟩
  have hinit := GPipe.init_parts h0
  -- the sender
  have htx := GPipe.exec_tx he
  have hsteady : ∀ n y, (a n).bind (GPipe.txAct (s n)) = some y → y.steady = true := by
    intro n y hy
    cases hx : a n with
    | none => simp [hx] at hy
    | some x =>
      simp only [hx, Option.bind_some] at hy
      obtain ⟨es, hs, _⟩ := he.next n x hx
      have := GPipe.step_tx hs
      rw [hy] at this
      exact this.1
  have hsent : ∀ n, ∃ m, (((sentItems (e n)).map w).flatten).length ≤ (s m).tx.wire.length := by
    intro n
    have f1 := GPipe.fair_tx _ (by intro y hy; cases eq_of_beq hy; rfl) hf.loadReady
    have f2 := GPipe.fair_tx _ (by intro y hy; cases eq_of_beq hy; rfl) hf.loadFlag
    have f3 := GPipe.fair_tx _ (by intro y hy; cases eq_of_beq hy; rfl) hf.runPosted
    have f4 := GPipe.fair_tx _ (by intro y hy; cases eq_of_beq hy; rfl) hf.strand
    have f5 := GPipe.fair_tx _ (by intro y hy; cases y <;> simp_all [TxAct.kernel, TxAct.healthy]) hf.kernel
    have f6 := GPipe.fair_tx _ (by intro y hy; cases y <;> simp_all [TxAct.isHandler, TxAct.healthy]) hf.handler
    have hu : Tx.step batch Tx.init .linkUp = some ((s 0).tx, []) := by rw [hinit.1]; exact Tx.up_step batch
    obtain ⟨m, _, hm⟩ := C22_no_starvation batch [] Tx.init [] [] _ _ _ (.nil _) hu htx hsteady f1 f2 f3 f4 f5 f6 n
    have hgo : Tx.Going batch _ _ _ := ⟨htx, ⟨(hg 0).tx_inv, by simpa [failedSinceUp] using Tx.run_live (.snoc _ _ _ _ _ _ _ (.nil _) hu), (hg 0).ready⟩, hsteady, f4, f3, f1, f2, f5, f6⟩
    refine ⟨m, ?_⟩
    obtain ⟨as, hr, hst⟩ := hgo.run n
    have hw := Tx.run_wire (hg 0).tx_inv hr (by
      intro x hx
      have := hst x hx
      constructor
      · rintro i rfl; simp [TxAct.steady] at this
      · rintro rfl; simp [TxAct.steady] at this)
    have hmon := monitor_plain (Tx.run_inv (hg 0).tx_inv hr).2 (hgo.plain n).1
    have h2 := (hg n).stream
    have h3 := hm.length_le
    simp only [hinit.1] at hw hmon
    have h4 : Tx.up.ideal.waiting = [] := rfl
    have h5 : Tx.up.wire ++ Tx.up.unwritten = [] := rfl
    have h6 : Tx.init.q.items = [] := rfl
    rw [h4, List.nil_append] at hmon
    rw [h5, List.nil_append] at hw
    rw [h6, List.nil_append, hmon, TxMsg.bytes_append, ← hw] at h3
    rw [← h2, ← List.append_assoc]
    exact h3
  have hgrow : ∀ n m, n ≤ m → handledItems (e n) <+: handledItems (e m) ∧ ∃ l, sentItems (e m) = sentItems (e n) ++ l := by
    intro n m hm
    obtain ⟨es, h⟩ := he.grow_le hm
    rw [h, handledItems_append, sentItems_append]
    exact ⟨List.prefix_append _ _, _, rfl⟩
  obtain ⟨m1, hm1⟩ := hsent n
  obtain ⟨k, hk, hm2⟩ := reaches (f := fun k => (s (n + m1 + k)).off) (t := ((sentItems (e n)).map w).flatten.length) (by
    intro k hlt
    obtain ⟨m, h1, h2⟩ := hread (n + m1 + k) (Nat.lt_of_lt_of_le hlt (Nat.le_trans hm1 (hwire m1 _ (by omega))))
    exact ⟨m - (n + m1), by omega, by rw [show n + m1 + (m - (n + m1)) = m by omega]; exact h2⟩) 0
  obtain ⟨_, l, hl⟩ := hgrow n (n + m1 + k) (by omega)
  obtain ⟨m3, hm3⟩ := hhandled (n + m1 + k)
  have h1 := hrec (n + m1 + k)
  rw [hl] at h1
  exact ⟨m3, hmono _ _ _ (hpast _ _ _ _ h1 hm2) hm3⟩

end

theorem Proto.inBytes_append (P : Proto) (x y : List Item) (n : Nat) (hn : ((x.map P.wire).flatten).length ≤ n) : x.flatMap P.seen <+: P.inBytes (x ++ y) n := by
  induction x generalizing n with
  | nil => exact List.nil_prefix
  | cons b x ih =>
    simp only [List.map_cons, List.flatten_cons, List.length_append] at hn
    simp only [List.cons_append, Proto.inBytes]
    rw [if_neg (by omega), List.flatMap_cons]
    exact List.prefix_append_right_inj _ |>.mpr (ih _ (by omega))

/-- C93, for ever: a link that works with the pair `P`, threads of the sender that go on sending for ever, a receiver that may refuse messages for a while and whose receive buffer may be
full for a while, bytes that arrive in any pieces. If none of the activities involved is put off for ever, then everything sent is accepted by the receiver's on_msg_handle at some
time, after what was sent before it, unchanged. -/
theorem C93_no_starvation (P : Proto) (hv : P.Valid) (nd : Bool) (junk : Nat → Bytes) (hj : ∀ n, (junk n).length = n) (raw : Bytes) (hraw : raw.length = P.rawLen) (cwf : Bool)
    (batch limit : Nat) (hlim : 0 < limit) (s : Nat → GPipe (P.codec nd junk raw)) (a : Nat → Option PAct) (e : Nat → List PEv) (h0 : GPipe.init (P.codec nd junk raw) = some (s 0))
    (ha : ∀ n x, a n = some x → x.Allowed P) (he : Exec (GPipe.step cwf batch limit) s a e) (hf : GPipe.FairRun cwf batch limit s a) (n : Nat) :
    ∃ m, P.Contains (sentItems (e n)) (handledItems (e m)) := by
  obtain ⟨Inv, hK⟩ := P.reads hv nd cwf junk hj raw hraw
  refine GPipe.no_starvation (Past := P.Contains) hK (P.packs hv nd junk raw) ?_ ?_ hlim h0 (fun n x hx call fits hc => by have := ha n x hx; subst hc; exact this) he hf n
  · intro x y n ms h1 h2
    cases P with
    | stream c =>
      simp only [Proto.Shown, Proto.Contains, Proto.wire, List.map_id, List.flatten_append] at h1 h2 ⊢
      rw [h1.1, List.take_append, List.take_of_length_le h2]
      exact List.prefix_append _ _
    | _ => simp only [Proto.Shown] at h1; subst h1; exact Proto.inBytes_append _ _ _ _ h2
  · intro x ms ms' h1 h2
    cases P with
    | stream c =>
      simp only [Proto.Contains] at h1 ⊢
      obtain ⟨t, rfl⟩ := h2
      rw [List.flatten_append]
      exact List.IsPrefix.trans h1 (List.prefix_append _ _)
    | _ => exact List.IsPrefix.trans h1 h2

theorem GPipe.run_play {K : Codec} {cwf : Bool} {batch limit : Nat} {s0 s : GPipe K} {as : List PAct} {es : List PEv} (h : GPipe.Run cwf batch limit s0 as s es) :
    play (GPipe.step cwf batch limit) s0 as as.length = (s, es) ∧ ∀ i : Fin as.length, (GPipe.step cwf batch limit (play (GPipe.step cwf batch limit) s0 as i).1 as[i]).isSome = true := by
  induction h with
  | nil => exact ⟨rfl, fun i => absurd i.2 (by simp)⟩
  | snoc s1 s2 as x es fs hr hs ih =>
    obtain ⟨h1, h2⟩ := ih
    have h3 := play_le (GPipe.step cwf batch limit) s0 as [x] as.length (Nat.le_refl _)
    refine ⟨?_, fun i => ?_⟩
    · rw [List.length_append, List.length_singleton]
      simp only [play, h3, h1, List.getElem?_append_right (Nat.le_refl _), Nat.sub_self, List.getElem?_cons_zero, hs]
    · obtain ⟨i, hi⟩ := i
      simp only [Fin.getElem_fin]
      by_cases hl : i < as.length
      · rw [play_le _ _ _ _ _ (by omega), List.getElem_append_left hl]
        exact h2 ⟨i, hl⟩
      · simp only [List.length_append, List.length_singleton] at hi
        have : i = as.length := by omega
        subst this
        rw [h3, h1, List.getElem_append_right (Nat.le_refl _)]
        simp only [Nat.sub_self, List.getElem_cons_zero, hs, Option.isSome_some]

/-- Non-vacuity of C93_no_starvation: whatever happened so far (the runs of C93_demo_header and C93_demo_plain, for example), there is a way to go on for ever that is fair. -/
theorem C93_fair_exists (P : Proto) (hv : P.Valid) (nd : Bool) (junk : Nat → Bytes) (hj : ∀ n, (junk n).length = n) (raw : Bytes) (hraw : raw.length = P.rawLen) (cwf : Bool)
    (batch limit : Nat) (hlim : 0 < limit) (s0 s1 : GPipe (P.codec nd junk raw)) (as : List PAct) (es : List PEv) (h0 : GPipe.init (P.codec nd junk raw) = some s0)
    (ha : ∀ a ∈ as, a.Allowed P) (h : GPipe.Run cwf batch limit s0 as s1 es) :
    ∃ (s : Nat → GPipe (P.codec nd junk raw)) (a : Nat → Option PAct) (e : Nat → List PEv), s 0 = s0 ∧ (∀ i, i < as.length → a i = as[i]?) ∧ (∀ n x, a n = some x → x.Allowed P) ∧
      Exec (GPipe.step cwf batch limit) s a e ∧ e as.length = es ∧ GPipe.FairRun cwf batch limit s a := by
  obtain ⟨bs, s', fs, hb, hi, _, _, hq⟩ := C93_delivers P hv nd junk hj raw hraw cwf batch limit hlim s0 s1 as es h0 ha h
  obtain ⟨p1, p2⟩ := GPipe.run_play (GPipe.run_trans h hb)
  have hno : ∀ (cl : PAct → Bool), (∀ x, cl x = true → x.Internal ∨ ∀ t : GPipe (P.codec nd junk raw), t.step cwf batch limit x = none) →
      Fair (GPipe.step cwf batch limit) (fun n => (play (GPipe.step cwf batch limit) s0 (as ++ bs) n).1) (fun n => (as ++ bs)[n]?) cl := by
    intro cl hcl
    refine play_fair s0 (as ++ bs) cl (fun x hx => ?_)
    rcases hcl x hx with h1 | h1
    · rw [p1]; exact hq x h1
    · exact h1 _
  have htx : ∀ cl : TxAct → Bool, ∀ x, PAct.isTx cl x = true → x.Internal ∨ ∀ t : GPipe (P.codec nd junk raw), t.step cwf batch limit x = none := by
    intro cl x hx
    cases x with
    | tx y => exact .inl trivial
    | _ => simp [PAct.isTx] at hx
  have hrx : ∀ cl : RAct → Bool, cl (.ret false) = false → ∀ x, PAct.isRx cl x = true → x.Internal ∨ ∀ t : GPipe (P.codec nd junk raw), t.step cwf batch limit x = none := by
    intro cl hcl x hx
    cases x with
    | rx y =>
      cases y with
      | ret ok => cases ok with
        | true => exact .inl rfl
        | false => simp [PAct.isRx, hcl] at hx
      | _ => exact .inl trivial
    | _ => simp [PAct.isRx] at hx
  refine ⟨_, _, _, rfl, fun i hil => List.getElem?_append_left hil, ?_, play_exec s0 (as ++ bs) p2, ?_, ?_⟩
  · intro n x hx
    rcases List.mem_append.mp (List.mem_of_getElem? hx) with h1 | h1
    · exact ha x h1
    · have := hi x h1
      cases x <;> first | trivial | simp [PAct.Internal] at this
  · rw [play_le _ _ _ _ _ (Nat.le_refl _), (GPipe.run_play h).1]
  · exact ⟨hno _ (htx _), hno _ (htx _), hno _ (htx _), hno _ (htx _), hno _ (htx _), hno _ (htx _),
      hno _ (fun x hx => by cases x <;> first | exact .inl trivial | simp [PAct.isNet] at hx),
      hno _ (hrx _ rfl), hno _ (hrx _ rfl), hno _ (hrx _ rfl), hno _ (hrx _ rfl), hno _ (hrx _ rfl), hno _ (hrx _ rfl), hno _ (hrx _ rfl), hno _ (hrx _ rfl), hno _ (hrx _ rfl)⟩

end StAsio
