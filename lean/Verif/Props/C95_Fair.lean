import Verif.Lemmas.ModeFair
import Verif.Props.C93_Fair
import Verif.Props.C95_Modes
/-!
C95 for ever: any pair, any mode of receiving, a sender that never stops sending, a receiver that never stops receiving.
-/
set_option autoImplicit false
namespace StAsio

/-- The sender does something of class `c`. -/
def MPAct.isTx (c : TxAct → Bool) : MPAct → Bool
  | .tx a => c a
  | _ => false

/-- The receiver does something of class `c`. -/
def MPAct.isRx (c : MAct → Bool) : MPAct → Bool
  | .rx a => c a
  | _ => false

/-- The receiver's async_read gets bytes. -/
def MPAct.isNet : MPAct → Bool
  | .net _ => true
  | _ => false

/-- What an action means for the sending socket. -/
def MPipe.txAct {K : Codec} (_ : MPipe K) : MPAct → Option TxAct
  | .send call fits => match K.pack call with
    | some (some bs) => some (if call.single then .send ⟨bs.flatten, none⟩ false fits else .sendList (bs.map (fun b => ⟨b, none⟩)) false)
    | _ => none
  | .tx a => some a
  | _ => none

/-- What an action means for the receiving socket. -/
def MPipe.rmAct {K : Codec} (cwf : Bool) (s : MPipe K) : MPAct → Option MAct
  | .rx a => some a
  | .net k => match s.conn.ph with
    | .reading cap got _ => match readSome K.ops cwf s.conn cap got ((s.tx.wire.drop s.off).take k) with
      | some conn => if readDone conn.ph then some (.read (newMsgs s.conn.log conn.log) false) else none
      | none => none
    | _ => none
  | _ => none

section
variable {K : Codec} {c : MCfg} {cwf : Bool} {batch limit : Nat}

theorem MPipe.step_tx {s s' : MPipe K} {a : MPAct} {es : List MPEv} (hs : s.step c cwf batch limit a = some (s', es)) :
    match MPipe.txAct s a with
      | none => s'.tx = s.tx
      | some y => y.steady = true ∧ ∃ fs, s.tx.step batch y = some (s'.tx, fs) := by
  cases a with
  | send call fits =>
    simp only [MPipe.step] at hs
    simp only [MPipe.txAct]
    split at hs
    · next h => rw [h]; cases hs; rfl
    · next h => rw [h]; cases hs; rfl
    · next bs h =>
      rw [h]
      cases hs
      simp only
      cases hc : call.single
      · exact ⟨rfl, _, by simp only [Tx.step]; rfl⟩
      · exact ⟨rfl, _, by simp only [Tx.step]; rfl⟩
  | tx a =>
    simp only [MPipe.step] at hs
    split at hs
    · next hh =>
      obtain ⟨r, h1, h2⟩ := Option.map_eq_some_iff.mp hs
      cases h2
      refine ⟨?_, r.2, h1⟩
      cases a with
      | complete i ok => cases ok <;> simp_all [TxAct.healthy, TxAct.steady]
      | _ => simp_all [TxAct.healthy, TxAct.steady]
    · cases hs
  | net k =>
    simp only [MPipe.step] at hs
    simp only [MPipe.txAct]
    (repeat' split at hs) <;> first | (cases hs; done) | (cases hs; rfl) | (obtain ⟨r, h1, h2⟩ := Option.map_eq_some_iff.mp hs; cases h2; rfl)
  | rx a =>
    simp only [MPipe.step] at hs
    simp only [MPipe.txAct]
    split at hs
    · obtain ⟨r, h1, h2⟩ := Option.map_eq_some_iff.mp hs; cases h2; rfl
    · cases hs

theorem MPipe.step_rm {s s' : MPipe K} {a : MPAct} {es : List MPEv} (hs : s.step c cwf batch limit a = some (s', es)) :
    match MPipe.rmAct cwf s a with
      | none => s'.rm = s.rm ∧ mpRx es = []
      | some y => y.fits s.rm ∧ (y.ok s.rm = true ∨ a.isNet = true) ∧ s.rm.step c limit y = some (s'.rm, mpRx es) := by
  cases a with
  | send call fits =>
    simp only [MPipe.step] at hs
    simp only [MPipe.rmAct]
    (repeat' split at hs) <;> cases hs <;> refine ⟨rfl, ?_⟩ <;> (try split) <;> rfl
  | tx a =>
    simp only [MPipe.step] at hs
    simp only [MPipe.rmAct]
    split at hs
    · obtain ⟨r, h1, h2⟩ := Option.map_eq_some_iff.mp hs; cases h2; exact ⟨rfl, rfl⟩
    · cases hs
  | net k =>
    simp only [MPipe.step] at hs
    simp only [MPipe.rmAct]
    split at hs
    · next cap got want hph =>
      simp only [hph]
      split at hs
      · split at hs
        · next h => simp only [h]; cases hs; exact ⟨rfl, rfl⟩
        · next conn h =>
          simp only [h]
          split at hs
          · next hd =>
            simp only [hd, if_true]
            obtain ⟨r, h1, h2⟩ := Option.map_eq_some_iff.mp hs
            cases h2
            exact ⟨rfl, .inr rfl, by rw [mpRx_rx]; exact h1⟩
          · next hd =>
            simp only [hd]
            cases hs
            exact ⟨rfl, rfl⟩
      · cases hs
    · cases hs
  | rx a =>
    simp only [MPipe.step] at hs
    simp only [MPipe.rmAct]
    split at hs
    · next hh =>
      obtain ⟨r, h1, h2⟩ := Option.map_eq_some_iff.mp hs
      cases h2
      refine ⟨?_, .inl hh, by rw [mpRx_rx]; exact h1⟩
      cases a with
      | read ms ec => cases hh
      | _ => exact hh
    · cases hs

theorem MPipe.step_off {s s' : MPipe K} {a : MPAct} {es : List MPEv} (hb : s'.bad = false) (hs : s.step c cwf batch limit a = some (s', es)) :
    if a.isNet then s.off < s'.off else s'.off = s.off := by
  cases a with
  | send call fits =>
    simp only [MPipe.step] at hs
    (repeat' split at hs) <;> cases hs <;> simp [MPAct.isNet]
  | tx a =>
    simp only [MPipe.step] at hs
    split at hs
    · obtain ⟨r, h1, h2⟩ := Option.map_eq_some_iff.mp hs; cases h2; simp [MPAct.isNet]
    · cases hs
  | net k =>
    simp only [MPipe.step] at hs
    (repeat' split at hs) <;> first | (cases hs; done) | (cases hs; simp at hb; done) | (cases hs; simp only [MPAct.isNet, if_true]; omega) | (obtain ⟨r, h1, h2⟩ := Option.map_eq_some_iff.mp hs; cases h2; simp only [MPAct.isNet, if_true]; omega)
  | rx a =>
    simp only [MPipe.step] at hs
    split at hs
    · obtain ⟨r, h1, h2⟩ := Option.map_eq_some_iff.mp hs; cases h2; simp [MPAct.isNet]
    · cases hs

theorem MPipe.net_can {w : Item → Bytes} {Ok : Item → Prop} {Shown : List Item → Nat → List Bytes → Prop} {Inv : Bytes → Conn K.σ → Prop} (hK : K.Reads cwf w Ok Shown Inv) {s : MPipe K} {es : List MPEv}
    (h : s.Good w Ok Inv c batch limit es) (ho : s.rm.out = true) (hi : s.rm.hp = .idle) (h3 : s.off < s.tx.wire.length) : (s.step c cwf batch limit (.net 1)).isSome = true := by
  obtain ⟨cap, got, want, hph, hw, hg⟩ := hK.reading _ _ h.wired.inv
  obtain ⟨conn, ms, hc, _, _⟩ := h.wired.net hK (k := 1) hph (by omega) (by omega) (by omega) (by omega)
  simp only [MPipe.step, hph]
  rw [if_pos ⟨ho, hi, by omega, by omega, by omega, by omega⟩, hc]
  simp only
  split
  · rw [Rm.read_step _ ho hi]; rfl
  · rfl

theorem MPipe.step_wire {s s' : MPipe K} {a : MPAct} {es : List MPEv} (hi : s.tx.Inv) (hs : s.step c cwf batch limit a = some (s', es)) : s.tx.wire <+: s'.tx.wire := by
  cases a with
  | send call fits =>
    simp only [MPipe.step] at hs
    split at hs
    · cases hs; exact List.prefix_refl _
    · cases hs; exact List.prefix_refl _
    · next bs h =>
      cases hs
      cases hc : call.single
      · simp only [Bool.false_eq_true, if_false]
        rw [(Tx.sendList_step hi _).2.1]
        exact List.prefix_refl _
      · simp only [if_true]
        rw [(Tx.send_step s.tx _ fits).2.1]
        exact List.prefix_refl _
  | tx a =>
    simp only [MPipe.step] at hs
    split at hs
    · next hh =>
      obtain ⟨r, h1, h2⟩ := Option.map_eq_some_iff.mp hs
      cases h2
      exact (Tx.healthy_step hh h1).2.2.1
    · cases hs
  | net k =>
    have := MPipe.step_tx hs
    simp only [MPipe.txAct] at this
    rw [this]
    exact List.prefix_refl _
  | rx a =>
    have := MPipe.step_tx hs
    simp only [MPipe.txAct] at this
    rw [this]
    exact List.prefix_refl _

end

/-- None of the activities of a working link is put off for ever; on_msg returns; on_msg_handle, called again and again, accepts (takes) messages again and again; with passive receiving, the application asks
for messages again and again. -/
structure MPipe.FairRun {K : Codec} (c : MCfg) (cwf : Bool) (batch limit : Nat) (s : Nat → MPipe K) (a : Nat → Option MPAct) : Prop where
  /-- a thread inside a send function goes on -/
  loadReady : Fair (MPipe.step c cwf batch limit) s a (MPAct.isTx (· == .loadReady))
  loadFlag : Fair (MPipe.step c cwf batch limit) s a (MPAct.isTx (· == .loadFlag))
  /-- the sender's strand goes on: a posted do_send_msg, do_send_msg itself -/
  runPosted : Fair (MPipe.step c cwf batch limit) s a (MPAct.isTx (· == .runPosted))
  strand : Fair (MPipe.step c cwf batch limit) s a (MPAct.isTx (· == .strand))
  /-- the sender's kernel takes bytes and completes writes -/
  kernel : Fair (MPipe.step c cwf batch limit) s a (MPAct.isTx TxAct.kernel)
  /-- send_handler is called -/
  handler : Fair (MPipe.step c cwf batch limit) s a (MPAct.isTx TxAct.isHandler)
  /-- the network delivers -/
  net : Fair (MPipe.step c cwf batch limit) s a MPAct.isNet
  /-- recv_handler goes on: handle_msg, on_msg (the application), dispatch_msg, handled_msg -/
  handle : Fair (MPipe.step c cwf batch limit) s a (MPAct.isRx (· == .handle))
  onMsgRet : Fair (MPipe.step c cwf batch limit) s a (MPAct.isRx MAct.isOnMsgRet)
  loadDisp : Fair (MPipe.step c cwf batch limit) s a (MPAct.isRx (· == .loadDisp))
  handled : Fair (MPipe.step c cwf batch limit) s a (MPAct.isRx (· == .handled true))
  /-- the receiver polls a full receive buffer, and a posted do_recv_msg runs -/
  checkTimer : Fair (MPipe.step c cwf batch limit) s a (MPAct.isRx (· == .checkTimer))
  doRecv : Fair (MPipe.step c cwf batch limit) s a (MPAct.isRx (· == .doRecv true))
  /-- the receiver's dispatching goes on: a posted do_dispatch_msg, do_dispatch_msg itself, the retry timer -/
  run : Fair (MPipe.step c cwf batch limit) s a (MPAct.isRx (· == .run))
  begin : Fair (MPipe.step c cwf batch limit) s a (MPAct.isRx (· == .begin))
  dis : Fair (MPipe.step c cwf batch limit) s a (MPAct.isRx (· == .dis))
  dtimer : Fair (MPipe.step c cwf batch limit) s a (MPAct.isRx (· == .dtimer))
  /-- the receiving application accepts messages (one by one) or takes them (batch) -/
  accepts : Fair (MPipe.step c cwf batch limit) s a (MPAct.isRx (MAct.isAccept c.batch))
  /-- with passive receiving, the receiving application asks for messages -/
  asks : c.passive = true → Fair (MPipe.step c cwf batch limit) s a (MPAct.isRx (· == .userRecv))

section
variable {K : Codec} {c : MCfg} {cwf : Bool} {batch limit : Nat} {s : Nat → MPipe K} {a : Nat → Option MPAct} {e : Nat → List MPEv}

theorem MPipe.fair_tx (c' : TxAct → Bool) (hh : ∀ y, c' y = true → y.healthy = true) (hf : Fair (MPipe.step c cwf batch limit) s a (MPAct.isTx c')) :
    Fair (Tx.step batch) (fun n => (s n).tx) (fun n => (a n).bind (MPipe.txAct (s n))) c' := by
  refine Fair.project (proj := MPipe.tx) hf c' (fun n y hy hs => ⟨.tx y, hy, ?_⟩) (fun n x hx _ => ?_)
  · simp only [MPipe.step, hh y hy, if_true, Option.isSome_map]
    exact hs
  · cases x with
    | tx y => exact ⟨y, hx, rfl⟩
    | _ => simp [MPAct.isTx] at hx

theorem MPipe.fair_rm (c' : MAct → Bool) (hh : ∀ (t : Rm) y, c' y = true → (t.step c limit y).isSome = true → ∃ y', c' y' = true ∧ y'.ok t = true ∧ (t.step c limit y').isSome = true)
    (hf : Fair (MPipe.step c cwf batch limit) s a (MPAct.isRx c')) :
    Fair (Rm.step c limit) (fun n => (s n).rm) (fun n => (a n).bind (MPipe.rmAct cwf (s n))) c' := by
  refine Fair.project (proj := MPipe.rm) hf c' (fun n y hy hs => ?_) (fun n x hx _ => ?_)
  · obtain ⟨y', h1, h2, h3⟩ := hh _ y hy hs
    refine ⟨.rx y', h1, ?_⟩
    simp only [MPipe.step, h2, if_true, Option.isSome_map]
    exact h3
  · cases x with
    | rx y => exact ⟨y, hx, rfl⟩
    | _ => simp [MPAct.isRx] at hx

theorem MPipe.FairRun.rm (hf : MPipe.FairRun c cwf batch limit s a) : Rm.FairRun c limit (fun n => (s n).rm) (fun n => (a n).bind (MPipe.rmAct cwf (s n))) := by
  have one : ∀ x : MAct, (∀ t, x.ok t = true) → ∀ (t : Rm) y, (y == x) = true → (t.step c limit y).isSome = true → ∃ y', (y' == x) = true ∧ y'.ok t = true ∧ (t.step c limit y').isSome = true := by
    intro x hx t y hy hs
    cases eq_of_beq hy
    exact ⟨_, beq_self_eq_true _, hx t, hs⟩
  exact {
    handle := MPipe.fair_rm _ (one _ (fun _ => rfl)) hf.handle
    onMsgRet := MPipe.fair_rm _ (fun t y hy hs => by
      refine ⟨.onMsgRet [] 1, rfl, by simp [MAct.ok], ?_⟩
      cases y with
      | onMsgRet left n =>
        have hp : t.hp = .inMsg := by
          apply Classical.byContradiction
          intro hp
          simp [Rm.step, hp] at hs
        simp [Rm.step, hp]
      | _ => cases hy) hf.onMsgRet
    loadDisp := MPipe.fair_rm _ (one _ (fun _ => rfl)) hf.loadDisp
    handled := MPipe.fair_rm _ (one _ (fun _ => rfl)) hf.handled
    checkTimer := MPipe.fair_rm _ (one _ (fun _ => rfl)) hf.checkTimer
    doRecv := MPipe.fair_rm _ (one _ (fun _ => rfl)) hf.doRecv
    run := MPipe.fair_rm _ (one _ (fun _ => rfl)) hf.run
    begin := MPipe.fair_rm _ (one _ (fun _ => rfl)) hf.begin
    dis := MPipe.fair_rm _ (one _ (fun _ => rfl)) hf.dis
    dtimer := MPipe.fair_rm _ (one _ (fun _ => rfl)) hf.dtimer
    accepts := MPipe.fair_rm _ (fun t y hy hs => ⟨y, hy, by cases y <;> simp_all [MAct.isAccept, MAct.ok], hs⟩) hf.accepts
    asks := fun hp => MPipe.fair_rm _ (one _ (fun _ => rfl)) (hf.asks hp) }

theorem MPipe.exec_tx (he : Exec (MPipe.step c cwf batch limit) s a e) :
    Exec (Tx.step batch) (fun n => (s n).tx) (fun n => (a n).bind (MPipe.txAct (s n))) (partTrace (Tx.step batch) (fun n => (s n).tx) (fun n => (a n).bind (MPipe.txAct (s n)))) := by
  refine Exec.project (proj := MPipe.tx) he (fun n x es _ hs => ?_)
  have := MPipe.step_tx hs
  cases h : MPipe.txAct (s n) x with
  | none => rw [h] at this; exact this
  | some y => rw [h] at this; exact this.2

theorem MPipe.exec_rm (he : Exec (MPipe.step c cwf batch limit) s a e) :
    Exec (Rm.step c limit) (fun n => (s n).rm) (fun n => (a n).bind (MPipe.rmAct cwf (s n))) (fun n => mpRx (e n)) := by
  refine ⟨by simp only [he.start]; rfl, fun n hn => ?_, fun n y hn => ?_⟩
  · cases hx : a n with
    | none => obtain ⟨h1, h2⟩ := he.idle n hx; simp only [h1, h2, and_self]
    | some x =>
      simp only [hx, Option.bind_some] at hn
      obtain ⟨es, hs, h1⟩ := he.next n x hx
      have := MPipe.step_rm hs
      rw [hn] at this
      simp only [this.1, h1, mpRx_append, this.2, List.append_nil, and_self]
  · cases hx : a n with
    | none => simp [hx] at hn
    | some x =>
      simp only [hx, Option.bind_some] at hn
      obtain ⟨es, hs, h1⟩ := he.next n x hx
      have := MPipe.step_rm hs
      rw [hn] at this
      exact ⟨_, this.2.2, by simp only [h1, mpRx_append]⟩

/-- The generic form: `Past items ms` says that `ms` contains everything of `items`. -/
theorem MPipe.no_starvation {w : Item → Bytes} {Ok : Item → Prop} {Shown : List Item → Nat → List Bytes → Prop} {Inv : Bytes → Conn K.σ → Prop} {May : SendCall → Prop}
    {Past : List Item → List Bytes → Prop} (hK : K.Reads cwf w Ok Shown Inv) (hP : K.Packs w Ok May)
    (hpast : ∀ x y n ms, Shown (x ++ y) n ms → ((x.map w).flatten).length ≤ n → Past x ms) (hmono : ∀ x ms ms', Past x ms → ms <+: ms' → Past x ms')
    (hne : ∀ x n ms, Shown x n ms → ∀ m ∈ ms, m ≠ []) (hlim : 0 < limit)
    (h0 : MPipe.init K = some (s 0)) (ha : ∀ n x, a n = some x → ∀ call fits, x = .send call fits → May call)
    (he : Exec (MPipe.step c cwf batch limit) s a e) (hf : MPipe.FairRun c cwf batch limit s a) (n : Nat) :
    ∃ m, (c.sync = true → Past (mpSent (e n)) (mOnMsg (mpRx (e m))) ∧ mLeft (mpRx (e n)) <+: mHandled (mpRx (e m))) ∧ (c.sync = false → Past (mpSent (e n)) (nonEmpty (mHandled (mpRx (e m))))) := by
  obtain ⟨s1, h1, hg0⟩ := MPipe.init_good hK c batch limit
  rw [h0] at h1
  cases h1
  have hg : ∀ n, (s n).Good w Ok Inv c batch limit (.rx .asked :: e n) :=
    he.holds (fun t es => t.Good w Ok Inv c batch limit (.rx .asked :: es)) hg0 (fun n x es hx h hs => MPipe.step_good hK hP h (ha n x hx) hs)
  have hinit : (s 0).tx = Tx.up := by
    simp only [MPipe.init, Option.bind_eq_bind, Option.pure_def] at h0
    rw [Option.bind_eq_some_iff] at h0
    obtain ⟨k, _, h0⟩ := h0
    simp only [Option.some.injEq] at h0
    rw [← h0]
    rfl
  -- the sender
  have htx := MPipe.exec_tx he
  have hsteady : ∀ n y, (a n).bind (MPipe.txAct (s n)) = some y → y.steady = true := by
    intro n y hy
    cases hx : a n with
    | none => simp [hx] at hy
    | some x =>
      simp only [hx, Option.bind_some] at hy
      obtain ⟨es, hs, _⟩ := he.next n x hx
      have := MPipe.step_tx hs
      rw [hy] at this
      exact this.1
  have hwire : ∀ n m, n ≤ m → (s n).tx.wire.length ≤ (s m).tx.wire.length := by
    intro n m hm
    obtain ⟨k, rfl⟩ := Nat.exists_eq_add_of_le hm
    clear hm
    induction k with
    | zero => exact Nat.le_refl _
    | succ k ih =>
      refine Nat.le_trans ih ?_
      cases hx : a (n + k) with
      | none => rw [← Nat.add_assoc, (he.idle _ hx).1]; exact Nat.le_refl _
      | some x =>
        obtain ⟨es, hs, _⟩ := he.next _ x hx
        exact (MPipe.step_wire (hg _).wired.tx_inv hs).length_le
  have hsent : ∀ n, ∃ m, (((mpSent (e n)).map w).flatten).length ≤ (s m).tx.wire.length := by
    intro n
    have f1 := MPipe.fair_tx _ (by intro y hy; cases eq_of_beq hy; rfl) hf.loadReady
    have f2 := MPipe.fair_tx _ (by intro y hy; cases eq_of_beq hy; rfl) hf.loadFlag
    have f3 := MPipe.fair_tx _ (by intro y hy; cases eq_of_beq hy; rfl) hf.runPosted
    have f4 := MPipe.fair_tx _ (by intro y hy; cases eq_of_beq hy; rfl) hf.strand
    have f5 := MPipe.fair_tx _ (by intro y hy; cases y <;> simp_all [TxAct.kernel, TxAct.healthy]) hf.kernel
    have f6 := MPipe.fair_tx _ (by intro y hy; cases y <;> simp_all [TxAct.isHandler, TxAct.healthy]) hf.handler
    have hu : Tx.step batch Tx.init .linkUp = some ((s 0).tx, []) := by rw [hinit]; exact Tx.up_step batch
    obtain ⟨m, _, hm⟩ := C22_no_starvation batch [] Tx.init [] [] _ _ _ (.nil _) hu htx hsteady f1 f2 f3 f4 f5 f6 n
    have hgo : Tx.Going batch _ _ _ := ⟨htx, ⟨(hg 0).wired.tx_inv, by simpa [failedSinceUp] using Tx.run_live (.snoc _ _ _ _ _ _ _ (.nil _) hu), by rw [hinit]; rfl⟩, hsteady, f4, f3, f1, f2, f5, f6⟩
    refine ⟨m, ?_⟩
    obtain ⟨as, hr, hst⟩ := hgo.run n
    have hw := Tx.run_wire (hg 0).wired.tx_inv hr (by
      intro x hx
      have := hst x hx
      constructor
      · rintro i rfl; simp [TxAct.steady] at this
      · rintro rfl; simp [TxAct.steady] at this)
    have hmon := monitor_plain (Tx.run_inv (hg 0).wired.tx_inv hr).2 (hgo.plain n).1
    have h2 := (hg n).wired.stream
    have h3 := hm.length_le
    simp only [hinit] at hw hmon
    have h4 : Tx.up.ideal.waiting = [] := rfl
    have h5 : Tx.up.wire ++ Tx.up.unwritten = [] := rfl
    have h6 : Tx.init.q.items = [] := rfl
    rw [h4, List.nil_append] at hmon
    rw [h5, List.nil_append] at hw
    rw [h6, List.nil_append, hmon, TxMsg.bytes_append, ← hw] at h3
    have h7 : mpSent (.rx .asked :: e n) = mpSent (e n) := rfl
    rw [h7] at h2
    rw [← h2, ← List.append_assoc]
    exact h3
  -- the receiver
  have hrm := MPipe.exec_rm he
  have hfr := hf.rm
  have hL : ∀ n, (s n).rm.Live c := fun n => (hg n).live
  have hfits : ∀ n y, (a n).bind (MPipe.rmAct cwf (s n)) = some y → y.fits (s n).rm ∧ (y.ok (s n).rm = true ∨ ∃ x, a n = some x ∧ x.isNet = true) := by
    intro n y hy
    cases hx : a n with
    | none => simp [hx] at hy
    | some x =>
      simp only [hx, Option.bind_some] at hy
      obtain ⟨es, hs, _⟩ := he.next n x hx
      have := MPipe.step_rm hs
      rw [hy] at this
      refine ⟨this.1, ?_⟩
      rcases this.2.1 with h | h
      · exact .inl h
      · exact .inr ⟨x, rfl, h⟩
  have hok : ∀ n y, (a n).bind (MPipe.rmAct cwf (s n)) = some y → y.fits (s n).rm := fun n y h => (hfits n y h).1
  have hord : ∀ n, mQueued (mpRx (e n)) = mHandled (mpRx (e n)) ++ (s n).rm.cur.toList ++ (s n).rm.buf.items := fun n => (hg n).order.1
  have hhandled := Rm.handles hrm hok hL hfr hord
  have hgrow : ∀ n m, n ≤ m → mHandled (mpRx (e n)) <+: mHandled (mpRx (e m)) ∧ mOnMsg (mpRx (e n)) <+: mOnMsg (mpRx (e m)) ∧ ∃ l, mpSent (e m) = mpSent (e n) ++ l := by
    intro n m hm
    obtain ⟨es, h⟩ := he.grow_le hm
    rw [h, mpRx_append, mHandled_append, mOnMsg_append, mpSent_append]
    exact ⟨List.prefix_append _ _, List.prefix_append _ _, _, rfl⟩
  have hoff1 : ∀ n, (s n).off ≤ (s (n + 1)).off ∧ ((∃ x, a n = some x ∧ x.isNet = true) → (s n).off < (s (n + 1)).off) := by
    intro n
    cases hx : a n with
    | none => rw [(he.idle n hx).1]; exact ⟨Nat.le_refl _, by simp⟩
    | some x =>
      obtain ⟨es, hs, _⟩ := he.next n x hx
      have := MPipe.step_off (hg (n + 1)).bad hs
      refine ⟨by split at this <;> omega, ?_⟩
      rintro ⟨y, hy, h2⟩
      cases hy
      rw [if_pos h2] at this
      exact this
  have hoff : ∀ n m, n ≤ m → (s n).off ≤ (s m).off := by
    intro n m hm
    obtain ⟨k, rfl⟩ := Nat.exists_eq_add_of_le hm
    clear hm
    induction k with
    | zero => exact Nat.le_refl _
    | succ k ih => exact Nat.le_trans ih (hoff1 _).1
  have hread : ∀ n, (s n).off < (s n).tx.wire.length → ∃ m, n ≤ m ∧ (s n).off < (s m).off := by
    intro n hn
    apply Classical.byContradiction
    intro hc
    have hsame : ∀ m, n ≤ m → (s m).off = (s n).off := by
      intro m hm
      have h1 := hoff n m hm
      have h2 : ¬ (s n).off < (s m).off := fun h => hc ⟨m, hm, h⟩
      omega
    have hno : ∀ m x, n ≤ m → a m = some x → x.isNet = false := by
      intro m x hm hx
      cases hnet : x.isNet with
      | false => rfl
      | true =>
        have h1 := (hoff1 m).2 ⟨x, hx, hnet⟩
        have h2 := hsame m hm
        have h3 := hsame (m + 1) (by omega)
        omega
    have hok' : ∀ m y, n ≤ m → (a m).bind (MPipe.rmAct cwf (s m)) = some y → y.ok (s m).rm = true := by
      intro m y hm hy
      rcases (hfits m y hy).2 with h | ⟨x, hx, h'⟩
      · exact h
      · rw [hno m x hm hx] at h'; cases h'
    obtain ⟨N1, hN1, hidle⟩ := Rm.ends hrm hok' hfr
    have hstill : ∀ m, N1 ≤ m → mQueued (mpRx (e m)) = mQueued (mpRx (e N1)) := by
      intro m hm
      obtain ⟨k, rfl⟩ := Nat.exists_eq_add_of_le hm
      clear hm
      induction k with
      | zero => rfl
      | succ k ih =>
        rw [← ih, ← Nat.add_assoc]
        cases hy : (a (N1 + k)).bind (MPipe.rmAct cwf (s (N1 + k))) with
        | none => exact congrArg mQueued (hrm.idle _ hy).2
        | some y =>
          obtain ⟨fs, h1, h2⟩ := hrm.next _ y hy
          have h3 := (Rm.idle_step (hL _).ready (hidle _ (by omega)) (hok' _ y (by omega) hy) h1).1
          rw [h2, mQueued_append, h3, List.append_nil]
    obtain ⟨N2, hN2, hall⟩ := hhandled N1
    have hroom : ∀ m, N2 ≤ m → (s m).rm.Live c ∧ (s m).rm.hp = .idle ∧ (s m).rm.available limit = true := by
      intro m hm
      refine ⟨hL m, hidle m (by omega), ?_⟩
      have h1 := hall.length_le
      have h2 := (hgrow N2 m hm).1.length_le
      have h3 := congrArg List.length (hord m)
      rw [hstill m (by omega)] at h3
      simp only [List.length_append] at h3
      have h4 : (s m).rm.buf.items = [] := List.length_eq_zero_iff.mp (by omega)
      have h5 := (hL m).exact
      rw [Q.Exact, h4] at h5
      simp only [sumSize, List.map_nil, List.sum_nil] at h5
      simp only [Rm.available, decide_eq_true_eq]
      omega
    obtain ⟨N3, hN3, hout⟩ := Rm.readsAgain hrm (n0 := N2) (fun m y hm => hok' m y (by omega)) hfr hroom (by
      intro hp
      rcases (hg N2).keeps hp with h | h | h | h
      · exact .inl h
      · exact absurd (hroom N2 (Nat.le_refl _)).2.1 h
      · exact .inr (.inl h)
      · exact .inr (.inr h))
    obtain ⟨m2, hm2, x, hx, hax⟩ := hf.net (fun k => ⟨N3 + k, by omega, .net 1, rfl, MPipe.net_can hK (hg _) (hout _ (by omega)) (hroom _ (by omega)).2.1 (by
      rw [hsame _ (by omega)]
      exact Nat.lt_of_lt_of_le hn (hwire n _ (by omega)))⟩) n
    rw [hno m2 x hm2 hax] at hx
    cases hx
  obtain ⟨m1, hm1⟩ := hsent n
  obtain ⟨k, hk, hm2⟩ := reaches (f := fun k => (s (n + m1 + k)).off) (t := ((mpSent (e n)).map w).flatten.length) (by
    intro k hlt
    obtain ⟨m, h1, h2⟩ := hread (n + m1 + k) (Nat.lt_of_lt_of_le hlt (Nat.le_trans hm1 (hwire m1 _ (by omega))))
    exact ⟨m - (n + m1), by omega, by rw [show n + m1 + (m - (n + m1)) = m by omega]; exact h2⟩) 0
  obtain ⟨k2, hk2, hnp⟩ := Rm.goesOn hrm hok hfr (n + m1 + k)
  obtain ⟨_, _, l, hl⟩ := hgrow n k2 (by omega)
  obtain ⟨m3, hm3, hh⟩ := hhandled k2
  have hshown : Shown (mpSent (e k2)) (s k2).off (mReceived (mpRx (e k2))) := (hg k2).wired.shown hK (hg k2).log
  have hne' := hne _ _ _ hshown
  rw [hl] at hshown
  have hp := hpast _ _ _ _ hshown (Nat.le_trans hm2 (hoff _ _ hk2))
  obtain ⟨_, o2, o3, o4⟩ := (hg k2).order
  have hfresh : (s k2).rm.fresh = [] := by simp [Rm.fresh, hnp]
  refine ⟨m3, fun hs => ?_, fun hs => ?_⟩
  · obtain ⟨q1, q2⟩ := o2 hs
    rw [hfresh, List.append_nil] at q1
    have q1 : mReceived (mpRx (e k2)) = mOnMsg (mpRx (e k2)) := q1
    have q2 : mQueued (mpRx (e k2)) = mLeft (mpRx (e k2)) := q2
    rw [q1] at hp
    refine ⟨hmono _ _ _ hp (hgrow k2 m3 hm3).2.1, ?_⟩
    rw [q2] at hh
    obtain ⟨es, h⟩ := he.grow_le (show n ≤ k2 by omega)
    rw [h, mpRx_append, mLeft_append] at hh
    exact (List.prefix_append _ _).trans hh
  · have hq : mReceived (mpRx (e k2)) = nonEmpty (mQueued (mpRx (e k2))) := by
      cases hpa : c.passive with
      | false =>
        have q := o3 hs hpa
        rw [hfresh, List.append_nil] at q
        have q : mReceived (mpRx (e k2)) = mQueued (mpRx (e k2)) := q
        rw [← q, nonEmpty_id hne']
      | true =>
        have q := o4 hs hpa
        rw [if_neg hnp, List.append_nil] at q
        have q : mReceivedOrEmpty (mpRx (e k2)) = mQueued (mpRx (e k2)) := q
        rw [← q, nonEmpty_received, nonEmpty_id hne']
    rw [hq] at hp
    refine hmono _ _ _ hp ?_
    obtain ⟨t, ht⟩ := hh
    rw [← ht, nonEmpty_append]
    exact List.prefix_append _ _

end

/-- C95, for ever: a link that works, with the pair `P` and with any combination of batch dispatching, synchronous dispatching and passive receiving; threads of the sender that go on sending for ever; a receiver that may
refuse messages for a while and whose receive buffer may be full for a while; bytes that arrive in any pieces. If none of the activities involved is put off for ever (the applications accept and ask for messages again and again),
then everything sent is given to on_msg, and what it leaves to on_msg_handle (synchronous dispatching), or everything sent is given to on_msg_handle, at some time, after what was sent before it, unchanged. -/
theorem C95_no_starvation (P : Proto) (hv : P.Valid) (nd : Bool) (junk : Nat → Bytes) (hj : ∀ n, (junk n).length = n) (raw : Bytes) (hraw : raw.length = P.rawLen) (c : MCfg) (cwf : Bool)
    (batch limit : Nat) (hlim : 0 < limit) (s : Nat → MPipe (P.codec nd junk raw)) (a : Nat → Option MPAct) (e : Nat → List MPEv) (h0 : MPipe.init (P.codec nd junk raw) = some (s 0))
    (ha : ∀ n x, a n = some x → x.Allowed P) (he : Exec (MPipe.step c cwf batch limit) s a e) (hf : MPipe.FairRun c cwf batch limit s a) (n : Nat) :
    ∃ m, (c.sync = true → P.Contains (mpSent (e n)) (mOnMsg (mpRx (e m))) ∧ mLeft (mpRx (e n)) <+: mHandled (mpRx (e m))) ∧
      (c.sync = false → P.Contains (mpSent (e n)) (nonEmpty (mHandled (mpRx (e m))))) := by
  obtain ⟨Inv, hK⟩ := P.reads hv nd cwf junk hj raw hraw
  refine MPipe.no_starvation (Past := P.Contains) hK (P.packs hv nd junk raw) ?_ ?_ (fun _ _ _ h => P.shown_nonEmpty h) hlim h0
    (fun n x hx call fits hc => by have := ha n x hx; subst hc; exact this) he hf n
  · intro x y n ms h1 h2
    cases P with
    | stream c =>
      simp only [Proto.Shown, Proto.Contains, Proto.wire, List.map_id, List.flatten_append] at h1 h2 ⊢
      rw [h1.1, List.take_append, List.take_of_length_le h2]
      exact List.prefix_append _ _
    | _ => simp only [Proto.Shown] at h1; subst h1; exact Proto.inBytes_append _ _ _ _ h2
  · intro x ms ms' h1 h2
    cases P with
    | stream c =>
      simp only [Proto.Contains] at h1 ⊢
      obtain ⟨t, rfl⟩ := h2
      rw [List.flatten_append]
      exact List.IsPrefix.trans h1 (List.prefix_append _ _)
    | _ => exact List.IsPrefix.trans h1 h2

/-! ### fair executions exist -/

/-- The actions `as` one after the other, then `lp` for ever, which changes nothing. -/
theorem loop_exec {State Action Event : Type} {step : State → Action → Option (State × List Event)} (s0 : State) (as : List Action) (lp : Option Action)
    (h : ∀ i : Fin as.length, (step (play step s0 as i).1 as[i]).isSome = true)
    (hl : ∀ x, lp = some x → ∃ fs, step (play step s0 as as.length).1 x = some ((play step s0 as as.length).1, fs)) :
    ∃ e, Exec step (fun n => (play step s0 as n).1) (fun n => if n < as.length then as[n]? else lp) e ∧ ∀ n, n ≤ as.length → e n = (play step s0 as n).2 := by
  have hp := play_exec s0 as h
  refine ⟨partTrace step (fun n => (play step s0 as n).1) (fun n => if n < as.length then as[n]? else lp), ⟨rfl, fun n hn => ?_, fun n x hn => ?_⟩, fun n hn => ?_⟩
  · refine ⟨?_, by simp only [partTrace, hn]⟩
    by_cases hlt : n < as.length
    · rw [if_pos hlt, List.getElem?_eq_getElem hlt] at hn; cases hn
    · rw [play_end s0 as (n + 1) (by omega), play_end s0 as n (by omega)]
  · by_cases hlt : n < as.length
    · have hn' := hn
      rw [if_pos hlt] at hn
      obtain ⟨es, h1, _⟩ := hp.next n x hn
      exact ⟨es, h1, by simp only [partTrace, hn', h1]⟩
    · have hn' := hn
      rw [if_neg hlt] at hn
      obtain ⟨fs, h1⟩ := hl x hn
      have h2 : step (play step s0 as n).1 x = some ((play step s0 as (n + 1)).1, fs) := by
        rw [play_end s0 as (n + 1) (by omega), play_end s0 as n (by omega)]; exact h1
      exact ⟨fs, h2, by simp only [partTrace, hn', h2]⟩
  · induction n with
    | zero => rfl
    | succ n ih =>
      have hlt : n < as.length := by omega
      obtain ⟨es, h1, h2⟩ := hp.next n as[n] (List.getElem?_eq_getElem hlt)
      rw [h2, ← ih (by omega)]
      simp only [partTrace, if_pos hlt, List.getElem?_eq_getElem hlt, h1]

theorem loop_fair {State Action Event : Type} {step : State → Action → Option (State × List Event)} (s0 : State) (as : List Action) (lp : Option Action) (cl : Action → Bool)
    (h : (∀ x, cl x = true → step (play step s0 as as.length).1 x = none) ∨ ∃ x, lp = some x ∧ cl x = true) :
    Fair step (fun n => (play step s0 as n).1) (fun n => if n < as.length then as[n]? else lp) cl := by
  rcases h with h | ⟨x, h1, h2⟩
  · intro ho
    obtain ⟨m, hm, x, hx, hs⟩ := ho as.length
    simp only [play_end s0 as m hm, h x hx] at hs
    cases hs
  · intro _ n
    refine ⟨as.length + n, by omega, x, h2, ?_⟩
    simp only
    rw [if_neg (by omega), h1]

theorem MPipe.run_play {K : Codec} {c : MCfg} {cwf : Bool} {batch limit : Nat} {s0 s : MPipe K} {as : List MPAct} {es : List MPEv} (h : MPipe.Run c cwf batch limit s0 as s es) :
    play (MPipe.step c cwf batch limit) s0 as as.length = (s, es) ∧ ∀ i : Fin as.length, (MPipe.step c cwf batch limit (play (MPipe.step c cwf batch limit) s0 as i).1 as[i]).isSome = true := by
  induction h with
  | nil => exact ⟨rfl, fun i => absurd i.2 (by simp)⟩
  | snoc s1 s2 as x es fs hr hs ih =>
    obtain ⟨h1, h2⟩ := ih
    have h3 := play_le (MPipe.step c cwf batch limit) s0 as [x] as.length (Nat.le_refl _)
    refine ⟨?_, fun i => ?_⟩
    · rw [List.length_append, List.length_singleton]
      simp only [play, h3, h1, List.getElem?_append_right (Nat.le_refl _), Nat.sub_self, List.getElem?_cons_zero, hs]
    · obtain ⟨i, hi⟩ := i
      simp only [Fin.getElem_fin]
      by_cases hl : i < as.length
      · rw [play_le _ _ _ _ _ (by omega), List.getElem_append_left hl]
        exact h2 ⟨i, hl⟩
      · simp only [List.length_append, List.length_singleton] at hi
        have : i = as.length := by omega
        subst this
        rw [h3, h1, List.getElem_append_right (Nat.le_refl _)]
        simp only [Nat.sub_self, List.getElem_cons_zero, hs, Option.isSome_some]

/-- Non-vacuity of C95_no_starvation: whatever happened so far (the runs of C95_demo, for example), there is a way to go on for ever that is fair. -/
theorem C95_fair_exists (P : Proto) (hv : P.Valid) (nd : Bool) (junk : Nat → Bytes) (hj : ∀ n, (junk n).length = n) (raw : Bytes) (hraw : raw.length = P.rawLen) (c : MCfg) (cwf : Bool)
    (batch limit : Nat) (hlim : 0 < limit) (s0 s1 : MPipe (P.codec nd junk raw)) (as : List MPAct) (es : List MPEv) (h0 : MPipe.init (P.codec nd junk raw) = some s0)
    (ha : ∀ a ∈ as, a.Allowed P) (h : MPipe.Run c cwf batch limit s0 as s1 es) :
    ∃ (s : Nat → MPipe (P.codec nd junk raw)) (a : Nat → Option MPAct) (e : Nat → List MPEv), s 0 = s0 ∧ (∀ i, i < as.length → a i = as[i]?) ∧ (∀ n x, a n = some x → x.Allowed P) ∧
      Exec (MPipe.step c cwf batch limit) s a e ∧ e as.length = es ∧ MPipe.FairRun c cwf batch limit s a := by
  obtain ⟨Inv, hK, hg⟩ := MPipe.start P hv nd junk hj raw hraw c cwf batch limit s0 s1 as es h0 ha h
  have hP := P.packs hv nd junk raw
  obtain ⟨bs1, s2, fs1, b1, b2, b3, _, _⟩ := MPipe.settles hK hP hlim hg
  have hg2 := MPipe.run_good hK hP hg (MPAct.goes_send b2 _) b1
  obtain ⟨bs2, r, fs2, g1, g2, g3, g4, g5, g6, g7⟩ := (Rm.gets_reading hlim hg2.live hg2.keeps).trans hg2.live (fun s' h1 ⟨q1, q2, q3⟩ => Rm.gets_calm _ s' h1 (Nat.le_refl _) q1 q2 q3)
  have hgo : ∀ a ∈ bs2.map MPAct.rx, a.Goes c.passive := by
    intro a ha
    rw [List.mem_map] at ha
    obtain ⟨b, hb, rfl⟩ := ha
    exact g2 b hb
  have hrun2 : MPipe.Run c cwf batch limit s2 (bs2.map .rx) { s2 with rm := r } (fs2.map .rx) := MPipe.lift g1 g2
  have hg3 := MPipe.run_good hK hP hg2 (MPAct.goes_send hgo _) hrun2
  have hq := MPipe.Rest.settled c cwf batch limit hg3 ⟨b3.tx, g3, g4, b3.off⟩ g6 g7
  have hb := MPipe.run_trans b1 hrun2
  have hi : ∀ b ∈ bs1 ++ bs2.map MPAct.rx, b.Goes c.passive := by
    intro b hb
    rcases List.mem_append.1 hb with hb | hb
    · exact b2 b hb
    · exact hgo b hb
  generalize bs1 ++ bs2.map MPAct.rx = bs at hb hi
  obtain ⟨p1, p2⟩ := MPipe.run_play (MPipe.run_trans h hb)
  have hloop : ∀ x, (if c.passive then some (MPAct.rx .userRecv) else none) = some x →
      ∃ fs, MPipe.step c cwf batch limit (play (MPipe.step c cwf batch limit) s0 (as ++ bs) (as ++ bs).length).1 x = some ((play (MPipe.step c cwf batch limit) s0 (as ++ bs) (as ++ bs).length).1, fs) := by
    intro x hx
    split at hx
    · next hp =>
      cases hx
      have hr : r.reading = true := by have := hg3.rm_inv.1.flag hp; simp only at this; rw [this, g5]
      rw [p1]
      refine ⟨[.rx .asked], ?_⟩
      simp [MPipe.step, MAct.ok, Rm.step, hp, hr]
      rw [← hr]
    · cases hx
  obtain ⟨e, he, hee⟩ := loop_exec s0 (as ++ bs) (if c.passive then some (MPAct.rx .userRecv) else none) p2 hloop
  have hno : ∀ (cl : MPAct → Bool), (∀ x, cl x = true → x.Goes false) →
      Fair (MPipe.step c cwf batch limit) (fun n => (play (MPipe.step c cwf batch limit) s0 (as ++ bs) n).1)
        (fun n => if n < (as ++ bs).length then (as ++ bs)[n]? else if c.passive then some (MPAct.rx .userRecv) else none) cl := by
    intro cl hcl
    refine loop_fair s0 (as ++ bs) _ cl (.inl (fun x hx => ?_))
    rw [p1]
    exact hq x (hcl x hx)
  have htx : ∀ cl : TxAct → Bool, ∀ x, MPAct.isTx cl x = true → x.Goes false := by
    intro cl x hx
    cases x with
    | tx y => trivial
    | _ => simp [MPAct.isTx] at hx
  have hrx : ∀ cl : MAct → Bool, (∀ y, cl y = true → y.internal = true) → ∀ x, MPAct.isRx cl x = true → x.Goes false := by
    intro cl hcl x hx
    cases x with
    | rx y => exact .inl (hcl y hx)
    | _ => simp [MPAct.isRx] at hx
  have one : ∀ x : MAct, x.internal = true → ∀ y, (y == x) = true → y.internal = true := by
    intro x hx y hy
    cases eq_of_beq hy
    exact hx
  refine ⟨_, _, e, rfl, fun i hil => ?_, ?_, he, ?_, ?_⟩
  · rw [if_pos (by rw [List.length_append]; omega)]
    exact List.getElem?_append_left hil
  · intro n x hx
    split at hx
    · rcases List.mem_append.mp (List.mem_of_getElem? hx) with h1 | h1
      · exact ha x h1
      · have := hi x h1
        cases x <;> first | trivial | simp [MPAct.Goes] at this
    · split at hx
      · cases hx; trivial
      · cases hx
  · rw [hee _ (by rw [List.length_append]; omega), play_le _ _ _ _ _ (Nat.le_refl _), (MPipe.run_play h).1]
  · exact {
      loadReady := hno _ (htx _)
      loadFlag := hno _ (htx _)
      runPosted := hno _ (htx _)
      strand := hno _ (htx _)
      kernel := hno _ (htx _)
      handler := hno _ (htx _)
      net := hno _ (fun x hx => by cases x <;> first | trivial | simp [MPAct.isNet] at hx)
      handle := hno _ (hrx _ (one _ rfl))
      onMsgRet := hno _ (hrx _ (fun y hy => by cases y <;> first | rfl | simp [MAct.isOnMsgRet] at hy))
      loadDisp := hno _ (hrx _ (one _ rfl))
      handled := hno _ (hrx _ (one _ rfl))
      checkTimer := hno _ (hrx _ (one _ rfl))
      doRecv := hno _ (hrx _ (one _ rfl))
      run := hno _ (hrx _ (one _ rfl))
      begin := hno _ (hrx _ (one _ rfl))
      dis := hno _ (hrx _ (one _ rfl))
      dtimer := hno _ (hrx _ (one _ rfl))
      accepts := hno _ (hrx _ (fun y hy => by cases y <;> simp_all [MAct.isAccept, MAct.internal]))
      asks := fun hp => loop_fair s0 (as ++ bs) _ _ (.inr ⟨.rx .userRecv, by rw [if_pos hp], rfl⟩) }

end StAsio
