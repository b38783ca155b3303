import Verif.Props.C95_Fair
import Verif.Props.C24_Fair
import Verif.Props.C96_UdpPipe
/-!
C96 for ever: sockets that never stop sending, a network that never stops bringing datagrams, a receiver that never stops receiving.
-/
set_option autoImplicit false
namespace StAsio

/-- Socket `i` does something of class `c`. -/
def UPAct.isTx (i : Nat) (c : UAct → Bool) : UPAct → Bool
  | .tx j a => j == i && c a
  | _ => false

/-- The receiving socket does something of class `c`. -/
def UPAct.isRx (c : MAct → Bool) : UPAct → Bool
  | .rx a => c a
  | _ => false

/-- The receiver's async_receive_from gets a datagram. -/
def UPAct.isRecv : UPAct → Bool
  | .recv => true
  | _ => false

/-- None of the activities of sending socket `i` is put off for ever: threads inside of a send function, do_send_msg, the kernel, send_handler. -/
structure UPipe.FairTx (me : Nat) (u : Cfg) (c : MCfg) (limit : Nat) (s : Nat → UPipe) (a : Nat → Option UPAct) (i : Nat) : Prop where
  loadReady : Fair (UPipe.step me u c limit) s a (UPAct.isTx i (· == .loadReady))
  loadFlag : Fair (UPipe.step me u c limit) s a (UPAct.isTx i (· == .loadFlag))
  runPosted : Fair (UPipe.step me u c limit) s a (UPAct.isTx i (· == .runPosted))
  strand : Fair (UPipe.step me u c limit) s a (UPAct.isTx i UAct.isStrand)
  resume : Fair (UPipe.step me u c limit) s a (UPAct.isTx i (· == .resumeCheck))
  kernel : Fair (UPipe.step me u c limit) s a (UPAct.isTx i UAct.isComplete)
  handler : Fair (UPipe.step me u c limit) s a (UPAct.isTx i UAct.isHandler)

/-- None of the activities of the receiving socket is put off for ever; on_msg returns; on_msg_handle, called again and again, accepts (takes) messages again and again; with passive receiving, the application asks
for messages again and again. -/
structure UPipe.FairRx (me : Nat) (u : Cfg) (c : MCfg) (limit : Nat) (s : Nat → UPipe) (a : Nat → Option UPAct) : Prop where
  /-- the kernel gives a datagram to an outstanding async_receive_from -/
  recv : Fair (UPipe.step me u c limit) s a UPAct.isRecv
  /-- recv_handler goes on: handle_msg, on_msg (the application), dispatch_msg, handled_msg -/
  handle : Fair (UPipe.step me u c limit) s a (UPAct.isRx (· == .handle))
  onMsgRet : Fair (UPipe.step me u c limit) s a (UPAct.isRx MAct.isOnMsgRet)
  loadDisp : Fair (UPipe.step me u c limit) s a (UPAct.isRx (· == .loadDisp))
  handled : Fair (UPipe.step me u c limit) s a (UPAct.isRx (· == .handled true))
  /-- the receiver polls a full receive buffer, and a posted do_recv_msg runs -/
  checkTimer : Fair (UPipe.step me u c limit) s a (UPAct.isRx (· == .checkTimer))
  doRecv : Fair (UPipe.step me u c limit) s a (UPAct.isRx (· == .doRecv true))
  /-- the receiver's dispatching goes on: a posted do_dispatch_msg, do_dispatch_msg itself, the retry timer -/
  run : Fair (UPipe.step me u c limit) s a (UPAct.isRx (· == .run))
  begin : Fair (UPipe.step me u c limit) s a (UPAct.isRx (· == .begin))
  dis : Fair (UPipe.step me u c limit) s a (UPAct.isRx (· == .dis))
  dtimer : Fair (UPipe.step me u c limit) s a (UPAct.isRx (· == .dtimer))
  /-- the receiving application accepts messages (one by one) or takes them (batch) -/
  accepts : Fair (UPipe.step me u c limit) s a (UPAct.isRx (MAct.isAccept c.batch))
  /-- with passive receiving, the receiving application asks for messages -/
  asks : c.passive = true → Fair (UPipe.step me u c limit) s a (UPAct.isRx (· == .userRecv))

/-- What an action means for the receiving socket. -/
def UPipe.rmAct (u : Cfg) (s : UPipe) : UPAct → Option MAct
  | .rx a => some a
  | .recv => match s.kq with
    | [] => none
    | d :: _ => match Udp.datagram u s.raw d with
      | none => none
      | some (_, ms) => some (.read ms false)
  | _ => none

/-- What an action means for sending socket `i`. -/
def UPipe.txAct (i : Nat) (_ : UPipe) : UPAct → Option UAct
  | .tx j a => if j = i then some a else none
  | _ => none

section
variable {me : Nat} {u : Cfg} {c : MCfg} {limit : Nat}

theorem UPipe.step_rm {s s' : UPipe} {a : UPAct} {es : List UPEv} (hs : s.step me u c limit a = some (s', es)) :
    match UPipe.rmAct u s a with
      | none => s'.rm = s.rm ∧ upRx es = []
      | some y => y.fits s.rm ∧ (y.ok s.rm = true ∨ a.isRecv = true) ∧ s.rm.step c limit y = some (s'.rm, upRx es) := by
  cases a with
  | tx i a =>
    simp only [UPipe.step] at hs
    simp only [UPipe.rmAct]
    split at hs
    · obtain ⟨r, h1, h2⟩ := Option.map_eq_some_iff.mp hs
      cases h2
      refine ⟨rfl, ?_⟩
      rw [upRx_append, (up_tx i _).1, (up_left 0 i _).2.1]
      rfl
    · cases hs
  | arrive k =>
    simp only [UPipe.step] at hs
    simp only [UPipe.rmAct]
    (repeat' split at hs) <;> first | (cases hs; done) | (cases hs; exact ⟨rfl, rfl⟩)
  | stranger d => simp only [UPipe.step] at hs; cases hs; exact ⟨rfl, rfl⟩
  | recv =>
    simp only [UPipe.step] at hs
    simp only [UPipe.rmAct]
    split at hs
    · split at hs
      · cases hs
      · next d kq hk =>
        simp only [hk]
        split at hs
        · next h => simp only [h]; cases hs; exact ⟨rfl, rfl⟩
        · next raw ms h =>
          simp only [h]
          obtain ⟨r, h1, h2⟩ := Option.map_eq_some_iff.mp hs
          cases h2
          exact ⟨rfl, .inr rfl, by rw [(up_rx 0 _).2.1]; exact h1⟩
    · cases hs
  | rx a =>
    simp only [UPipe.step] at hs
    simp only [UPipe.rmAct]
    split at hs
    · next hh =>
      obtain ⟨r, h1, h2⟩ := Option.map_eq_some_iff.mp hs
      cases h2
      refine ⟨?_, .inl hh, by rw [(up_rx 0 _).2.1]; exact h1⟩
      cases a with
      | read ms ec => cases hh
      | _ => exact hh
    · cases hs

/-- The kernel's receive queue: filled by arrivals, emptied from the front by receptions. -/
theorem UPipe.step_kq {s s' : UPipe} {a : UPAct} {es : List UPEv} (hb : s'.bad = false) (hs : s.step me u c limit a = some (s', es)) :
    if a.isRecv then upArrived es = [] ∧ ∃ d, s.kq = d :: s'.kq else s'.kq = s.kq ++ upArrived es := by
  cases a with
  | tx i a =>
    simp only [UPipe.step] at hs
    split at hs
    · obtain ⟨r, h1, h2⟩ := Option.map_eq_some_iff.mp hs
      cases h2
      simp only [UPAct.isRecv, upArrived_append, (up_tx i _).2.2.1, (up_left 0 i _).2.2.2.1, List.append_nil, Bool.false_eq_true, if_false]
    · cases hs
  | arrive k =>
    simp only [UPipe.step] at hs
    (repeat' split at hs) <;> first | (cases hs; done) | (cases hs; rfl)
  | stranger d => simp only [UPipe.step] at hs; cases hs; rfl
  | recv =>
    simp only [UPipe.step] at hs
    split at hs
    · split at hs
      · cases hs
      · next d kq hk =>
        split at hs
        · cases hs; simp at hb
        · obtain ⟨r, h1, h2⟩ := Option.map_eq_some_iff.mp hs
          cases h2
          simp only [UPAct.isRecv, if_true]
          exact ⟨(up_rx 0 _).2.2.2.1, d, hk⟩
    · cases hs
  | rx a =>
    simp only [UPipe.step] at hs
    split at hs
    · obtain ⟨r, h1, h2⟩ := Option.map_eq_some_iff.mp hs
      cases h2
      simp only [UPAct.isRecv, (up_rx 0 _).2.2.2.1, List.append_nil, Bool.false_eq_true, if_false]
    · cases hs

theorem UPipe.recv_can {s : UPipe} {es : List UPEv} (h : s.Good me u c limit es) (ho : s.rm.out = true) (hi : s.rm.hp = .idle) (hk : s.kq ≠ []) : (s.step me u c limit .recv).isSome = true := by
  obtain ⟨d, kq, hd⟩ := List.exists_cons_of_ne_nil hk
  obtain ⟨raw', h1, _⟩ := Udp.datagram_shown h.raw d
  simp only [UPipe.step]
  rw [if_pos ⟨ho, hi⟩, hd]
  simp only [h1, Option.isSome_map]
  rw [Rm.read_step _ ho hi]
  rfl

theorem UPipe.step_tx {s s' : UPipe} {a : UPAct} {es : List UPEv} (i : Nat) (hs : s.step me u c limit a = some (s', es)) :
    match UPipe.txAct i s a with
      | none => s'.tx i = s.tx i ∧ upTx i es = []
      | some y => (s.tx i).step false y = some (s'.tx i, upTx i es) := by
  cases a with
  | tx j a =>
    simp only [UPipe.step] at hs
    simp only [UPipe.txAct]
    split at hs
    · obtain ⟨r, h1, h2⟩ := Option.map_eq_some_iff.mp hs
      cases h2
      rw [upTx_append, upTx_tx, (up_left i j _).1, List.append_nil]
      by_cases hj : j = i
      · subst hj
        simp only [if_true]
        exact h1
      · simp only [if_neg hj, if_neg (Ne.symm hj), and_self]
    · cases hs
  | arrive k =>
    simp only [UPipe.step] at hs
    simp only [UPipe.txAct]
    (repeat' split at hs) <;> first | (cases hs; done) | (cases hs; exact ⟨rfl, rfl⟩)
  | stranger d => simp only [UPipe.step] at hs; cases hs; exact ⟨rfl, rfl⟩
  | recv =>
    simp only [UPipe.step] at hs
    simp only [UPipe.txAct]
    (repeat' split at hs) <;> first | (cases hs; done) | (cases hs; exact ⟨rfl, rfl⟩) | (obtain ⟨r, h1, h2⟩ := Option.map_eq_some_iff.mp hs; cases h2; exact ⟨rfl, (up_rx i _).1⟩)
  | rx a =>
    simp only [UPipe.step] at hs
    simp only [UPipe.txAct]
    split at hs
    · obtain ⟨r, h1, h2⟩ := Option.map_eq_some_iff.mp hs; cases h2; exact ⟨rfl, (up_rx i _).1⟩
    · cases hs

theorem UPipe.Good.order {s : UPipe} {es : List UPEv} (h : s.Good me u c limit es) :
    mQueued (upRx es) = mHandled (upRx es) ++ s.rm.cur.toList ++ s.rm.buf.items ∧
    (c.sync = true → mReceived (upRx es) = mOnMsg (upRx es) ++ s.rm.fresh ∧ mQueued (upRx es) = mLeft (upRx es)) ∧
    (c.sync = false → c.passive = false → mReceived (upRx es) = mQueued (upRx es) ++ s.rm.fresh) ∧
    (c.sync = false → c.passive = true → mReceivedOrEmpty (upRx es) = mQueued (upRx es) ++ (if s.rm.hp = .parsed then orEmpty s.rm.temp else [])) := by
  obtain ⟨mas, hr, _⟩ := h.rm
  obtain ⟨f1, f2, f3, f4⟩ := Rm.fresh_run hr
  have o1 := C57_order hr (by
    intro e he
    rcases List.mem_cons.1 he with rfl | he
    · trivial
    · exact h.plain e he)
  simp only [mQueued, mHandled, mReceived, mOnMsg, mLeft, mReceivedOrEmpty] at f1 f2 f3 f4 o1
  exact ⟨o1, f1, f2, f3⟩

theorem UPipe.Good.received_ne {s : UPipe} {es : List UPEv} (h : s.Good me u c limit es) : ∀ m ∈ mReceived (upRx es), m ≠ [] := by
  intro m hm
  have hm : m ∈ dgShown u.bufSize (upArrived es) := by rw [← h.received]; simp [hm]
  simp only [dgShown, nonEmpty, List.mem_filter] at hm
  intro h; rw [h] at hm; simp at hm

end

section
variable {me : Nat} {u : Cfg} {c : MCfg} {limit : Nat} {s : Nat → UPipe} {a : Nat → Option UPAct} {e : Nat → List UPEv}

theorem UPipe.fair_tx {i : Nat} (c' : UAct → Bool) (hh : ∀ y, c' y = true → y.stays = true) (hf : Fair (UPipe.step me u c limit) s a (UPAct.isTx i c')) :
    Fair (Ux.step false) (fun n => (s n).tx i) (fun n => (a n).bind (UPipe.txAct i (s n))) c' := by
  refine Fair.project (proj := fun t : UPipe => t.tx i) hf c' (fun n y hy hs => ⟨.tx i y, by simp [UPAct.isTx, hy], ?_⟩) (fun n x hx _ => ?_)
  · simp only [UPipe.step, hh y hy, if_true, Option.isSome_map]
    exact hs
  · cases x with
    | tx j y =>
      simp only [UPAct.isTx, Bool.and_eq_true, beq_iff_eq] at hx
      exact ⟨y, hx.2, by simp [UPipe.txAct, hx.1]⟩
    | _ => simp [UPAct.isTx] at hx

theorem UPipe.exec_tx (i : Nat) (he : Exec (UPipe.step me u c limit) s a e) :
    Exec (Ux.step false) (fun n => (s n).tx i) (fun n => (a n).bind (UPipe.txAct i (s n))) (fun n => upTx i (e n)) := by
  refine ⟨by simp only [he.start]; rfl, fun n hn => ?_, fun n y hn => ?_⟩
  · cases hx : a n with
    | none => obtain ⟨h1, h2⟩ := he.idle n hx; simp only [h1, h2, and_self]
    | some x =>
      simp only [hx, Option.bind_some] at hn
      obtain ⟨es, hs, h1⟩ := he.next n x hx
      have := UPipe.step_tx i hs
      rw [hn] at this
      simp only [this.1, h1, upTx_append, this.2, List.append_nil, and_self]
  · cases hx : a n with
    | none => simp [hx] at hn
    | some x =>
      simp only [hx, Option.bind_some] at hn
      obtain ⟨es, hs, h1⟩ := he.next n x hx
      have := UPipe.step_tx i hs
      rw [hn] at this
      exact ⟨_, this, by simp only [h1, upTx_append]⟩

theorem UPipe.fair_rm (c' : MAct → Bool) (hh : ∀ (t : Rm) y, c' y = true → (t.step c limit y).isSome = true → ∃ y', c' y' = true ∧ y'.ok t = true ∧ (t.step c limit y').isSome = true)
    (hf : Fair (UPipe.step me u c limit) s a (UPAct.isRx c')) :
    Fair (Rm.step c limit) (fun n => (s n).rm) (fun n => (a n).bind (UPipe.rmAct u (s n))) c' := by
  refine Fair.project (proj := UPipe.rm) hf c' (fun n y hy hs => ?_) (fun n x hx _ => ?_)
  · obtain ⟨y', h1, h2, h3⟩ := hh _ y hy hs
    refine ⟨.rx y', h1, ?_⟩
    simp only [UPipe.step, h2, if_true, Option.isSome_map]
    exact h3
  · cases x with
    | rx y => exact ⟨y, hx, rfl⟩
    | _ => simp [UPAct.isRx] at hx

theorem UPipe.FairRx.rm (hf : UPipe.FairRx me u c limit s a) : Rm.FairRun c limit (fun n => (s n).rm) (fun n => (a n).bind (UPipe.rmAct u (s n))) := by
  have one : ∀ x : MAct, (∀ t, x.ok t = true) → ∀ (t : Rm) y, (y == x) = true → (t.step c limit y).isSome = true → ∃ y', (y' == x) = true ∧ y'.ok t = true ∧ (t.step c limit y').isSome = true := by
    intro x hx t y hy hs
    cases eq_of_beq hy
    exact ⟨_, beq_self_eq_true _, hx t, hs⟩
  exact {
    handle := UPipe.fair_rm _ (one _ (fun _ => rfl)) hf.handle
    onMsgRet := UPipe.fair_rm _ (fun t y hy hs => by
      refine ⟨.onMsgRet [] 1, rfl, by simp [MAct.ok], ?_⟩
      cases y with
      | onMsgRet left n =>
        have hp : t.hp = .inMsg := by
          apply Classical.byContradiction
          intro hp
          simp [Rm.step, hp] at hs
        simp [Rm.step, hp]
      | _ => cases hy) hf.onMsgRet
    loadDisp := UPipe.fair_rm _ (one _ (fun _ => rfl)) hf.loadDisp
    handled := UPipe.fair_rm _ (one _ (fun _ => rfl)) hf.handled
    checkTimer := UPipe.fair_rm _ (one _ (fun _ => rfl)) hf.checkTimer
    doRecv := UPipe.fair_rm _ (one _ (fun _ => rfl)) hf.doRecv
    run := UPipe.fair_rm _ (one _ (fun _ => rfl)) hf.run
    begin := UPipe.fair_rm _ (one _ (fun _ => rfl)) hf.begin
    dis := UPipe.fair_rm _ (one _ (fun _ => rfl)) hf.dis
    dtimer := UPipe.fair_rm _ (one _ (fun _ => rfl)) hf.dtimer
    accepts := UPipe.fair_rm _ (fun t y hy hs => ⟨y, hy, by cases y <;> simp_all [MAct.isAccept, MAct.ok], hs⟩) hf.accepts
    asks := fun hp => UPipe.fair_rm _ (one _ (fun _ => rfl)) (hf.asks hp) }

theorem UPipe.exec_rm (he : Exec (UPipe.step me u c limit) s a e) :
    Exec (Rm.step c limit) (fun n => (s n).rm) (fun n => (a n).bind (UPipe.rmAct u (s n))) (fun n => upRx (e n)) := by
  refine ⟨by simp only [he.start]; rfl, fun n hn => ?_, fun n y hn => ?_⟩
  · cases hx : a n with
    | none => obtain ⟨h1, h2⟩ := he.idle n hx; simp only [h1, h2, and_self]
    | some x =>
      simp only [hx, Option.bind_some] at hn
      obtain ⟨es, hs, h1⟩ := he.next n x hx
      have := UPipe.step_rm hs
      rw [hn] at this
      simp only [this.1, h1, upRx_append, this.2, List.append_nil, and_self]
  · cases hx : a n with
    | none => simp [hx] at hn
    | some x =>
      simp only [hx, Option.bind_some] at hn
      obtain ⟨es, hs, h1⟩ := he.next n x hx
      have := UPipe.step_rm hs
      rw [hn] at this
      exact ⟨_, this.2.2, by simp only [h1, upRx_append]⟩

theorem UPipe.good_all {raw : Bytes} (hraw : raw.length = u.bufSize) (h0 : s 0 = UPipe.init raw) (he : Exec (UPipe.step me u c limit) s a e) : ∀ n, (s n).Good me u c limit (e n) :=
  he.holds (fun t es => t.Good me u c limit es) (by rw [h0]; exact UPipe.init_good hraw) (fun n x es _ h hs => UPipe.step_good h hs)

/-- C96, for ever: sockets that go on sending, a network that loses, duplicates, delays and reorders, strangers; any combination of batch dispatching, synchronous dispatching and passive receiving. If none of the activities of the
receiving socket is put off for ever (the application accepts and asks for messages again and again), then every datagram that arrived is given to on_msg, and what it leaves to on_msg_handle (synchronous dispatching), or is given to
on_msg_handle, at some time, after those which arrived before it, whatever else arrives. -/
theorem C96_no_starvation (me : Nat) (u : Cfg) (c : MCfg) (limit : Nat) (hlim : 0 < limit) (raw : Bytes) (hraw : raw.length = u.bufSize) (s : Nat → UPipe) (a : Nat → Option UPAct) (e : Nat → List UPEv)
    (h0 : s 0 = UPipe.init raw) (he : Exec (UPipe.step me u c limit) s a e) (hf : UPipe.FairRx me u c limit s a) (n : Nat) :
    ∃ m, (c.sync = true → dgShown u.bufSize (upArrived (e n)) <+: mOnMsg (upRx (e m)) ∧ mLeft (upRx (e n)) <+: mHandled (upRx (e m))) ∧
      (c.sync = false → dgShown u.bufSize (upArrived (e n)) <+: nonEmpty (mHandled (upRx (e m)))) := by
  have hg := UPipe.good_all hraw h0 he
  have hrm := UPipe.exec_rm he
  have hfr := hf.rm
  have hL : ∀ n, (s n).rm.Live c := fun n => (hg n).live
  have hfits : ∀ n y, (a n).bind (UPipe.rmAct u (s n)) = some y → y.fits (s n).rm ∧ (y.ok (s n).rm = true ∨ ∃ x, a n = some x ∧ x.isRecv = true) := by
    intro n y hy
    cases hx : a n with
    | none => simp [hx] at hy
    | some x =>
      simp only [hx, Option.bind_some] at hy
      obtain ⟨es, hs, _⟩ := he.next n x hx
      have := UPipe.step_rm hs
      rw [hy] at this
      refine ⟨this.1, ?_⟩
      rcases this.2.1 with h | h
      · exact .inl h
      · exact .inr ⟨x, rfl, h⟩
  have hok : ∀ n y, (a n).bind (UPipe.rmAct u (s n)) = some y → y.fits (s n).rm := fun n y h => (hfits n y h).1
  have hord : ∀ n, mQueued (upRx (e n)) = mHandled (upRx (e n)) ++ (s n).rm.cur.toList ++ (s n).rm.buf.items := fun n => (hg n).order.1
  have hhandled := Rm.handles hrm hok hL hfr hord
  have hgrow : ∀ n m, n ≤ m → mHandled (upRx (e n)) <+: mHandled (upRx (e m)) ∧ mOnMsg (upRx (e n)) <+: mOnMsg (upRx (e m)) ∧ ∃ l, upArrived (e m) = upArrived (e n) ++ l := by
    intro n m hm
    obtain ⟨es, h⟩ := he.grow_le hm
    rw [h, upRx_append, mHandled_append, mOnMsg_append, upArrived_append]
    exact ⟨List.prefix_append _ _, List.prefix_append _ _, _, rfl⟩
  -- what the receiver took from the kernel
  have hkq : ∀ n, ∃ l, upArrived (e n) = l ++ (s n).kq := by
    intro n
    induction n with
    | zero => rw [he.start, h0]; exact ⟨[], rfl⟩
    | succ n ih =>
      obtain ⟨l, hl⟩ := ih
      cases hx : a n with
      | none => rw [(he.idle n hx).1, (he.idle n hx).2]; exact ⟨l, hl⟩
      | some x =>
        obtain ⟨es, hs, h1⟩ := he.next n x hx
        have := UPipe.step_kq (hg (n + 1)).bad hs
        rw [h1, upArrived_append, hl]
        split at this
        · obtain ⟨h2, d, h3⟩ := this
          exact ⟨l ++ [d], by rw [h2, h3]; simp⟩
        · exact ⟨l, by rw [this, List.append_assoc]⟩
  have hoff1 : ∀ n, (upArrived (e n)).length - (s n).kq.length ≤ (upArrived (e (n + 1))).length - (s (n + 1)).kq.length ∧
      ((∃ x, a n = some x ∧ x.isRecv = true) → (upArrived (e n)).length - (s n).kq.length < (upArrived (e (n + 1))).length - (s (n + 1)).kq.length) := by
    intro n
    obtain ⟨l, hl⟩ := hkq n
    have hl := congrArg List.length hl
    rw [List.length_append] at hl
    cases hx : a n with
    | none => rw [(he.idle n hx).1, (he.idle n hx).2]; exact ⟨Nat.le_refl _, by simp⟩
    | some x =>
      obtain ⟨es, hs, h1⟩ := he.next n x hx
      have := UPipe.step_kq (hg (n + 1)).bad hs
      rw [h1, upArrived_append, List.length_append]
      split at this
      · obtain ⟨h2, d, h3⟩ := this
        rw [h3, List.length_cons] at hl ⊢
        rw [h2, List.length_nil]
        exact ⟨by omega, fun _ => by omega⟩
      · next hr =>
        rw [this, List.length_append]
        refine ⟨by omega, ?_⟩
        rintro ⟨y, hy, h2⟩
        cases hy
        exact absurd h2 hr
  generalize hoffd : (fun n => (upArrived (e n)).length - (s n).kq.length) = off at *
  have hoffd : ∀ n, (upArrived (e n)).length - (s n).kq.length = off n := fun n => congrFun hoffd n
  simp only [hoffd] at hoff1
  have hoff : ∀ n m, n ≤ m → off n ≤ off m := by
    intro n m hm
    obtain ⟨k, rfl⟩ := Nat.exists_eq_add_of_le hm
    clear hm
    induction k with
    | zero => exact Nat.le_refl _
    | succ k ih => exact Nat.le_trans ih (hoff1 _).1
  have hread : ∀ n, off n < (upArrived (e n)).length → ∃ m, n ≤ m ∧ off n < off m := by
    intro n hn
    apply Classical.byContradiction
    intro hc
    have hsame : ∀ m, n ≤ m → off m = off n := by
      intro m hm
      have h1 := hoff n m hm
      have h2 : ¬ off n < off m := fun h => hc ⟨m, hm, h⟩
      omega
    have hno : ∀ m x, n ≤ m → a m = some x → x.isRecv = false := by
      intro m x hm hx
      cases hnet : x.isRecv with
      | false => rfl
      | true =>
        have h1 := (hoff1 m).2 ⟨x, hx, hnet⟩
        have h2 := hsame m hm
        have h3 := hsame (m + 1) (by omega)
        omega
    have hok' : ∀ m y, n ≤ m → (a m).bind (UPipe.rmAct u (s m)) = some y → y.ok (s m).rm = true := by
      intro m y hm hy
      rcases (hfits m y hy).2 with h | ⟨x, hx, h'⟩
      · exact h
      · rw [hno m x hm hx] at h'; cases h'
    obtain ⟨N1, hN1, hidle⟩ := Rm.ends hrm hok' hfr
    have hstill : ∀ m, N1 ≤ m → mQueued (upRx (e m)) = mQueued (upRx (e N1)) := by
      intro m hm
      obtain ⟨k, rfl⟩ := Nat.exists_eq_add_of_le hm
      clear hm
      induction k with
      | zero => rfl
      | succ k ih =>
        rw [← ih, ← Nat.add_assoc]
        cases hy : (a (N1 + k)).bind (UPipe.rmAct u (s (N1 + k))) with
        | none => exact congrArg mQueued (hrm.idle _ hy).2
        | some y =>
          obtain ⟨fs, h1, h2⟩ := hrm.next _ y hy
          have h3 := (Rm.idle_step (hL _).ready (hidle _ (by omega)) (hok' _ y (by omega) hy) h1).1
          rw [h2, mQueued_append, h3, List.append_nil]
    obtain ⟨N2, hN2, hall⟩ := hhandled N1
    have hroom : ∀ m, N2 ≤ m → (s m).rm.Live c ∧ (s m).rm.hp = .idle ∧ (s m).rm.available limit = true := by
      intro m hm
      refine ⟨hL m, hidle m (by omega), ?_⟩
      have h1 := hall.length_le
      have h2 := (hgrow N2 m hm).1.length_le
      have h3 := congrArg List.length (hord m)
      rw [hstill m (by omega)] at h3
      simp only [List.length_append] at h3
      have h4 : (s m).rm.buf.items = [] := List.length_eq_zero_iff.mp (by omega)
      have h5 := (hL m).exact
      rw [Q.Exact, h4] at h5
      simp only [sumSize, List.map_nil, List.sum_nil] at h5
      simp only [Rm.available, decide_eq_true_eq]
      omega
    obtain ⟨N3, hN3, hout⟩ := Rm.readsAgain hrm (n0 := N2) (fun m y hm => hok' m y (by omega)) hfr hroom (by
      intro hp
      rcases (hg N2).keeps hp with h | h | h | h
      · exact .inl h
      · exact absurd (hroom N2 (Nat.le_refl _)).2.1 h
      · exact .inr (.inl h)
      · exact .inr (.inr h))
    obtain ⟨m2, hm2, x, hx, hax⟩ := hf.recv (fun k => ⟨N3 + k, by omega, .recv, rfl, UPipe.recv_can (hg _) (hout _ (by omega)) (hroom _ (by omega)).2.1 (by
      intro hk
      have h1 := hsame (N3 + k) (by omega)
      obtain ⟨_, _, l, hl⟩ := hgrow n (N3 + k) (by omega)
      have h2 := congrArg List.length hl
      rw [List.length_append] at h2
      rw [← hoffd (N3 + k), hk, List.length_nil] at h1
      omega)⟩) n
    rw [hno m2 x hm2 hax] at hx
    cases hx
  obtain ⟨k, hk, hm2⟩ := reaches (f := fun k => off (n + k)) (t := (upArrived (e n)).length) (by
    intro k hlt
    obtain ⟨_, _, l, hl⟩ := hgrow n (n + k) (by omega)
    have h2 := congrArg List.length hl
    rw [List.length_append] at h2
    have hlt : off (n + k) < (upArrived (e n)).length := hlt
    obtain ⟨m, h1, h2⟩ := hread (n + k) (by omega)
    exact ⟨m - n, by omega, by rw [show n + (m - n) = m by omega]; exact h2⟩) 0
  obtain ⟨k2, hk2, hnp⟩ := Rm.goesOn hrm hok hfr (n + k)
  obtain ⟨_, _, l, hl⟩ := hgrow n k2 (by omega)
  obtain ⟨m3, hm3, hh⟩ := hhandled k2
  have hp : dgShown u.bufSize (upArrived (e n)) <+: mReceived (upRx (e k2)) := by
    obtain ⟨dn, hd⟩ := hkq k2
    have h1 := (hg k2).received
    rw [hd, dgShown_append] at h1
    rw [List.append_cancel_right h1]
    have h2 := hoff _ _ hk2
    rw [← hoffd k2, hd, List.length_append] at h2
    rw [hl] at hd
    have h3 : upArrived (e n) <+: dn := by
      have hm2 : (upArrived (e n)).length ≤ off (n + k) := hm2
      refine List.prefix_of_prefix_length_le (l₃ := upArrived (e n) ++ l) (List.prefix_append _ _) (by rw [hd]; exact List.prefix_append _ _) (by omega)
    obtain ⟨t, rfl⟩ := h3
    rw [dgShown_append]
    exact List.prefix_append _ _
  have hne' := (hg k2).received_ne
  obtain ⟨_, o2, o3, o4⟩ := (hg k2).order
  have hfresh : (s k2).rm.fresh = [] := by simp [Rm.fresh, hnp]
  refine ⟨m3, fun hs => ?_, fun hs => ?_⟩
  · obtain ⟨q1, q2⟩ := o2 hs
    rw [hfresh, List.append_nil] at q1
    have q1 : mReceived (upRx (e k2)) = mOnMsg (upRx (e k2)) := q1
    have q2 : mQueued (upRx (e k2)) = mLeft (upRx (e k2)) := q2
    rw [q1] at hp
    refine ⟨hp.trans (hgrow k2 m3 hm3).2.1, ?_⟩
    rw [q2] at hh
    obtain ⟨es, h⟩ := he.grow_le (show n ≤ k2 by omega)
    rw [h, upRx_append, mLeft_append] at hh
    exact (List.prefix_append _ _).trans hh
  · have hq : mReceived (upRx (e k2)) = nonEmpty (mQueued (upRx (e k2))) := by
      cases hpa : c.passive with
      | false =>
        have q := o3 hs hpa
        rw [hfresh, List.append_nil] at q
        have q : mReceived (upRx (e k2)) = mQueued (upRx (e k2)) := q
        rw [← q, nonEmpty_id hne']
      | true =>
        have q := o4 hs hpa
        rw [if_neg hnp, List.append_nil] at q
        have q : mReceivedOrEmpty (upRx (e k2)) = mQueued (upRx (e k2)) := q
        rw [← q, nonEmpty_received, nonEmpty_id hne']
    rw [hq] at hp
    refine hp.trans ?_
    obtain ⟨t, ht⟩ := hh
    rw [← ht, nonEmpty_append]
    exact List.prefix_append _ _

/-- Without congestion control the answers of the environment in do_send_msg do not matter. -/
def UAct.norm : UAct → UAct
  | .strand _ y => .strand true y
  | a => a

theorem Ux.step_norm (t : Ux) (a : UAct) : t.step false a.norm = t.step false a := by
  cases a with
  | strand x y => simp only [UAct.norm, Ux.step, Ux.strand, Bool.false_and, Bool.false_eq_true, if_false]
  | _ => rfl

/-- C96, for ever, the sender: if none of the activities of sending socket `i` is put off for ever and messages are sent to it in turn (no priority, nothing withdrawn, the socket stays valid), then everything accepted is sent (or refused by the
kernel) at some time, in the order of acceptance, however much is sent after it. -/
theorem C96_leaves (me : Nat) (u : Cfg) (c : MCfg) (limit : Nat) (raw : Bytes) (hraw : raw.length = u.bufSize) (s : Nat → UPipe) (a : Nat → Option UPAct) (e : Nat → List UPEv)
    (h0 : s 0 = UPipe.init raw) (he : Exec (UPipe.step me u c limit) s a e) (i : Nat) (ha : ∀ n x, a n = some (.tx i x) → x.steady = true) (hf : UPipe.FairTx me u c limit s a i) (n : Nat) :
    ∃ m, uAccepted (upTx i (e n)) <+: (uOutcomes (upTx i (e m))).map (·.1) := by
  have hg := UPipe.good_all hraw h0 he
  have hx := UPipe.exec_tx i he
  have hx' : Exec (Ux.step false) (fun n => (s n).tx i) (fun n => ((a n).bind (UPipe.txAct i (s n))).map UAct.norm) (fun n => upTx i (e n)) := by
    refine ⟨hx.start, fun n hn => hx.idle n (by simpa using hn), fun n y hn => ?_⟩
    obtain ⟨z, hz, rfl⟩ := Option.map_eq_some_iff.mp hn
    obtain ⟨fs, h1, h2⟩ := hx.next n z hz
    exact ⟨fs, by rw [Ux.step_norm]; exact h1, h2⟩
  have hnorm : ∀ cl : UAct → Bool, (∀ y, cl y.norm = cl y) → Fair (Ux.step false) (fun n => (s n).tx i) (fun n => (a n).bind (UPipe.txAct i (s n))) cl →
      Fair (Ux.step false) (fun n => (s n).tx i) (fun n => ((a n).bind (UPipe.txAct i (s n))).map UAct.norm) cl := by
    intro cl hcl h ho n
    obtain ⟨m, hm, y, hy, h1⟩ := h ho n
    exact ⟨m, hm, y.norm, by rw [hcl, hy], congrArg (Option.map UAct.norm) h1⟩
  have f1 := hnorm _ (by intro y; cases y <;> rfl) (UPipe.fair_tx _ (by intro y hy; cases eq_of_beq hy; rfl) hf.loadReady)
  have f2 := hnorm _ (by intro y; cases y <;> rfl) (UPipe.fair_tx _ (by intro y hy; cases eq_of_beq hy; rfl) hf.loadFlag)
  have f3 := hnorm _ (by intro y; cases y <;> rfl) (UPipe.fair_tx _ (by intro y hy; cases eq_of_beq hy; rfl) hf.runPosted)
  have f4 := hnorm _ (by intro y; cases y <;> rfl) (UPipe.fair_tx _ (by intro y hy; cases y <;> simp_all [UAct.isStrand, UAct.stays]) hf.strand)
  have f6 := hnorm _ (by intro y; cases y <;> rfl) (UPipe.fair_tx _ (by intro y hy; cases eq_of_beq hy; rfl) hf.resume)
  have f7 := hnorm _ (by intro y; cases y <;> rfl) (UPipe.fair_tx _ (by intro y hy; cases y <;> simp_all [UAct.isComplete, UAct.stays]) hf.kernel)
  have f8 := hnorm _ (by intro y; cases y <;> rfl) (UPipe.fair_tx _ (by intro y hy; cases y <;> simp_all [UAct.isHandler, UAct.stays]) hf.handler)
  have f5 : Fair (Ux.step false) (fun n => (s n).tx i) (fun n => ((a n).bind (UPipe.txAct i (s n))).map UAct.norm) (· == .timerCC) := by
    intro ho
    obtain ⟨m, _, y, hy, h1⟩ := ho 0
    cases eq_of_beq hy
    obtain ⟨_, _, _, _, _, hc⟩ := (hg m).tx i
    simp [Ux.step, hc] at h1
  have f9 : Often (fun n => ((s n).tx i).pc = .cc ∧ ∃ x y, ((a n).bind (UPipe.txAct i (s n))).map UAct.norm = some (.strand x y)) →
      Often (fun n => ((s n).tx i).pc = .cc ∧ ∃ y, ((a n).bind (UPipe.txAct i (s n))).map UAct.norm = some (.strand true y)) := by
    intro h n
    obtain ⟨m, hm, hc, x, y, h1⟩ := h n
    refine ⟨m, hm, hc, y, ?_⟩
    obtain ⟨z, hz, h2⟩ := Option.map_eq_some_iff.mp h1
    rw [h1]
    cases z <;> simp [UAct.norm] at h2
    rw [← h2.1]
  have h00 : (s 0).tx i = Ux.up := by rw [h0]; rfl
  obtain ⟨m, hm⟩ := C24_no_starvation false [.linkUp] [] (fun n => (s n).tx i) _ _ (by simp only [h00]; exact Ux.up_run) (by simp only [h00]; rfl) rfl (by simp only [h00]; rfl) hx' (by
    intro n y hy
    obtain ⟨z, hz, rfl⟩ := Option.map_eq_some_iff.mp hy
    have : z.steady = true := by
      cases han : a n with
      | none => rw [han] at hz; cases hz
      | some x =>
        rw [han, Option.bind_some] at hz
        cases x with
        | tx j b =>
          simp only [UPipe.txAct] at hz
          split at hz
          · next hj => cases hz; subst hj; exact ha n _ han
          · cases hz
        | _ => cases hz
    cases z <;> exact this) f1 f2 f3 f4 f5 f6 f7 f8 f9 n
  refine ⟨m, ?_⟩
  simp only [h00] at hm
  exact hm

/-- C96, for ever, from end to end: on a network that brings every datagram of socket `i` at least once, at some time (in any order, any number of times, among any other datagrams), and with a kernel that refuses none of them, every message that
was accepted by a send function for this receiver is given to on_msg (synchronous dispatching) or to on_msg_handle at some time, cut off after the size of the receiver's buffer. -/
theorem C96_eventually (me : Nat) (u : Cfg) (hu : 0 < u.bufSize) (c : MCfg) (limit : Nat) (hlim : 0 < limit) (raw : Bytes) (hraw : raw.length = u.bufSize) (s : Nat → UPipe) (a : Nat → Option UPAct) (e : Nat → List UPEv)
    (h0 : s 0 = UPipe.init raw) (he : Exec (UPipe.step me u c limit) s a e) (i : Nat) (ha : ∀ n x, a n = some (.tx i x) → x.steady = true ∧ ∀ k f, x ≠ .complete k false f)
    (hf : UPipe.FairTx me u c limit s a i) (hr : UPipe.FairRx me u c limit s a)
    (hnet : ∀ (n k : Nat) x, (upLeft (e n))[k]? = some (i, x) → x.peer = me → ∃ m, k ∈ upCopies (e m)) (n : Nat) (x : UMsg) (hx : x ∈ uAccepted (upTx i (e n))) (hme : x.peer = me) :
    ∃ m, (c.sync = true → x.data.take u.bufSize ∈ mOnMsg (upRx (e m))) ∧ (c.sync = false → x.data.take u.bufSize ∈ mHandled (upRx (e m))) := by
  have hg := UPipe.good_all hraw h0 he
  have hruns : ∀ n, ∃ tas, Ux.Run false Ux.up tas ((s n).tx i) (upTx i (e n)) ∧ ∀ y ∈ tas, y.passes := by
    refine (UPipe.exec_tx i he).holds (fun t es => ∃ tas, Ux.Run false Ux.up tas t es ∧ ∀ y ∈ tas, y.passes) ⟨[], by rw [h0]; exact .nil _, by simp⟩ ?_
    rintro n y es hy ⟨tas, g1, g2⟩ hs
    refine ⟨tas ++ [y], .snoc _ _ _ _ _ _ _ g1 hs, ?_⟩
    intro z hz
    rcases List.mem_append.mp hz with hz | hz
    · exact g2 z hz
    · simp only [List.mem_singleton] at hz
      subst hz
      cases han : a n with
      | none => rw [han] at hy; cases hy
      | some w =>
        rw [han, Option.bind_some] at hy
        cases w with
        | tx j b =>
          simp only [UPipe.txAct] at hy
          split at hy
          · next hj =>
            cases hy
            subst hj
            have := (ha n _ han).2
            unfold UAct.passes
            split
            · exact this _ _ rfl
            · trivial
          · cases hy
        | _ => cases hy
  obtain ⟨m1, h1⟩ := C96_leaves me u c limit raw hraw s a e h0 he i (fun n x hx => (ha n x hx).1) hf n
  obtain ⟨tas, t1, t2⟩ := hruns m1
  have hsent : x ∈ leftBy i (upLeft (e m1)) := by
    rw [((hg m1).sender i).2.2, (Ux.passes_run t1 t2 (by simp [Ux.up, Ux.init])).2]
    exact List.mem_append_left _ (h1.subset hx)
  have hk : ∃ k : Nat, (upLeft (e m1))[k]? = some (i, x) := by
    simp only [leftBy, List.mem_map, List.mem_filter, beq_iff_eq] at hsent
    obtain ⟨⟨j, y⟩, ⟨h2, h3⟩, h4⟩ := hsent
    simp only at h3 h4
    subst h3 h4
    exact List.mem_iff_getElem?.mp h2
  obtain ⟨k, hk⟩ := hk
  obtain ⟨m2, h2⟩ := hnet m1 k x hk hme
  -- at a time after both
  obtain ⟨es1, g1⟩ := he.grow_le (show m1 ≤ m1 + m2 by omega)
  obtain ⟨es2, g2⟩ := he.grow_le (show m2 ≤ m1 + m2 by omega)
  have hcop : k ∈ upCopies (e (m1 + m2)) := by rw [g2, upCopies_append]; exact List.mem_append_left _ h2
  have hleft : (upLeft (e (m1 + m2)))[k]? = some (i, x) := by
    rw [g1, upLeft_append, List.getElem?_append_left (List.getElem?_eq_some_iff.mp hk).1]
    exact hk
  have harr : ∃ d, UPEv.arrived (some k) d ∈ e (m1 + m2) := by
    generalize e (m1 + m2) = es at hcop
    induction es with
    | nil => cases hcop
    | cons ev es ih =>
      cases ev with
      | arrived j d =>
        cases j with
        | none => obtain ⟨d, hd⟩ := ih hcop; exact ⟨d, by simp [hd]⟩
        | some j =>
          rcases List.mem_cons.mp hcop with rfl | h
          · exact ⟨d, by simp⟩
          · obtain ⟨d, hd⟩ := ih h; exact ⟨d, by simp [hd]⟩
      | _ => obtain ⟨d, hd⟩ := ih hcop; exact ⟨d, by simp [hd]⟩
  obtain ⟨d, hd⟩ := harr
  obtain ⟨i', x', q1, _, q3⟩ := (hg (m1 + m2)).copies k d hd
  rw [hleft] at q1
  cases q1
  have hin : x.data ∈ upArrived (e (m1 + m2)) := by
    rw [q3]
    generalize e (m1 + m2) = es at hd
    induction es with
    | nil => cases hd
    | cons ev es ih =>
      rcases List.mem_cons.mp hd with rfl | h
      · simp [upArrived]
      · cases ev <;> simp [upArrived, ih h]
  have hne : x.data ≠ [] := by
    obtain ⟨tas', t1', _⟩ := hruns n
    exact Ux.accepted_nonEmpty t1' x hx
  have hshow : x.data.take u.bufSize ∈ dgShown u.bufSize (upArrived (e (m1 + m2))) := by
    simp only [dgShown, nonEmpty, List.mem_filter, List.mem_map]
    refine ⟨⟨_, hin, rfl⟩, ?_⟩
    cases hxd : x.data with
    | nil => exact absurd hxd hne
    | cons y ys =>
      obtain ⟨b, hb⟩ : ∃ b, u.bufSize = b + 1 := ⟨u.bufSize - 1, by omega⟩
      simp [hb]
  obtain ⟨m, w1, w2⟩ := C96_no_starvation me u c limit hlim raw hraw s a e h0 he hr (m1 + m2)
  refine ⟨m, fun hc => (w1 hc).1.subset hshow, fun hc => ?_⟩
  have := (w2 hc).subset hshow
  simp only [nonEmpty, List.mem_filter] at this
  exact this.1

theorem UPipe.run_play {s0 t : UPipe} {as : List UPAct} {es : List UPEv} (h : UPipe.Run me u c limit s0 as t es) :
    play (UPipe.step me u c limit) s0 as as.length = (t, es) ∧ ∀ i : Fin as.length, (UPipe.step me u c limit (play (UPipe.step me u c limit) s0 as i).1 as[i]).isSome = true := by
  induction h with
  | nil => exact ⟨rfl, fun i => absurd i.2 (by simp)⟩
  | snoc s1 s2 as x es fs hr hs ih =>
    obtain ⟨h1, h2⟩ := ih
    have h3 := play_le (UPipe.step me u c limit) s0 as [x] as.length (Nat.le_refl _)
    refine ⟨?_, fun i => ?_⟩
    · rw [List.length_append, List.length_singleton]
      simp only [play, h3, h1, List.getElem?_append_right (Nat.le_refl _), Nat.sub_self, List.getElem?_cons_zero, hs]
    · obtain ⟨i, hi⟩ := i
      simp only [Fin.getElem_fin]
      by_cases hl : i < as.length
      · rw [play_le _ _ _ _ _ (by omega), List.getElem_append_left hl]
        exact h2 ⟨i, hl⟩
      · simp only [List.length_append, List.length_singleton] at hi
        have : i = as.length := by omega
        subst this
        rw [h3, h1, List.getElem_append_right (Nat.le_refl _)]
        simp only [Nat.sub_self, List.getElem_cons_zero, hs, Option.isSome_some]

end

theorem MAct.accept_internal {b : Bool} {y : MAct} (hy : MAct.isAccept b y = true) : y.internal = true := by
  cases y <;> simp_all [MAct.isAccept, MAct.internal]

set_option maxHeartbeats 1000000 in
/-- The hypotheses of C96_no_starvation, C96_leaves and C96_eventually can be met: whatever happened so far can go on in such a way that the receiving socket and the sockets in `l` are treated fairly and no kernel refuses a datagram any more; if
the datagrams that arrived so far are the first of those that left for `me`, then all of them arrive in the end. -/
theorem C96_fair_exists (me : Nat) (u : Cfg) (c : MCfg) (limit : Nat) (hlim : 0 < limit) (raw : Bytes) (hraw : raw.length = u.bufSize) (s1 : UPipe) (as : List UPAct) (es : List UPEv)
    (h : UPipe.Run me u c limit (UPipe.init raw) as s1 es) (hnet : upCopies es <+: mine me 0 (upLeft es)) (l : List Nat) :
    ∃ (s : Nat → UPipe) (a : Nat → Option UPAct) (e : Nat → List UPEv), s 0 = UPipe.init raw ∧ (∀ i, i < as.length → a i = as[i]?) ∧ (∀ n x, as.length ≤ n → a n = some x → x.Goes c.passive) ∧
      Exec (UPipe.step me u c limit) s a e ∧ e as.length = es ∧ UPipe.FairRx me u c limit s a ∧ (∀ i ∈ l, UPipe.FairTx me u c limit s a i) ∧
      ∀ (n k i : Nat) x, (upLeft (e n))[k]? = some (i, x) → x.peer = me → ∃ m, k ∈ upCopies (e m) := by
  have hg := UPipe.start hraw h
  obtain ⟨b1, t1, f1, r1, p1, q1, z1, _⟩ := UPipe.all_sent (me := me) (u := u) (c := c) (limit := limit) l s1
  have hg1 := UPipe.run_good hg r1
  obtain ⟨rest, hrest, hin⟩ := mine_prefix_rest (M := upLeft f1) hnet
  rw [← upLeft_append, ← hg1.net] at hin
  obtain ⟨b2, t2, f2, r2, p2, q2, _, w2, k2⟩ := UPipe.brings (me := me) (u := u) (c := c) (limit := limit) rest t1 hin
  have hg2 := UPipe.run_good hg1 r2
  obtain ⟨b3, t3, f3, r3, p3, _, w3, _, c3, x3, y3, _, _⟩ := UPipe.receives hlim _ t2 _ hg2 rfl
  have hg3 := UPipe.run_good hg2 r3
  obtain ⟨b4, r, f4, g1, g2, g3, g4, g5, g6, g7⟩ := (Rm.gets_reading hlim hg3.live hg3.keeps).trans hg3.live (fun s' h1 ⟨q1, q2, q3⟩ => Rm.gets_calm _ s' h1 (Nat.le_refl _) q1 q2 q3)
  have r4 : UPipe.Run me u c limit t3 (b4.map .rx) { t3 with rm := r } (f4.map .rx) := UPipe.lift g1 g2
  have hg4 := UPipe.run_good hg3 r4
  have hb := UPipe.run_trans (UPipe.run_trans (UPipe.run_trans r1 r2) r3) r4
  have hi : ∀ b ∈ b1 ++ b2 ++ b3 ++ b4.map UPAct.rx, b.Goes c.passive := by
    intro b hb
    rcases List.mem_append.1 hb with hb | hb
    · rcases List.mem_append.1 hb with hb | hb
      · rcases List.mem_append.1 hb with hb | hb
        · exact (p1 b hb).1
        · obtain ⟨k, rfl⟩ := p2 b hb; trivial
      · exact p3 b hb
    · exact MAct.go_goes g2 b hb
  have hcop : upCopies (es ++ (f1 ++ f2 ++ f3 ++ f4.map UPEv.rx)) = mine me 0 (upLeft (es ++ (f1 ++ f2 ++ f3 ++ f4.map UPEv.rx))) := by
    simp only [upCopies_append, upLeft_append, q1.cop, q2, c3, w2, w3, (up_rx 0 f4).2.2.1, (up_rx 0 f4).2.2.2.2, List.append_nil, List.nil_append]
    rw [hrest]
  generalize b1 ++ b2 ++ b3 ++ b4.map UPAct.rx = bs at hb hi
  generalize f1 ++ f2 ++ f3 ++ f4.map UPEv.rx = fs at hb hcop
  obtain ⟨p1', p2'⟩ := UPipe.run_play (UPipe.run_trans h hb)
  have hloop : ∀ x, (if c.passive then some (UPAct.rx .userRecv) else none) = some x →
      ∃ fs, UPipe.step me u c limit (play (UPipe.step me u c limit) (UPipe.init raw) (as ++ bs) (as ++ bs).length).1 x = some ((play (UPipe.step me u c limit) (UPipe.init raw) (as ++ bs) (as ++ bs).length).1, fs) := by
    intro x hx
    split at hx
    · next hp =>
      cases hx
      have hr : r.reading = true := by have := hg4.rm_inv.1.flag hp; simp only at this; rw [this, g5]
      rw [p1']
      refine ⟨[.rx .asked], ?_⟩
      simp [UPipe.step, MAct.ok, Rm.step, hp, hr]
      rw [← hr]
    · cases hx
  obtain ⟨e, he, hee⟩ := loop_exec (UPipe.init raw) (as ++ bs) (if c.passive then some (UPAct.rx .userRecv) else none) p2' hloop
  have hquiet : ∀ i ∈ l, (t3.tx i).Quiet := fun i hi => by rw [x3, k2]; exact z1 i hi
  obtain ⟨v1, v2, v3, v4, v5, _⟩ := Rm.work_zero hg4.rm_inv.1 g3
  have hno : ∀ (cl : UPAct → Bool), (∀ x, cl x = true → UPipe.step me u c limit { t3 with rm := r } x = none) →
      Fair (UPipe.step me u c limit) (fun n => (play (UPipe.step me u c limit) (UPipe.init raw) (as ++ bs) n).1)
        (fun n => if n < (as ++ bs).length then (as ++ bs)[n]? else if c.passive then some (UPAct.rx .userRecv) else none) cl := by
    intro cl hcl
    refine loop_fair (UPipe.init raw) (as ++ bs) _ cl (.inl (fun x hx => ?_))
    rw [p1']
    exact hcl x hx
  have htx : ∀ i ∈ l, ∀ cl : UAct → Bool, (∀ y, cl y = true → y = .loadReady ∨ y = .loadFlag ∨ y = .runPosted ∨ y.isStrand = true ∨ y = .resumeCheck ∨ y.isComplete = true ∨ y.isHandler = true) →
      ∀ x, UPAct.isTx i cl x = true → UPipe.step me u c limit { t3 with rm := r } x = none := by
    intro i hil cl hcl x hx
    obtain ⟨d1, d2, d3, d4, d5, d6, d7, d8⟩ := hquiet i hil
    cases x with
    | tx j y =>
      simp only [UPAct.isTx, Bool.and_eq_true, beq_iff_eq] at hx
      obtain ⟨rfl, hx⟩ := hx
      simp only [UPipe.step]
      split
      · rw [Option.map_eq_none_iff]
        have := hcl y hx
        cases y <;> simp_all [UAct.isStrand, UAct.isComplete, UAct.isHandler, Ux.step, Ux.strand]
      · rfl
    | _ => simp [UPAct.isTx] at hx
  have hrx : ∀ cl : MAct → Bool, (∀ y, cl y = true → y.internal = true) → ∀ x, UPAct.isRx cl x = true → UPipe.step me u c limit { t3 with rm := r } x = none := by
    intro cl hcl x hx
    cases x with
    | rx y =>
      have := hcl y hx
      simp only [UPipe.step]
      split
      · simp only at v1 v2 v3 v4 v5
        cases y <;> simp_all [MAct.ok, Rm.step, MAct.internal]
      · rfl
    | _ => simp [UPAct.isRx] at hx
  have one : ∀ x : MAct, x.internal = true → ∀ y, (y == x) = true → y.internal = true := by
    intro x hx y hy
    cases eq_of_beq hy
    exact hx
  have hend : e (as ++ bs).length = es ++ fs := by rw [hee _ (Nat.le_refl _), p1']
  refine ⟨_, _, e, rfl, fun i hil => ?_, ?_, he, ?_, ?_, fun i hil => ?_, ?_⟩
  · rw [if_pos (by rw [List.length_append]; omega)]
    exact List.getElem?_append_left hil
  · intro n x hn hx
    split at hx
    · rw [List.getElem?_append_right hn] at hx
      exact hi x (List.mem_of_getElem? hx)
    · split at hx
      · next hp => cases hx; exact .inr ⟨hp, rfl⟩
      · cases hx
  · rw [hee _ (by rw [List.length_append]; omega), play_le _ _ _ _ _ (Nat.le_refl _), (UPipe.run_play h).1]
  · exact {
      recv := hno _ (fun x hx => by
        cases x with
        | recv => simp only [UPipe.step, y3]; split <;> rfl
        | _ => simp [UPAct.isRecv] at hx)
      handle := hno _ (hrx _ (one _ rfl))
      onMsgRet := hno _ (hrx _ (fun y hy => by cases y <;> first | rfl | simp [MAct.isOnMsgRet] at hy))
      loadDisp := hno _ (hrx _ (one _ rfl))
      handled := hno _ (hrx _ (one _ rfl))
      checkTimer := hno _ (hrx _ (one _ rfl))
      doRecv := hno _ (hrx _ (one _ rfl))
      run := hno _ (hrx _ (one _ rfl))
      begin := hno _ (hrx _ (one _ rfl))
      dis := hno _ (hrx _ (one _ rfl))
      dtimer := hno _ (hrx _ (one _ rfl))
      accepts := hno _ (hrx _ (fun y hy => MAct.accept_internal hy))
      asks := fun hp => loop_fair (UPipe.init raw) (as ++ bs) _ _ (.inr ⟨.rx .userRecv, by rw [if_pos hp], rfl⟩) }
  · exact {
      loadReady := hno _ (htx i hil _ (fun y hy => .inl (eq_of_beq hy)))
      loadFlag := hno _ (htx i hil _ (fun y hy => .inr (.inl (eq_of_beq hy))))
      runPosted := hno _ (htx i hil _ (fun y hy => .inr (.inr (.inl (eq_of_beq hy)))))
      strand := hno _ (htx i hil _ (fun y hy => .inr (.inr (.inr (.inl hy)))))
      resume := hno _ (htx i hil _ (fun y hy => .inr (.inr (.inr (.inr (.inl (eq_of_beq hy)))))))
      kernel := hno _ (htx i hil _ (fun y hy => .inr (.inr (.inr (.inr (.inr (.inl hy)))))))
      handler := hno _ (htx i hil _ (fun y hy => .inr (.inr (.inr (.inr (.inr (.inr hy))))))) }
  · intro n k i x hk hme
    refine ⟨(as ++ bs).length, ?_⟩
    rw [hend, hcop]
    have hk' : (upLeft (es ++ fs))[k]? = some (i, x) := by
      rw [← hend]
      by_cases hn : n ≤ (as ++ bs).length
      · obtain ⟨gs, hgs⟩ := he.grow_le hn
        rw [hgs, upLeft_append, List.getElem?_append_left (List.getElem?_eq_some_iff.mp hk).1]
        exact hk
      · have hsame : ∀ d, upLeft (e ((as ++ bs).length + d)) = upLeft (e (as ++ bs).length) := by
          intro d
          induction d with
          | zero => rfl
          | succ d ih =>
            rw [← ih, ← Nat.add_assoc]
            cases hx : (fun n => if n < (as ++ bs).length then (as ++ bs)[n]? else if c.passive then some (UPAct.rx .userRecv) else none) ((as ++ bs).length + d) with
            | none => rw [(he.idle _ hx).2]
            | some y =>
              obtain ⟨gs, hs, h1⟩ := he.next _ y hx
              simp only at hx
              rw [if_neg (by omega)] at hx
              split at hx
              · cases hx
                rw [h1, upLeft_append]
                simp only [UPipe.step] at hs
                split at hs
                · obtain ⟨w, _, h2⟩ := Option.map_eq_some_iff.mp hs
                  have h3 := congrArg Prod.snd h2
                  simp only at h3
                  rw [← h3, (up_rx 0 _).2.2.1, List.append_nil]
                · cases hs
              · cases hx
        have := hsame (n - (as ++ bs).length)
        rw [show (as ++ bs).length + (n - (as ++ bs).length) = n by omega] at this
        rw [← this]
        exact hk
    have := mem_mine (n := 0) hk' hme
    rwa [Nat.zero_add] at this

end StAsio
