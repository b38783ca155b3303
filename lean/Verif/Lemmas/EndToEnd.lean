import Verif.Spec.EndToEnd
import Verif.Lemmas.TcpSend3
import Verif.Lemmas.RecvDispatch2
import Verif.Lemmas.Unpacker
import Verif.Lemmas.Sending
set_option autoImplicit false
namespace StAsio

theorem sentItems_append (a b : List PEv) : sentItems (a ++ b) = sentItems a ++ sentItems b := by
  induction a with
  | nil => rfl
  | cons e a ih => cases e <;> simp [sentItems, ih]

theorem handledItems_append (a b : List PEv) : handledItems (a ++ b) = handledItems a ++ handledItems b := by
  induction a with
  | nil => rfl
  | cons e a ih => cases e with
    | sent _ => simp [handledItems, ih]
    | handled m ok => cases ok <;> simp [handledItems, ih]

theorem rAccepted_append' (a b : List REv) : rAccepted (a ++ b) = rAccepted a ++ rAccepted b := by
  induction a with
  | nil => rfl
  | cons e a ih => cases e with
    | ret m ok => cases ok <;> simp [rAccepted, ih]
    | _ => simp [rAccepted, ih]

theorem handledItems_rxEv (es : List REv) : handledItems (es.filterMap rxEv) = rAccepted es ∧ sentItems (es.filterMap rxEv) = [] := by
  induction es with
  | nil => exact ⟨rfl, rfl⟩
  | cons e es ih => cases e with
    | ret m ok => cases ok <;> simp [rxEv, handledItems, sentItems, rAccepted, ih]
    | _ => rw [List.filterMap_cons_none (by rfl)]; exact ih

theorem SendCall.body_array (ps : List Piece) : (SendCall.array ps).body = content ps := by
  rfl

/-- What a send call with a valid configuration puts into the send buffer: the frame of its content, or nothing. -/
theorem SendCall.pack_spec {c : Cfg} (hv : c.Valid) {nd : Bool} (hr : c.bufSize < 256 ^ c.headLen) (call : SendCall)
    (hh : ∀ ps, call = .array ps → Readable ps) :
    ∃ r, call.pack c nd = some r ∧
      match r with
      | none => True
      | some bs => (call.single = true ∧ bs.flatten = []) ∨
          (bs.flatten = wire c.headLen call.body ∧ c.headLen + call.body.length ≤ c.bufSize ∧ c.headLen + call.body.length < 256 ^ c.headLen) := by
  have hl0 := c.headLen_pos
  have hv1 := hv.1
  have hpk : ∀ len, len ≤ maxMsgSize c → packHeader c nd len = some (be c.headLen (c.headLen + len)) := by
    intro len h
    unfold maxMsgSize at h
    exact packHeader_ok c nd len (by omega) (by omega)
  cases call with
  | array ps =>
    have h := hh ps rfl
    have hp := packArray_spec c hv false ps h
    simp only [Bool.false_eq_true, if_false] at hp
    have hlen := content_length ps h
    rw [SendCall.body_array]
    simp only [SendCall.pack, SendCall.single]
    rw [hp]
    split
    · exact ⟨_, rfl, Or.inl ⟨trivial, rfl⟩⟩
    · split
      · exact ⟨_, rfl, Or.inl ⟨trivial, rfl⟩⟩
      · split
        · exact ⟨_, rfl, Or.inl ⟨trivial, rfl⟩⟩
        · exact ⟨_, rfl, Or.inr ⟨by simp [wire, hlen], by omega, by omega⟩⟩
  | one m =>
    simp only [SendCall.pack, packOne]
    split
    · exact ⟨_, rfl, trivial⟩
    · next hm =>
      rw [hpk _ (by omega)]
      unfold maxMsgSize at hm
      exact ⟨_, rfl, Or.inr ⟨by simp [wire, SendCall.body], by simp only [SendCall.body]; omega, by simp only [SendCall.body]; omega⟩⟩
  | two m1 m2 =>
    simp only [SendCall.pack, packTwo]
    split
    · exact ⟨_, rfl, trivial⟩
    · next hm =>
      rw [hpk _ (by omega)]
      unfold maxMsgSize at hm
      exact ⟨_, rfl, Or.inr ⟨by simp [wire, SendCall.body], by simp only [SendCall.body, List.length_append]; omega, by simp only [SendCall.body, List.length_append]; omega⟩⟩
  | list ms =>
    simp only [SendCall.pack, packList, sizeInByte_eq]
    split
    · exact ⟨_, rfl, trivial⟩
    · next hm =>
      rw [hpk _ (by omega)]
      unfold maxMsgSize at hm
      exact ⟨_, rfl, Or.inr ⟨by simp only [wire, SendCall.body]; rfl, by simp only [SendCall.body]; omega, by simp only [SendCall.body]; omega⟩⟩
  | heartbeat =>
    simp only [SendCall.pack, packHeartbeat]
    rw [hpk 0 (by omega)]
    exact ⟨_, rfl, Or.inr ⟨by simp [wire, SendCall.body], by simpa [SendCall.body] using hv1, by simp only [SendCall.body, List.length_nil]; omega⟩⟩

/-! ### the sender -/

/-- What a healthy sender may do, plain sends included. -/
def TxAct.Plain : TxAct → Prop
  | .send _ prior _ => prior = false
  | .sendList _ prior => prior = false
  | a => a.healthy = true

theorem TxAct.healthy_internal {a : TxAct} (h : a.healthy = true) : a.Internal := by
  cases a with
  | complete i ok => cases ok <;> simp_all [TxAct.healthy, TxAct.Internal]
  | _ => simp_all [TxAct.healthy, TxAct.Internal]

theorem TxAct.healthy_wire {a : TxAct} (h : a.healthy = true) : (∀ i, a ≠ .complete i false) ∧ a ≠ .linkUp := by
  cases a with
  | complete i ok => cases ok <;> simp_all [TxAct.healthy]
  | _ => simp_all [TxAct.healthy]

theorem Tx.healthy_step {batch : Nat} {s s' : Tx} {a : TxAct} {es : List TxEv} (ha : a.healthy = true) (hs : s.step batch a = some (s', es)) :
    s'.ready = s.ready ∧ acceptedMsgs es = [] ∧ s.wire <+: s'.wire ∧ ∀ e ∈ es, PlainEv e := by
  have h1 := Tx.internal_run (Tx.run_one hs) (by intro b hb; simp at hb; subst hb; exact TxAct.healthy_internal ha)
  refine ⟨h1.1, h1.2, ?_, ?_⟩
  · cases a with
    | transfer i k =>
      simp only [Tx.step, Option.bind_eq_bind] at hs
      rw [Option.bind_eq_some_iff] at hs
      obtain ⟨w, hw, hs⟩ := hs
      split at hs
      · cases hs
      · cases hs; exact ⟨_, rfl⟩
    | complete i ok =>
      simp only [Tx.step, Option.bind_eq_bind] at hs
      rw [Option.bind_eq_some_iff] at hs
      obtain ⟨w, hw, hs⟩ := hs
      split at hs
      · cases hs
      · cases hs; exact List.prefix_refl _
    | handler i =>
      simp only [Tx.step, Option.bind_eq_bind] at hs
      rw [Option.bind_eq_some_iff] at hs
      obtain ⟨w, hw, hs⟩ := hs
      split at hs
      · cases hs
      · simp only [Tx.handler, Option.some.injEq] at hs
        split at hs <;> (cases hs; exact List.prefix_refl _)
    | strand =>
      simp only [Tx.step, Tx.strand] at hs
      (repeat' split at hs) <;> (cases hs; try exact List.prefix_refl _)
    | loadReady => simp only [Tx.step] at hs; split at hs <;> (cases hs; try exact List.prefix_refl _)
    | loadFlag => simp only [Tx.step] at hs; split at hs <;> (cases hs; try exact List.prefix_refl _)
    | runPosted => simp only [Tx.step] at hs; split at hs <;> (cases hs; try exact List.prefix_refl _)
    | _ => simp [TxAct.healthy] at ha
  · cases a with
    | transfer i k =>
      simp only [Tx.step, Option.bind_eq_bind] at hs
      rw [Option.bind_eq_some_iff] at hs
      obtain ⟨w, hw, hs⟩ := hs
      split at hs
      · cases hs
      · cases hs; simp
    | complete i ok =>
      simp only [Tx.step, Option.bind_eq_bind] at hs
      rw [Option.bind_eq_some_iff] at hs
      obtain ⟨w, hw, hs⟩ := hs
      split at hs
      · cases hs
      · cases hs; simp
    | handler i =>
      simp only [Tx.step, Option.bind_eq_bind] at hs
      rw [Option.bind_eq_some_iff] at hs
      obtain ⟨w, hw, hs⟩ := hs
      split at hs
      · cases hs
      · simp only [Tx.handler, Option.some.injEq] at hs
        split at hs
        · cases hs
          intro e he
          simp only [setPromises, List.mem_append, List.mem_filterMap, Option.map_eq_some_iff, List.mem_singleton] at he
          rcases he with ⟨m, _, p, _, rfl⟩ | rfl <;> simp [PlainEv]
        · cases hs
          intro e he
          simp only [setPromises, List.mem_append, List.mem_filterMap, Option.map_eq_some_iff, List.mem_singleton] at he
          rcases he with ⟨m, _, p, _, rfl⟩ | rfl <;> simp [PlainEv]
    | strand =>
      simp only [Tx.step, Tx.strand] at hs
      (repeat' split at hs) <;> (cases hs; try simp [PlainEv])
    | loadReady => simp only [Tx.step] at hs; split at hs <;> (cases hs; try simp)
    | loadFlag => simp only [Tx.step] at hs; split at hs <;> (cases hs; try simp)
    | runPosted => simp only [Tx.step] at hs; split at hs <;> (cases hs; try simp)
    | _ => simp [TxAct.healthy] at ha

/-- A send leaves everything but the send buffer and the thread count alone. -/
theorem Tx.send_step (s : Tx) (m : TxMsg) (fits : Bool) :
    (s.send m false fits).1.ready = s.ready ∧ (s.send m false fits).1.wire = s.wire ∧
      (((s.send m false fits).2 = [] ∧ (s.send m false fits).1 = s) ∨ ((s.send m false fits).2 = [.accept [m] false] ∧ m.data ≠ [])) := by
  unfold Tx.send
  split
  · exact ⟨rfl, rfl, Or.inl ⟨rfl, rfl⟩⟩
  · next hm =>
    simp only [Bool.false_eq_true, if_false]
    split
    · exact ⟨rfl, rfl, Or.inr ⟨rfl, by simpa using hm⟩⟩
    · exact ⟨rfl, rfl, Or.inl ⟨rfl, rfl⟩⟩

theorem Tx.sendList_step {s : Tx} (hi : s.Inv) (ms : List TxMsg) :
    (s.sendList ms false).1.ready = s.ready ∧ (s.sendList ms false).1.wire = s.wire ∧ (s.sendList ms false).2 = [.accept ms false] := by
  have hs := (Tx.step_inv (batch := 0) (a := .sendList ms false) hi (s' := (s.sendList ms false).1) (es := (s.sendList ms false).2) rfl).1.bad
  simp only [Tx.sendList, Bool.false_eq_true, if_false] at *
  split
  · next h => simp [h] at hs
  · exact ⟨rfl, rfl, rfl⟩

/-! ### the receiver -/

theorem RAct.healthy_step {limit : Nat} {s s' : Rx} {a : RAct} {es : List REv} (ha : a.healthy = true) (hs : s.step limit a = some (s', es)) :
    (s.dlost = false → s'.dlost = false) ∧ (s.rd ≠ .off → s'.rd ≠ .off) ∧ rReceived es = [] ∧ ∀ e ∈ es, RPlainEv e := by
  by_cases hr : a = .ret false
  · subst hr
    simp only [Rx.step] at hs
    split at hs
    · cases hs
    · split at hs
      · cases hs; simp [rReceived]
      · simp at hs; obtain ⟨rfl, rfl⟩ := hs; simp [rReceived, RPlainEv]
  · have hi : a.Internal := by
      cases a with
      | ret ok => cases ok <;> simp_all [RAct.Internal]
      | _ => simp_all [RAct.healthy, RAct.Internal]
    exact Rx.internal_step hi hs

theorem startRead_done {c : Cfg} {u : Unp} {log : List RxEvent} {k : Conn Unp} (h : startRead (unpackerOps c) u log = some k) : readDone k.ph = true := by
  simp only [startRead, Option.bind_eq_bind] at h
  rw [Option.bind_eq_some_iff] at h
  obtain ⟨⟨u1, cap⟩, h1, h⟩ := h
  simp only at h
  split at h
  · cases h; rfl
  · rw [Option.bind_eq_some_iff] at h
    obtain ⟨⟨u2, want⟩, h2, h⟩ := h
    simp only at h
    split at h <;> (cases h; rfl)

theorem recvHandler_done {c : Cfg} {k k' : Conn Unp} {got : Nat} (h : recvHandler (unpackerOps c) k got = some k') : readDone k'.ph = true := by
  simp only [recvHandler, Option.bind_eq_bind] at h
  rw [Option.bind_eq_some_iff] at h
  obtain ⟨⟨u, ms, ok⟩, h1, h⟩ := h
  simp only at h
  split at h <;> exact startRead_done h

/-- As long as async_read is not complete, nothing is delivered. -/
theorem readSome_undone {c : Cfg} {cwf : Bool} {k k' : Conn Unp} {cap got : Nat} {d : Bytes}
    (h : readSome (unpackerOps c) cwf k cap got d = some k') (hd : readDone k'.ph = false) : k'.log = k.log := by
  have key : ∀ {k1 : Conn Unp} {g : Nat}, recvHandler (unpackerOps c) k1 g = some k' → k'.log = k.log := by
    intro k1 g h
    rw [recvHandler_done h] at hd
    cases hd
  simp only [readSome, Option.bind_eq_bind] at h
  rw [Option.bind_eq_some_iff] at h
  obtain ⟨u, h1, h⟩ := h
  split at h
  · split at h
    · rw [Option.bind_eq_some_iff] at h
      obtain ⟨⟨u1, w⟩, h2, h⟩ := h
      exact key h
    · exact key h
  · rw [Option.bind_eq_some_iff] at h
    obtain ⟨⟨u1, w⟩, h2, h⟩ := h
    simp only at h
    split at h
    · exact key h
    · cases h; rfl

theorem newMsgs_append (l : List RxEvent) (ms : List Bytes) : newMsgs l (l ++ msgs ms) = ms := by
  simp only [newMsgs, List.drop_left, msgs, List.filterMap_map]
  induction ms with
  | nil => rfl
  | cons m ms ih => simp [ih]

/-! ### the invariant of the whole path -/

/-- The sender of a link that was just established. -/
def Tx.up : Tx := { Tx.init with ready := true, atReady := 1 }

theorem Tx.up_step (batch : Nat) : Tx.step batch Tx.init .linkUp = some (Tx.up, []) := by
  simp [Tx.step, Tx.init, Tx.noAsync, Q.init, Tx.up]

theorem Tx.up_inv : Tx.up.Inv := (Tx.step_inv Tx.init_inv (Tx.up_step 0)).1

structure Pipe.Good (c : Cfg) (st : Bool) (batch limit : Nat) (s : Pipe) (es : List PEv) : Prop where
  tx : ∃ tas tes, Tx.Run batch Tx.up tas s.tx tes ∧ (∀ a ∈ tas, (∀ i, a ≠ .complete i false) ∧ a ≠ .linkUp) ∧
    (∀ e ∈ tes, PlainEv e) ∧ TxMsg.bytes (acceptedMsgs tes) = ((sentItems es).map (wire c.headLen)).flatten
  ready : s.tx.ready = true
  small : ∀ b ∈ sentItems es, c.headLen + b.length ≤ c.bufSize ∧ c.headLen + b.length < 256 ^ c.headLen
  rx : ∃ ras res, Rx.Run limit Rx.init ras s.rx res ∧ (∀ e ∈ res, RPlainEv e) ∧ rAccepted res = handledItems es ∧
    s.conn.log = msgs (rReceived res) ∧
    ∃ p, frameDec c.headLen c.bufSize st (s.tx.wire.take s.off) = (rReceived res, some p) ∧ UnpRel c st s.conn p
  off : s.off ≤ s.tx.wire.length
  bad : s.bad = false
  rd : s.rx.rd ≠ .off
  dlost : s.rx.dlost = false

theorem Pipe.init_good (c : Cfg) (hv : c.Valid) (st : Bool) (batch limit : Nat) (raw : Bytes) (hraw : raw.length = c.bufSize) :
    ∃ s, Pipe.init c raw st = some s ∧ Pipe.Good c st batch limit s [] := by
  obtain ⟨k, h1, h2, h3⟩ := unpacker_start c hv raw hraw st
  refine ⟨_, by simp only [Pipe.init, h1]; rfl, ?_⟩
  have hrx : Rx.step limit Rx.init .linkUp = some ({ Rx.init with rd := .reading }, []) := by
    simp [Rx.step, Rx.init]
  exact ⟨⟨[], [], Tx.Run.nil _, by simp, by simp, rfl⟩, rfl, by simp [sentItems],
    ⟨_, _, Rx.run_one hrx, by simp, rfl, by rw [h2]; rfl, [], by simpa [rReceived] using (frameDec_incremental c.headLen c.bufSize c.headLen_pos st).nil, h3⟩,
    by simp, rfl, by simp, rfl⟩

/-- The stream consists of the frames of the messages sent. -/
theorem Pipe.Good.stream {c : Cfg} {st : Bool} {batch limit : Nat} {s : Pipe} {es : List PEv} (h : s.Good c st batch limit es) :
    s.tx.wire ++ (s.tx.unwritten ++ TxMsg.bytes s.tx.q.items) = ((sentItems es).map (wire c.headLen)).flatten := by
  obtain ⟨tas, tes, hrun, hf, hp, hacc⟩ := h.tx
  have hw := Tx.run_wire Tx.up_inv hrun hf
  have h0 : Tx.up.wire ++ Tx.up.unwritten = [] := rfl
  have hm := monitor_plain (Tx.run_inv Tx.up_inv hrun).2 hp
  have hm : acceptedMsgs tes = handedMsgs tes ++ s.tx.q.items := by
    have : Tx.up.ideal.waiting = [] := rfl
    rw [this, List.nil_append] at hm
    exact hm
  rw [← hacc, hm, TxMsg.bytes_append, ← List.append_assoc, hw, h0, List.nil_append]

/-- The messages decoded so far are those completely contained in the bytes read so far. -/
theorem Pipe.Good.arrived {c : Cfg} {st : Bool} {batch limit : Nat} {s : Pipe} {es : List PEv} (h : s.Good c st batch limit es) :
    ∀ n, n ≤ s.tx.wire.length → ∃ p, frameDec c.headLen c.bufSize st (s.tx.wire.take n) = (StAsio.arrived c.headLen st (sentItems es) n, some p) := by
  intro n hn
  have hst := h.stream
  have hs : s.tx.wire.take n ++ (s.tx.wire.drop n ++ (s.tx.unwritten ++ TxMsg.bytes s.tx.q.items)) = ((sentItems es).map (wire c.headLen)).flatten := by
    rw [← List.append_assoc, List.take_append_drop, hst]
  obtain ⟨h1, r, h2⟩ := frames_arrived c.headLen_pos st (sentItems es) h.small _ _ hs
  refine ⟨r, ?_⟩
  simp only [frameDec, h1, h2, List.length_take, Nat.min_eq_left hn]

theorem Pipe.Good.tx_inv {c : Cfg} {st : Bool} {batch limit : Nat} {s : Pipe} {es : List PEv} (h : s.Good c st batch limit es) : s.tx.Inv := by
  obtain ⟨tas, tes, hrun, _⟩ := h.tx
  exact (Tx.run_inv Tx.up_inv hrun).1

theorem Pipe.Good.rx_inv {c : Cfg} {st : Bool} {batch limit : Nat} {s : Pipe} {es : List PEv} (h : s.Good c st batch limit es) : s.rx.Inv := by
  obtain ⟨ras, res, hrun, _⟩ := h.rx
  exact (Rx.run_inv Rx.init_inv hrun).1

theorem Pipe.Good.of_tx {c : Cfg} {st : Bool} {batch limit : Nat} {s : Pipe} {es fs : List PEv} (h : s.Good c st batch limit es) {t : Tx} {tes : List TxEv} {a : TxAct}
    (hs : s.tx.step batch a = some (t, tes)) (ha : (∀ i, a ≠ .complete i false) ∧ a ≠ .linkUp) (hp : ∀ e ∈ tes, PlainEv e)
    (hr : t.ready = s.tx.ready) (hw : s.tx.wire <+: t.wire) (hb : TxMsg.bytes (acceptedMsgs tes) = ((sentItems fs).map (wire c.headLen)).flatten)
    (hsm : ∀ b ∈ sentItems fs, c.headLen + b.length ≤ c.bufSize ∧ c.headLen + b.length < 256 ^ c.headLen) (hh : handledItems fs = []) :
    Pipe.Good c st batch limit { s with tx := t } (es ++ fs) := by
  obtain ⟨tas, tes0, hrun, hf, hp0, hacc⟩ := h.tx
  obtain ⟨ras, res, r1, r2, r3, r4, p, r5, r6⟩ := h.rx
  obtain ⟨w, hw⟩ := hw
  have hoff := h.off
  refine ⟨⟨tas ++ [a], tes0 ++ tes, Tx.Run.snoc _ _ _ _ _ _ _ hrun hs, ?_, ?_, ?_⟩, by rw [← h.ready]; exact hr, ?_,
    ⟨ras, res, r1, r2, ?_, r4, p, ?_, r6⟩, ?_, h.bad, h.rd, h.dlost⟩
  · intro b hb
    rw [List.mem_append, List.mem_singleton] at hb
    rcases hb with hb | rfl
    · exact hf b hb
    · exact ha
  · intro e he
    rw [List.mem_append] at he
    rcases he with he | he
    · exact hp0 e he
    · exact hp e he
  · rw [acceptedMsgs_append, TxMsg.bytes_append, hacc, hb, sentItems_append, List.map_append, List.flatten_append]
  · intro b hb
    rw [sentItems_append, List.mem_append] at hb
    rcases hb with hb | hb
    · exact h.small b hb
    · exact hsm b hb
  · rw [handledItems_append, hh, List.append_nil]; exact r3
  · rw [← hw, List.take_append_of_le_length hoff]; exact r5
  · rw [← hw, List.length_append]; simp only; omega

theorem Pipe.step_good {c : Cfg} (hv : c.Valid) {nd cwf : Bool} (hr : c.bufSize < 256 ^ c.headLen) {st : Bool} {batch limit : Nat} {s s' : Pipe} {a : PAct}
    {es fs : List PEv} (h : s.Good c st batch limit es) (ha : a.Honest) (hs : s.step c nd cwf batch limit a = some (s', fs)) :
    s'.Good c st batch limit (es ++ fs) := by
  cases a with
  | send call fits =>
    obtain ⟨r, hp, hr⟩ := SendCall.pack_spec hv (nd := nd) hr call (by intro ps hps; subst hps; exact ha)
    simp only [Pipe.step, hp] at hs
    cases r with
    | none => simp at hs; obtain ⟨rfl, rfl⟩ := hs; simpa using h
    | some bs =>
      simp only at hr hs
      simp only [Option.some.injEq, Prod.mk.injEq] at hs
      obtain ⟨rfl, rfl⟩ := hs
      cases hsg : call.single
      · simp only [Bool.false_eq_true, if_false]
        obtain ⟨e1, e2, e3⟩ := Tx.sendList_step h.tx_inv (bs.map (fun b => (⟨b, none⟩ : TxMsg)))
        rw [hsg] at hr
        simp at hr
        rw [e3]
        refine h.of_tx (a := .sendList (bs.map (fun b => (⟨b, none⟩ : TxMsg))) false) (tes := [.accept (bs.map (fun b => (⟨b, none⟩ : TxMsg))) false]) (by simp only [Tx.step]; rw [← e3]) ⟨by simp, by simp⟩ ?_ e1 (by rw [e2]; exact List.prefix_refl _) ?_ ?_ rfl
        · simp [PlainEv]
        · simp [acceptedMsgs, TxMsg.bytes, sentItems, ← hr.1, Function.comp_def]
        · simp [sentItems, hr.2]
      · simp only [if_true]
        obtain ⟨e1, e2, e3⟩ := Tx.send_step s.tx (⟨bs.flatten, none⟩ : TxMsg) fits
        rcases e3 with ⟨e3, e4⟩ | ⟨e3, e4⟩
        · rw [e3, e4]; simpa using h
        · have hr : bs.flatten = wire c.headLen call.body ∧ c.headLen + call.body.length ≤ c.bufSize ∧ c.headLen + call.body.length < 256 ^ c.headLen := by
            rcases hr with hr | hr
            · exact absurd hr.2 e4
            · exact hr
          rw [e3]
          refine h.of_tx (a := .send ⟨bs.flatten, none⟩ false fits) (tes := [.accept [⟨bs.flatten, none⟩] false]) (by simp only [Tx.step]; rw [← e3]) ⟨by simp, by simp⟩ ?_ e1 (by rw [e2]; exact List.prefix_refl _) ?_ ?_ rfl
          · simp [PlainEv]
          · simp [acceptedMsgs, TxMsg.bytes, sentItems, ← hr.1]
          · simp [sentItems, hr.2]
  | tx a =>
    simp only [Pipe.step] at hs
    split at hs
    · next hh =>
      rw [Option.map_eq_some_iff] at hs
      obtain ⟨⟨t, tes⟩, h1, h2⟩ := hs
      cases h2
      obtain ⟨e1, e2, e3, e4⟩ := Tx.healthy_step hh h1
      exact h.of_tx h1 (TxAct.healthy_wire hh) e4 e1 e3 (by rw [e2]; rfl) (by simp [sentItems]) rfl
    · cases hs
  | rx a =>
    simp only [Pipe.step] at hs
    split at hs
    · next hh =>
      rw [Option.map_eq_some_iff] at hs
      obtain ⟨⟨t, tes⟩, h1, h2⟩ := hs
      cases h2
      obtain ⟨e1, e2, e3, e4⟩ := RAct.healthy_step hh h1
      obtain ⟨f1, f2⟩ := handledItems_rxEv tes
      obtain ⟨ras, res, r1, r2, r3, r4, p, r5, r6⟩ := h.rx
      refine ⟨?_, h.ready, ?_, ⟨_, _, Rx.Run.snoc _ _ _ _ _ _ _ r1 h1, ?_, ?_, ?_, p, ?_, r6⟩, h.off, h.bad, e2 h.rd, e1 h.dlost⟩
      · rw [sentItems_append, f2, List.append_nil]; exact h.tx
      · rw [sentItems_append, f2, List.append_nil]; exact h.small
      · intro e he
        rw [List.mem_append] at he
        rcases he with he | he
        · exact r2 e he
        · exact e4 e he
      · rw [rAccepted_append', handledItems_append, f1, r3]
      · rw [rReceived_append, e3, List.append_nil]; exact r4
      · rw [rReceived_append, e3, List.append_nil]; exact r5
    · cases hs
  | net k =>
    obtain ⟨ras, res, r1, r2, r3, r4, p, r5, r6⟩ := h.rx
    simp only [Pipe.step] at hs
    split at hs
    · next cap got want hrd hph =>
      split at hs
      · next hk =>
        obtain ⟨k0, k1, k2, k3⟩ := hk
        have hdl : ((s.tx.wire.drop s.off).take k).length = k := by rw [List.length_take, List.length_drop]; omega
        have hsplit : s.tx.wire.take (s.off + k) = s.tx.wire.take s.off ++ (s.tx.wire.drop s.off).take k := by
          rw [List.take_add]
        generalize hd : (s.tx.wire.drop s.off).take k = d at *
        obtain ⟨conn, hc, hm⟩ := (unpacker_simulates c hv st cwf).step s.conn p cap got want d r6 hph
          (by intro h0; rw [h0] at hdl; simp at hdl; omega) (by omega) (by omega)
        obtain ⟨q, hq⟩ := h.arrived (s.off + k) k3
        have hmore := (frameDec_incremental c.headLen c.bufSize c.headLen_pos st).more _ d _ p r5
        rw [← hsplit, hq] at hmore
        cases hdec : frameDec c.headLen c.bufSize st (p ++ d) with
        | mk ms t =>
          rw [hdec] at hmore hm
          simp only [Prod.mk.injEq] at hmore
          obtain ⟨hm1, hm2⟩ := hmore
          subst hm2
          simp only at hm
          obtain ⟨hlog, hrel⟩ := hm
          rw [hc] at hs
          simp only at hs
          have hdec' : frameDec c.headLen c.bufSize st (s.tx.wire.take (s.off + k)) = (rReceived res ++ ms, some q) := by rw [hq, hm1]
          split at hs
          · rw [Option.map_eq_some_iff] at hs
            obtain ⟨⟨t, tes⟩, h1, h2⟩ := hs
            cases h2
            rw [hlog, newMsgs_append] at h1
            have hti := Rx.step_inv (Rx.run_inv Rx.init_inv r1).1 h1
            have hres : rReceived tes = ms ∧ (∀ e ∈ tes, RPlainEv e) ∧ t.rd ≠ .off ∧ t.dlost = false := by
              simp only [Rx.step, hrd] at h1
              simp only [ne_eq, not_true_eq_false, if_false] at h1
              split at h1
              · next he => cases h1; exact ⟨by simp only [rReceived]; exact (List.isEmpty_iff.mp he).symm, by simp, by simp, h.dlost⟩
              · split at h1
                · cases h1; exact absurd hti.1.bad (by simp)
                · cases h1; exact ⟨by simp [rReceived], by simp [RPlainEv], by simp, h.dlost⟩
            obtain ⟨g1, g2, g3, g4⟩ := hres
            obtain ⟨f1, f2⟩ := handledItems_rxEv tes
            refine ⟨?_, h.ready, ?_, ⟨_, _, Rx.Run.snoc _ _ _ _ _ _ _ r1 h1, ?_, ?_, ?_, q, ?_, hrel⟩, k3, h.bad, g3, g4⟩
            · rw [sentItems_append, f2, List.append_nil]; exact h.tx
            · rw [sentItems_append, f2, List.append_nil]; exact h.small
            · intro e he
              rw [List.mem_append] at he
              rcases he with he | he
              · exact r2 e he
              · exact g2 e he
            · rw [rAccepted_append', handledItems_append, f1, r3]
            · rw [rReceived_append, g1, hlog, r4]; simp [msgs]
            · rw [rReceived_append, g1]; exact hdec'
          · next hnd =>
            simp only [Option.some.injEq, Prod.mk.injEq] at hs
            obtain ⟨rfl, rfl⟩ := hs
            have hl := readSome_undone hc (by simpa using hnd)
            have hms : ms = [] := by
              rw [hlog] at hl
              have := List.append_right_eq_self.mp hl
              simpa [msgs] using this
            subst hms
            rw [List.append_nil] at hdec' ⊢
            exact ⟨h.tx, h.ready, h.small, ⟨ras, res, r1, r2, r3, by simpa [hl] using r4, q, hdec', hrel⟩, k3, h.bad, h.rd, h.dlost⟩
      · cases hs
    · cases hs

theorem Pipe.run_good {c : Cfg} (hv : c.Valid) {nd cwf : Bool} (hr : c.bufSize < 256 ^ c.headLen) {st : Bool} {batch limit : Nat} {s s' : Pipe} {as : List PAct}
    {es fs : List PEv} (h : s.Good c st batch limit es) (ha : ∀ a ∈ as, a.Honest) (hs : Pipe.Run c nd cwf batch limit s as s' fs) :
    s'.Good c st batch limit (es ++ fs) := by
  induction hs with
  | nil => simpa using h
  | snoc s1 s2 as a es1 fs1 hr1 hs1 ih =>
    rw [← List.append_assoc]
    exact Pipe.step_good hv hr (ih (fun x hx => ha x (by simp [hx]))) (ha a (by simp)) hs1

end StAsio
