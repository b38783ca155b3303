import Verif.Spec.Protocols
import Verif.Lemmas.EndToEnd2
set_option autoImplicit false
namespace StAsio

theorem startRead_doneG {σ : Type} {o : UnpackerOps σ} {u : σ} {log : List RxEvent} {k : Conn σ} (h : startRead o u log = some k) : readDone k.ph = true := by
  simp only [startRead, Option.bind_eq_bind] at h
  rw [Option.bind_eq_some_iff] at h
  obtain ⟨⟨u1, cap⟩, h1, h⟩ := h
  simp only at h
  split at h
  · cases h; rfl
  · rw [Option.bind_eq_some_iff] at h
    obtain ⟨⟨u2, want⟩, h2, h⟩ := h
    simp only at h
    split at h <;> (cases h; rfl)

theorem recvHandler_doneG {σ : Type} {o : UnpackerOps σ} {k k' : Conn σ} {got : Nat} (h : recvHandler o k got = some k') : readDone k'.ph = true := by
  simp only [recvHandler, Option.bind_eq_bind] at h
  rw [Option.bind_eq_some_iff] at h
  obtain ⟨⟨u, ms, ok⟩, h1, h⟩ := h
  simp only at h
  split at h <;> exact startRead_doneG h

/-- As long as async_read is not complete, nothing is delivered. -/
theorem readSome_undoneG {σ : Type} {o : UnpackerOps σ} {cwf : Bool} {k k' : Conn σ} {cap got : Nat} {d : Bytes}
    (h : readSome o cwf k cap got d = some k') (hd : readDone k'.ph = false) : k'.log = k.log := by
  have key : ∀ {k1 : Conn σ} {g : Nat}, recvHandler o k1 g = some k' → k'.log = k.log := by
    intro k1 g h
    rw [recvHandler_doneG h] at hd
    cases hd
  simp only [readSome, Option.bind_eq_bind] at h
  rw [Option.bind_eq_some_iff] at h
  obtain ⟨u, h1, h⟩ := h
  split at h
  · split at h
    · rw [Option.bind_eq_some_iff] at h
      obtain ⟨⟨u1, w⟩, h2, h⟩ := h
      exact key h
    · exact key h
  · rw [Option.bind_eq_some_iff] at h
    obtain ⟨⟨u1, w⟩, h2, h⟩ := h
    simp only at h
    split at h
    · exact key h
    · cases h; rfl

/-- The unpacker of a pair does its work: `Inv s k` describes the reception after the bytes `s`. -/
structure Codec.Reads (K : Codec) (cwf : Bool) (w : Item → Bytes) (Ok : Item → Prop) (Shown : List Item → Nat → List Bytes → Prop) (Inv : Bytes → Conn K.σ → Prop) : Prop where
  start : ∃ k, startRead K.ops K.u0 [] = some k ∧ k.log = [] ∧ Inv [] k
  reading : ∀ s k, Inv s k → ∃ cap got want, k.ph = .reading cap got want ∧ 0 < want ∧ got < cap
  step : ∀ s k cap got want d, Inv s k → k.ph = .reading cap got want → d ≠ [] → d.length ≤ want → got + d.length ≤ cap →
    ∀ items : List Item, (∀ b ∈ items, Ok b) → ∀ later, (s ++ d) ++ later = (items.map w).flatten →
    ∃ k' ms, readSome K.ops cwf k cap got d = some k' ∧ k'.log = k.log ++ msgs ms ∧ Inv (s ++ d) k'
  shown : ∀ s k, Inv s k → ∀ items : List Item, (∀ b ∈ items, Ok b) → ∀ later, s ++ later = (items.map w).flatten → ∀ ms, k.log = msgs ms → Shown items s.length ms
  count : ∀ items n ms, Shown items n ms → ms.length ≤ n

/-- The packer of a pair does its work. -/
def Codec.Packs (K : Codec) (w : Item → Bytes) (Ok : Item → Prop) (May : SendCall → Prop) : Prop :=
  ∀ call, May call → ∃ r, K.pack call = some r ∧
    match r with
    | none => True
    | some bs => (call.single = true ∧ bs.flatten = []) ∨ (bs.flatten = w call.body ∧ Ok call.body)

/-- What always holds, also after the link ended. -/
structure GPipe.Core {K : Codec} (w : Item → Bytes) (Ok : Item → Prop) (Inv : Bytes → Conn K.σ → Prop) (batch limit : Nat) (s : GPipe K) (es : List PEv) : Prop where
  tx : ∃ tas tes, Tx.Run batch Tx.up tas s.tx tes ∧ (∀ a ∈ tas, (∀ i, a ≠ .complete i false) ∧ a ≠ .linkUp) ∧
    (∀ e ∈ tes, PlainEv e) ∧ TxMsg.bytes (acceptedMsgs tes) = ((sentItems es).map w).flatten
  ready : s.tx.ready = true
  ok : ∀ b ∈ sentItems es, Ok b
  rx : ∃ ras res, Rx.Run limit Rx.init ras s.rx res ∧ (∀ e ∈ res, RPlainEv e) ∧ rAccepted res = handledItems es ∧ s.conn.log = msgs (rReceived res)
  inv : Inv (s.tx.wire.take s.off) s.conn
  off : s.off ≤ s.tx.wire.length
  bad : s.bad = false

/-- What holds while the link works. -/
structure GPipe.Good {K : Codec} (w : Item → Bytes) (Ok : Item → Prop) (Inv : Bytes → Conn K.σ → Prop) (batch limit : Nat) (s : GPipe K) (es : List PEv) : Prop
    extends GPipe.Core w Ok Inv batch limit s es where
  rd : s.rx.rd ≠ .off
  dlost : s.rx.dlost = false

section
variable {K : Codec} {cwf : Bool} {w : Item → Bytes} {Ok : Item → Prop} {Shown : List Item → Nat → List Bytes → Prop} {Inv : Bytes → Conn K.σ → Prop}
  {May : SendCall → Prop} {batch limit : Nat}

theorem GPipe.init_good (hK : K.Reads cwf w Ok Shown Inv) (batch limit : Nat) : ∃ s, GPipe.init K = some s ∧ GPipe.Good w Ok Inv batch limit s [] := by
  obtain ⟨k, h1, h2, h3⟩ := hK.start
  refine ⟨_, by simp only [GPipe.init, h1]; rfl, ?_⟩
  have hrx : Rx.step limit Rx.init .linkUp = some ({ Rx.init with rd := .reading }, []) := by
    simp [Rx.step, Rx.init]
  exact ⟨⟨⟨[], [], Tx.Run.nil _, by simp, by simp, rfl⟩, rfl, by simp [sentItems],
    ⟨_, _, Rx.run_one hrx, by simp, rfl, by rw [h2]; rfl⟩, by simpa using h3, by simp, rfl⟩, by simp, rfl⟩

/-- The stream consists of the wire forms of the messages sent. -/
theorem GPipe.Core.stream {s : GPipe K} {es : List PEv} (h : s.Core w Ok Inv batch limit es) :
    s.tx.wire ++ (s.tx.unwritten ++ TxMsg.bytes s.tx.q.items) = ((sentItems es).map w).flatten := by
  obtain ⟨tas, tes, hrun, hf, hp, hacc⟩ := h.tx
  have hw := Tx.run_wire Tx.up_inv hrun hf
  have h0 : Tx.up.wire ++ Tx.up.unwritten = [] := rfl
  have hm := monitor_plain (Tx.run_inv Tx.up_inv hrun).2 hp
  have hm : acceptedMsgs tes = handedMsgs tes ++ s.tx.q.items := by
    have : Tx.up.ideal.waiting = [] := rfl
    rw [this, List.nil_append] at hm
    exact hm
  rw [← hacc, hm, TxMsg.bytes_append, ← List.append_assoc, hw, h0, List.nil_append]

theorem GPipe.Core.split {s : GPipe K} {es : List PEv} (h : s.Core w Ok Inv batch limit es) (n : Nat) :
    s.tx.wire.take n ++ (s.tx.wire.drop n ++ (s.tx.unwritten ++ TxMsg.bytes s.tx.q.items)) = ((sentItems es).map w).flatten := by
  rw [← List.append_assoc, List.take_append_drop, h.stream]

theorem GPipe.Core.tx_inv {s : GPipe K} {es : List PEv} (h : s.Core w Ok Inv batch limit es) : s.tx.Inv := by
  obtain ⟨tas, tes, hrun, _⟩ := h.tx
  exact (Tx.run_inv Tx.up_inv hrun).1

theorem GPipe.Core.rx_inv {s : GPipe K} {es : List PEv} (h : s.Core w Ok Inv batch limit es) : s.rx.Inv := by
  obtain ⟨ras, res, hrun, _⟩ := h.rx
  exact (Rx.run_inv Rx.init_inv hrun).1

/-- What was handed over fits the bytes read. -/
theorem GPipe.Core.shown (hK : K.Reads cwf w Ok Shown Inv) {s : GPipe K} {es : List PEv} (h : s.Core w Ok Inv batch limit es) {ms : List Bytes} (hm : s.conn.log = msgs ms) :
    Shown (sentItems es) s.off ms := by
  have := hK.shown _ _ h.inv _ h.ok _ (h.split s.off) ms hm
  have hl : (s.tx.wire.take s.off).length = s.off := by rw [List.length_take]; have := h.off; omega
  rwa [hl] at this

theorem GPipe.Core.log_le (hK : K.Reads cwf w Ok Shown Inv) {s : GPipe K} {es : List PEv} (h : s.Core w Ok Inv batch limit es) : s.conn.log.length ≤ s.off := by
  obtain ⟨ras, res, r1, r2, r3, r4⟩ := h.rx
  have := hK.count _ _ _ (h.shown hK r4)
  rw [r4, msgs, List.length_map]
  exact this

theorem GPipe.Core.of_tx {s : GPipe K} {es fs : List PEv} (h : s.Core w Ok Inv batch limit es) {t : Tx} {tes : List TxEv} {a : TxAct}
    (hs : s.tx.step batch a = some (t, tes)) (ha : (∀ i, a ≠ .complete i false) ∧ a ≠ .linkUp) (hp : ∀ e ∈ tes, PlainEv e)
    (hr : t.ready = s.tx.ready) (hw : s.tx.wire <+: t.wire) (hb : TxMsg.bytes (acceptedMsgs tes) = ((sentItems fs).map w).flatten)
    (hsm : ∀ b ∈ sentItems fs, Ok b) (hh : handledItems fs = []) :
    GPipe.Core w Ok Inv batch limit { s with tx := t } (es ++ fs) := by
  obtain ⟨tas, tes0, hrun, hf, hp0, hacc⟩ := h.tx
  obtain ⟨ras, res, r1, r2, r3, r4⟩ := h.rx
  obtain ⟨x, hx⟩ := hw
  have hoff := h.off
  refine ⟨⟨tas ++ [a], tes0 ++ tes, Tx.Run.snoc _ _ _ _ _ _ _ hrun hs, ?_, ?_, ?_⟩, by rw [← h.ready]; exact hr, ?_,
    ⟨ras, res, r1, r2, ?_, r4⟩, ?_, ?_, h.bad⟩
  · intro b hb
    rw [List.mem_append, List.mem_singleton] at hb
    rcases hb with hb | rfl
    · exact hf b hb
    · exact ha
  · intro e he
    rw [List.mem_append] at he
    rcases he with he | he
    · exact hp0 e he
    · exact hp e he
  · rw [acceptedMsgs_append, TxMsg.bytes_append, hacc, hb, sentItems_append, List.map_append, List.flatten_append]
  · intro b hb
    rw [sentItems_append, List.mem_append] at hb
    rcases hb with hb | hb
    · exact h.ok b hb
    · exact hsm b hb
  · rw [handledItems_append, hh, List.append_nil]; exact r3
  · simp only; rw [← hx, List.take_append_of_le_length hoff]; exact h.inv
  · rw [← hx, List.length_append]; simp only; omega

/-- One arrival of bytes. -/
theorem GPipe.Core.net (hK : K.Reads cwf w Ok Shown Inv) {s : GPipe K} {es : List PEv} (h : s.Core w Ok Inv batch limit es) {k cap got want : Nat}
    (hph : s.conn.ph = .reading cap got want) (k0 : 0 < k) (k1 : k ≤ want) (k2 : got + k ≤ cap) (k3 : s.off + k ≤ s.tx.wire.length) :
    ∃ conn ms, readSome K.ops cwf s.conn cap got ((s.tx.wire.drop s.off).take k) = some conn ∧ conn.log = s.conn.log ++ msgs ms ∧
      Inv (s.tx.wire.take (s.off + k)) conn := by
  have hdl : ((s.tx.wire.drop s.off).take k).length = k := by rw [List.length_take, List.length_drop]; omega
  have hsplit : s.tx.wire.take (s.off + k) = s.tx.wire.take s.off ++ (s.tx.wire.drop s.off).take k := by
    rw [List.take_add]
  have hst := h.split (s.off + k)
  rw [hsplit] at hst ⊢
  exact hK.step _ _ cap got want _ h.inv hph (by intro h0; rw [h0] at hdl; simp at hdl; omega) (by omega) (by omega) _ h.ok _ hst

/-- The receiver gets the messages of one async_read. -/
theorem Rx.read_step {limit : Nat} {s t : Rx} {ms : List Bytes} {tes : List REv} (hi : s.Inv) (hrd : s.rd = .reading)
    (h1 : s.step limit (.read ms) = some (t, tes)) :
    rReceived tes = ms ∧ (∀ e ∈ tes, RPlainEv e) ∧ t.rd ≠ .off ∧ t.dlost = s.dlost ∧ t.work ≤ s.work + 5 + 10 * ms.length := by
  have hti := Rx.step_inv hi h1
  have hmon := hti.2
  simp only [Rx.step, hrd] at h1
  simp only [ne_eq, not_true_eq_false, if_false] at h1
  split at h1
  · next he =>
    cases h1
    refine ⟨by simp only [rReceived]; exact (List.isEmpty_iff.mp he).symm, by simp, by simp, rfl, ?_⟩
    simp only [Rx.work, Rx.pcWork, hrd, RPc.work]; omega
  · split at h1
    · cases h1; exact absurd hti.1.bad (by simp)
    · next q' hq' =>
      cases h1
      refine ⟨by simp [rReceived], by simp [RPlainEv], by simp, rfl, ?_⟩
      have hit : q'.items = s.buf.items ++ ms := by
        simp [IdealRx.monitor, IdealRx.event, Rx.ideal] at hmon
        exact hmon.symm
      simp only [Rx.work, Rx.pcWork, hrd, RPc.work, hit, List.length_append]
      omega

/-- The sender and the network leave the receiver's timers alone, and receiving goes on. -/
theorem GPipe.step_rd {s s' : GPipe K} {a : PAct} {fs : List PEv} (hi : s.rx.Inv) (hs : s.step cwf batch limit a = some (s', fs)) :
    (s.rx.rd ≠ .off → s'.rx.rd ≠ .off) ∧ (s.rx.dlost = false → s'.rx.dlost = false) := by
  cases a with
  | send call fits =>
    simp only [GPipe.step] at hs
    split at hs
    · cases hs; exact ⟨id, id⟩
    · cases hs; exact ⟨id, id⟩
    · cases hs; exact ⟨id, id⟩
  | tx a =>
    simp only [GPipe.step] at hs
    split at hs
    · rw [Option.map_eq_some_iff] at hs
      obtain ⟨r, _, h2⟩ := hs
      cases h2; exact ⟨id, id⟩
    · cases hs
  | rx a =>
    simp only [GPipe.step] at hs
    split at hs
    · next hh =>
      rw [Option.map_eq_some_iff] at hs
      obtain ⟨⟨t, tes⟩, h1, h2⟩ := hs
      cases h2
      obtain ⟨e1, e2, _, _⟩ := RAct.healthy_step hh h1
      exact ⟨e2, e1⟩
    · cases hs
  | net k =>
    simp only [GPipe.step] at hs
    split at hs
    · next hrd hph =>
      split at hs
      · split at hs
        · cases hs; exact ⟨id, id⟩
        · split at hs
          · rw [Option.map_eq_some_iff] at hs
            obtain ⟨⟨t, tes⟩, h1, h2⟩ := hs
            cases h2
            obtain ⟨_, _, g3, g4, _⟩ := Rx.read_step hi hrd h1
            exact ⟨fun _ => g3, fun h => by rw [g4]; exact h⟩
          · cases hs; exact ⟨id, id⟩
      · cases hs
    · cases hs

theorem GPipe.step_core (hK : K.Reads cwf w Ok Shown Inv) (hP : K.Packs w Ok May) {s s' : GPipe K} {a : PAct} {es fs : List PEv}
    (h : s.Core w Ok Inv batch limit es) (ha : ∀ call fits, a = .send call fits → May call) (hs : s.step cwf batch limit a = some (s', fs)) :
    s'.Core w Ok Inv batch limit (es ++ fs) := by
  cases a with
  | send call fits =>
    obtain ⟨r, hp, hr⟩ := hP call (ha call fits rfl)
    simp only [GPipe.step, hp] at hs
    cases r with
    | none => simp at hs; obtain ⟨rfl, rfl⟩ := hs; simpa using h
    | some bs =>
      simp only at hr hs
      simp only [Option.some.injEq, Prod.mk.injEq] at hs
      obtain ⟨rfl, rfl⟩ := hs
      cases hsg : call.single
      · simp only [Bool.false_eq_true, if_false]
        obtain ⟨e1, e2, e3⟩ := Tx.sendList_step h.tx_inv (bs.map (fun b => (⟨b, none⟩ : TxMsg)))
        rw [hsg] at hr
        simp only [Bool.false_eq_true, false_and, false_or] at hr
        rw [e3]
        refine h.of_tx (a := .sendList (bs.map (fun b => (⟨b, none⟩ : TxMsg))) false) (tes := [.accept (bs.map (fun b => (⟨b, none⟩ : TxMsg))) false]) (by simp only [Tx.step]; rw [← e3]) ⟨by simp, by simp⟩ ?_ e1 (by rw [e2]; exact List.prefix_refl _) ?_ ?_ rfl
        · simp [PlainEv]
        · simp [acceptedMsgs, TxMsg.bytes, sentItems, ← hr.1, Function.comp_def]
        · simp [sentItems, hr.2]
      · simp only [if_true]
        obtain ⟨e1, e2, e3⟩ := Tx.send_step s.tx (⟨bs.flatten, none⟩ : TxMsg) fits
        rcases e3 with ⟨e3, e4⟩ | ⟨e3, e4⟩
        · rw [e3, e4]; simpa using h
        · have hr : bs.flatten = w call.body ∧ Ok call.body := by
            rcases hr with hr | hr
            · exact absurd hr.2 e4
            · exact hr
          rw [e3]
          refine h.of_tx (a := .send ⟨bs.flatten, none⟩ false fits) (tes := [.accept [⟨bs.flatten, none⟩] false]) (by simp only [Tx.step]; rw [← e3]) ⟨by simp, by simp⟩ ?_ e1 (by rw [e2]; exact List.prefix_refl _) ?_ ?_ rfl
          · simp [PlainEv]
          · simp [acceptedMsgs, TxMsg.bytes, sentItems, ← hr.1]
          · simp [sentItems, hr.2]
  | tx a =>
    simp only [GPipe.step] at hs
    split at hs
    · next hh =>
      rw [Option.map_eq_some_iff] at hs
      obtain ⟨⟨t, tes⟩, h1, h2⟩ := hs
      cases h2
      obtain ⟨e1, e2, e3, e4⟩ := Tx.healthy_step hh h1
      exact h.of_tx h1 (TxAct.healthy_wire hh) e4 e1 e3 (by rw [e2]; rfl) (by simp [sentItems]) rfl
    · cases hs
  | rx a =>
    simp only [GPipe.step] at hs
    split at hs
    · next hh =>
      rw [Option.map_eq_some_iff] at hs
      obtain ⟨⟨t, tes⟩, h1, h2⟩ := hs
      cases h2
      obtain ⟨e1, e2, e3, e4⟩ := RAct.healthy_step hh h1
      obtain ⟨f1, f2⟩ := handledItems_rxEv tes
      obtain ⟨ras, res, r1, r2, r3, r4⟩ := h.rx
      refine ⟨?_, h.ready, ?_, ⟨_, _, Rx.Run.snoc _ _ _ _ _ _ _ r1 h1, ?_, ?_, ?_⟩, h.inv, h.off, h.bad⟩
      · rw [sentItems_append, f2, List.append_nil]; exact h.tx
      · rw [sentItems_append, f2, List.append_nil]; exact h.ok
      · intro e he
        rw [List.mem_append] at he
        rcases he with he | he
        · exact r2 e he
        · exact e4 e he
      · rw [rAccepted_append', handledItems_append, f1, r3]
      · rw [rReceived_append, e3, List.append_nil]; exact r4
    · cases hs
  | net k =>
    obtain ⟨ras, res, r1, r2, r3, r4⟩ := h.rx
    simp only [GPipe.step] at hs
    split at hs
    · next cap got want hrd hph =>
      split at hs
      · next hk =>
        obtain ⟨k0, k1, k2, k3⟩ := hk
        obtain ⟨conn, ms, hc, hlog, hinv⟩ := h.net hK hph k0 k1 k2 k3
        rw [hc] at hs
        simp only at hs
        split at hs
        · rw [Option.map_eq_some_iff] at hs
          obtain ⟨⟨t, tes⟩, h1, h2⟩ := hs
          cases h2
          rw [hlog, newMsgs_append] at h1
          obtain ⟨g1, g2, g3, g4, _⟩ := Rx.read_step (Rx.run_inv Rx.init_inv r1).1 hrd h1
          obtain ⟨f1, f2⟩ := handledItems_rxEv tes
          refine ⟨?_, h.ready, ?_, ⟨_, _, Rx.Run.snoc _ _ _ _ _ _ _ r1 h1, ?_, ?_, ?_⟩, hinv, k3, h.bad⟩
          · rw [sentItems_append, f2, List.append_nil]; exact h.tx
          · rw [sentItems_append, f2, List.append_nil]; exact h.ok
          · intro e he
            rw [List.mem_append] at he
            rcases he with he | he
            · exact r2 e he
            · exact g2 e he
          · rw [rAccepted_append', handledItems_append, f1, r3]
          · rw [rReceived_append, g1, hlog, r4]; simp [msgs]
        · next hnd =>
          simp only [Option.some.injEq, Prod.mk.injEq] at hs
          obtain ⟨rfl, rfl⟩ := hs
          have hl := readSome_undoneG hc (by simpa using hnd)
          rw [List.append_nil]
          exact ⟨h.tx, h.ready, h.ok, ⟨ras, res, r1, r2, r3, by simpa [hl] using r4⟩, hinv, k3, h.bad⟩
      · cases hs
    · cases hs

theorem GPipe.step_good (hK : K.Reads cwf w Ok Shown Inv) (hP : K.Packs w Ok May) {s s' : GPipe K} {a : PAct} {es fs : List PEv}
    (h : s.Good w Ok Inv batch limit es) (ha : ∀ call fits, a = .send call fits → May call) (hs : s.step cwf batch limit a = some (s', fs)) :
    s'.Good w Ok Inv batch limit (es ++ fs) := by
  obtain ⟨h1, h2⟩ := GPipe.step_rd h.rx_inv hs
  exact ⟨GPipe.step_core hK hP h.toCore ha hs, h1 h.rd, h2 h.dlost⟩

theorem GPipe.run_good (hK : K.Reads cwf w Ok Shown Inv) (hP : K.Packs w Ok May) {s s' : GPipe K} {as : List PAct} {es fs : List PEv}
    (h : s.Good w Ok Inv batch limit es) (ha : ∀ a ∈ as, ∀ call fits, a = .send call fits → May call) (hs : GPipe.Run cwf batch limit s as s' fs) :
    s'.Good w Ok Inv batch limit (es ++ fs) := by
  induction hs with
  | nil => simpa using h
  | snoc s1 s2 as a es1 fs1 hr1 hs1 ih =>
    rw [← List.append_assoc]
    exact GPipe.step_good hK hP (ih (fun x hx => ha x (by simp [hx]))) (ha a (by simp)) hs1

/-! ### progress -/

/-- An upper bound for the number of steps that go on without the applications. -/
def GPipe.work (s : GPipe K) : Nat := 80 * s.tx.work + 40 * (s.tx.wire.length - s.off) + 20 * (s.tx.wire.length - s.conn.log.length) + s.rx.work

theorem GPipe.step_work (hK : K.Reads cwf w Ok Shown Inv) (hP : K.Packs w Ok May) {s s' : GPipe K} {a : PAct}
    {es fs : List PEv} (h : s.Core w Ok Inv batch limit es) (ha : a.Internal) (hs : s.step cwf batch limit a = some (s', fs)) :
    s'.work < s.work ∨ (a = .rx .checkTimer ∧ s' = s) := by
  have hg := GPipe.step_core hK hP h (a := a) (by intro call fits hc; subst hc; exact absurd ha (by simp [PAct.Internal])) hs
  have hle := h.log_le hK
  have hle' := hg.log_le hK
  have hoff := h.off
  have hoff' := hg.off
  cases a with
  | send call fits => exact absurd ha (by simp [PAct.Internal])
  | tx a =>
    left
    simp only [GPipe.step] at hs
    split at hs
    · next hh =>
      rw [Option.map_eq_some_iff] at hs
      obtain ⟨⟨t, tes⟩, h1, h2⟩ := hs
      cases h2
      obtain ⟨w1, w2⟩ := Tx.healthy_work h.tx_inv hh h1
      simp only [GPipe.work]
      simp only at hle' hoff'
      omega
    · cases hs
  | rx a =>
    simp only [GPipe.step] at hs
    split at hs
    · next hh =>
      rw [Option.map_eq_some_iff] at hs
      obtain ⟨⟨t, tes⟩, h1, h2⟩ := hs
      cases h2
      have hi : a.Internal := by
        cases a with
        | ret ok => simp only [PAct.Internal] at ha; subst ha; trivial
        | _ => simp_all [RAct.healthy, RAct.Internal]
      rcases Rx.step_work h.rx_inv hi h1 with hw | ⟨hw1, hw2⟩
      · left
        simp only [GPipe.work]
        omega
      · right
        rw [hw1, hw2]
        exact ⟨rfl, rfl⟩
    · cases hs
  | net k =>
    left
    simp only [GPipe.step] at hs
    split at hs
    · next cap got want hrd hph =>
      split at hs
      · next hk =>
        obtain ⟨k0, k1, k2, k3⟩ := hk
        obtain ⟨conn, ms, hc, hlog, hinv⟩ := h.net hK hph k0 k1 k2 k3
        rw [hc] at hs
        simp only at hs
        split at hs
        · rw [Option.map_eq_some_iff] at hs
          obtain ⟨⟨t, tes⟩, h1, h2⟩ := hs
          cases h2
          rw [hlog, newMsgs_append] at h1
          obtain ⟨_, _, _, _, g5⟩ := Rx.read_step h.rx_inv hrd h1
          have hll := congrArg List.length hlog
          simp only [msgs, List.length_append, List.length_map] at hll
          simp only [GPipe.work]
          simp only at hle' hoff'
          omega
        · next hnd =>
          simp only [Option.some.injEq, Prod.mk.injEq] at hs
          obtain ⟨rfl, rfl⟩ := hs
          have hl := readSome_undoneG hc (by simpa using hnd)
          simp only [GPipe.work, hl]
          omega
      · cases hs
    · cases hs

theorem GPipe.run_trans {s s1 s2 : GPipe K} {as bs : List PAct} {es fs : List PEv}
    (h1 : GPipe.Run cwf batch limit s as s1 es) (h2 : GPipe.Run cwf batch limit s1 bs s2 fs) : GPipe.Run cwf batch limit s (as ++ bs) s2 (es ++ fs) := by
  induction h2 with
  | nil => simpa using h1
  | snoc s2 s3 bs a fs fs' _ hs ih =>
    rw [← List.append_assoc, ← List.append_assoc]
    exact GPipe.Run.snoc _ _ _ _ _ _ _ ih hs

theorem GPipe.run_one {s s1 : GPipe K} {a : PAct} {es : List PEv} (h : s.step cwf batch limit a = some (s1, es)) :
    GPipe.Run cwf batch limit s [a] s1 es := by
  have := GPipe.Run.snoc _ _ _ _ _ _ _ (GPipe.Run.nil (cwf := cwf) (batch := batch) (limit := limit) s) h
  simpa using this

theorem GPipe.exec_run {s s' : GPipe K} {as : List PAct} {es : List PEv} (h : GPipe.exec cwf batch limit s as = some (s', es)) :
    GPipe.Run cwf batch limit s as s' es := by
  induction as generalizing s es with
  | nil => simp [GPipe.exec] at h; obtain ⟨rfl, rfl⟩ := h; exact GPipe.Run.nil _
  | cons a as ih =>
    simp only [GPipe.exec, Option.bind_eq_bind] at h
    rw [Option.bind_eq_some_iff] at h
    obtain ⟨⟨s1, e1⟩, h1, h2⟩ := h
    rw [Option.bind_eq_some_iff] at h2
    obtain ⟨⟨s2, e2⟩, h2, h3⟩ := h2
    simp at h3
    obtain ⟨rfl, rfl⟩ := h3
    exact GPipe.run_trans (GPipe.run_one h1) (ih h2)

/-- What the accepted, current and waiting messages have to do with the bytes read. -/
theorem GPipe.Core.order (hK : K.Reads cwf w Ok Shown Inv) {s : GPipe K} {es : List PEv} (h : s.Core w Ok Inv batch limit es) :
    Shown (sentItems es) s.off (handledItems es ++ s.rx.cur.toList ++ s.rx.buf.items) ∧ RxEvent.unpackError ∉ s.conn.log := by
  obtain ⟨ras, res, r1, r2, r3, r4⟩ := h.rx
  have hord := C25_order limit ras s.rx res r1 r2
  rw [r3] at hord
  rw [hord]
  exact ⟨h.shown hK r4, by rw [r4]; simp [msgs]⟩

/-- Everything that was accepted was read, decoded and handled. -/
theorem GPipe.Good.rest (hK : K.Reads cwf w Ok Shown Inv) {s : GPipe K} {es : List PEv} (h : s.Good w Ok Inv batch limit es)
    (h1 : s.tx.Quiet) (h2 : s.rx.Quiet limit) (h3 : s.off = s.tx.wire.length) :
    Shown (sentItems es) ((sentItems es).map w).flatten.length (handledItems es) := by
  obtain ⟨tas, tes, hrun, hf, hp, hacc⟩ := h.tx
  have hrun' := Tx.run_trans (Tx.run_one (Tx.up_step batch)) hrun
  have hfail : failedSinceUp ([.linkUp] ++ tas) = false := by
    have hg : ∀ as : List TxAct, (∀ a ∈ as, (∀ i, a ≠ .complete i false) ∧ a ≠ .linkUp) → failedSinceUp as = false := by
      intro as h
      unfold failedSinceUp
      induction as with
      | nil => rfl
      | cons a as ih =>
        rw [List.foldl_cons]
        have ha := h a (by simp)
        have := ih (fun x hx => h x (by simp [hx]))
        cases a with
        | complete i ok => cases ok
                           · exact absurd rfl (ha.1 i)
                           · exact this
        | linkUp => exact absurd rfl ha.2
        | _ => exact this
    exact hg tas hf
  have hempty := C22_no_lost_wakeup batch _ s.tx _ hrun' h.ready hfail h1
  have hw : s.tx.unwritten = [] := by simp [Tx.unwritten, h1.2.2.1]
  have hst := h.stream
  rw [hempty, hw] at hst
  have hst : s.tx.wire = ((sentItems es).map w).flatten := by simpa [TxMsg.bytes] using hst
  obtain ⟨q1, q2⟩ := Rx.quiet_empty h.rx_inv h2 h.dlost
  have hord := (h.order hK).1
  rw [q1, q2] at hord
  simp only [Option.toList_none, List.append_nil] at hord
  rw [← hst, ← h3]
  exact hord

theorem GPipe.progress (hK : K.Reads cwf w Ok Shown Inv) (hP : K.Packs w Ok May) (hlim : 0 < limit) {s : GPipe K} {es : List PEv} (h : s.Good w Ok Inv batch limit es)
    (hq : ¬ (s.tx.Quiet ∧ s.rx.Quiet limit ∧ s.off = s.tx.wire.length)) :
    ∃ a s' fs, PAct.Internal a ∧ s.step cwf batch limit a = some (s', fs) ∧ s'.work < s.work := by
  by_cases h1 : s.tx.Quiet
  · by_cases h2 : s.rx.Quiet limit
    · have h3 : s.off < s.tx.wire.length := by
        have := h.off
        rcases Nat.lt_or_ge s.off s.tx.wire.length with h' | h'
        · exact h'
        · exact absurd ⟨h1, h2, by omega⟩ hq
      have hrd := Rx.quiet_reading hlim h.rx_inv h2 h.dlost h.rd
      obtain ⟨cap, got, want, hph, hw, hg⟩ := hK.reading _ _ h.inv
      obtain ⟨conn, ms, hc, _, _⟩ := h.net hK (k := 1) hph (by omega) (by omega) (by omega) (by omega)
      have hex : ∃ s' fs, s.step cwf batch limit (.net 1) = some (s', fs) := by
        simp only [GPipe.step, hrd, hph]
        rw [if_pos ⟨by omega, by omega, by omega, by omega⟩, hc]
        simp only
        split
        · simp only [Rx.step, hrd, ne_eq, not_true_eq_false, if_false]
          split
          · exact ⟨_, _, rfl⟩
          · split <;> exact ⟨_, _, rfl⟩
        · exact ⟨_, _, rfl⟩
      obtain ⟨s', fs, hs⟩ := hex
      refine ⟨.net 1, s', fs, trivial, hs, ?_⟩
      rcases GPipe.step_work hK hP h.toCore (a := .net 1) trivial hs with hw | hw
      · exact hw
      · exact absurd hw.1 (by simp)
    · obtain ⟨a, r, res, ha, hs, hw⟩ := Rx.progress limit s.rx h.rx_inv h2
      refine ⟨.rx a, _, _, ?_, by simp only [GPipe.step, RAct.internal_healthy ha, hs, if_true]; rfl, ?_⟩
      · cases a with
        | ret ok => cases ok <;> simp_all [PAct.Internal, RAct.Internal]
        | _ => trivial
      · simp only [GPipe.work]; omega
  · obtain ⟨a, t, tes, ha, hs⟩ := Tx.progress batch s.tx h.tx_inv h1
    have hst : s.step cwf batch limit (.tx a) = some ({ s with tx := t }, []) := by simp only [GPipe.step, TxAct.internal_healthy ha, hs, if_true]; rfl
    refine ⟨.tx a, _, _, trivial, hst, ?_⟩
    rcases GPipe.step_work hK hP h.toCore (a := .tx a) trivial hst with hw | hw
    · exact hw
    · exact absurd hw.1 (by simp)

/-- At rest nothing goes on without the sending application. -/
theorem GPipe.Good.settled (cwf : Bool) (hlim : 0 < limit) {s : GPipe K} {es : List PEv} (h : s.Good w Ok Inv batch limit es)
    (h1 : s.tx.Quiet) (h2 : s.rx.Quiet limit) (h3 : s.off = s.tx.wire.length) : ∀ a, PAct.Internal a → s.step cwf batch limit a = none := by
  have hrd := Rx.quiet_reading hlim h.rx_inv h2 h.dlost h.rd
  obtain ⟨t1, t2, t3, t4, t5, t6⟩ := h1
  obtain ⟨r1, r2, r3, _⟩ := h2
  intro a ha
  cases a with
  | send _ _ => exact absurd ha (by simp [PAct.Internal])
  | tx a =>
    simp only [GPipe.step]
    split
    · cases a <;> simp_all [TxAct.healthy, Tx.step, Tx.strand]
    · rfl
  | rx a =>
    simp only [GPipe.step]
    split
    · cases a <;> simp_all [RAct.healthy, Rx.step]
    · rfl
  | net k =>
    simp only [GPipe.step]
    split
    · rw [if_neg (by omega)]
    · rfl

/-- Internal steps do not send. -/
theorem GPipe.internal_sent {s s' : GPipe K} {a : PAct} {fs : List PEv} (a1 : a.Internal) (a3 : s.step cwf batch limit a = some (s', fs)) : sentItems fs = [] := by
  cases a with
  | send _ _ => exact absurd a1 (by simp [PAct.Internal])
  | tx a =>
    simp only [GPipe.step] at a3
    split at a3
    · rw [Option.map_eq_some_iff] at a3
      obtain ⟨r, _, a3⟩ := a3
      cases a3; rfl
    · cases a3
  | rx a =>
    simp only [GPipe.step] at a3
    split at a3
    · rw [Option.map_eq_some_iff] at a3
      obtain ⟨r, _, a3⟩ := a3
      cases a3; exact (handledItems_rxEv _).2
    · cases a3
  | net k =>
    simp only [GPipe.step] at a3
    split at a3
    · split at a3
      · split at a3
        · cases a3; rfl
        · split at a3
          · rw [Option.map_eq_some_iff] at a3
            obtain ⟨r, _, a3⟩ := a3
            cases a3; exact (handledItems_rxEv _).2
          · cases a3; rfl
      · cases a3
    · cases a3

/-- The path comes to rest. -/
theorem GPipe.settles (hK : K.Reads cwf w Ok Shown Inv) (hP : K.Packs w Ok May) (hlim : 0 < limit) : ∀ (n : Nat) (s : GPipe K) (es : List PEv),
    s.Good w Ok Inv batch limit es → s.work ≤ n →
      ∃ bs s' fs, GPipe.Run cwf batch limit s bs s' fs ∧ (∀ b ∈ bs, b.Internal) ∧ s'.Good w Ok Inv batch limit (es ++ fs) ∧ sentItems fs = [] ∧
        (s'.tx.Quiet ∧ s'.rx.Quiet limit ∧ s'.off = s'.tx.wire.length) := by
  intro n
  induction n with
  | zero =>
    intro s es hg hw
    rcases Classical.em (s.tx.Quiet ∧ s.rx.Quiet limit ∧ s.off = s.tx.wire.length) with hr | hr
    · exact ⟨[], s, [], GPipe.Run.nil s, by simp, by simpa using hg, rfl, hr⟩
    · obtain ⟨a, s', fs, a1, a3, a4⟩ := GPipe.progress hK hP hlim hg hr
      omega
  | succ n ih =>
    intro s es hg hw
    rcases Classical.em (s.tx.Quiet ∧ s.rx.Quiet limit ∧ s.off = s.tx.wire.length) with hr | hr
    · exact ⟨[], s, [], GPipe.Run.nil s, by simp, by simpa using hg, rfl, hr⟩
    · obtain ⟨a, s', fs, a1, a3, a4⟩ := GPipe.progress hK hP hlim hg hr
      have hg' := GPipe.step_good hK hP hg (by intro call fits hc; subst hc; exact absurd a1 (by simp [PAct.Internal])) a3
      obtain ⟨bs, s2, gs, b1, b2, b3, b4, b5⟩ := ih s' _ hg' (by omega)
      refine ⟨[a] ++ bs, s2, fs ++ gs, GPipe.run_trans (GPipe.run_one a3) b1, ?_, by rw [← List.append_assoc]; exact b3, by rw [sentItems_append, GPipe.internal_sent a1 a3, b4]; rfl, b5⟩
      intro b hb
      simp at hb
      rcases hb with rfl | hb
      · exact a1
      · exact b2 b hb

theorem GPipe.bounded (hK : K.Reads cwf w Ok Shown Inv) (hP : K.Packs w Ok May) {s s' : GPipe K} {es fs : List PEv} {bs : List PAct} (hg : s.Good w Ok Inv batch limit es)
    (hr : GPipe.Run cwf batch limit s bs s' fs) (hb : ∀ b ∈ bs, b.Internal) : (bs.filter (fun b => b ≠ .rx .checkTimer)).length + s'.work ≤ s.work := by
  induction hr with
  | nil => simp
  | snoc s1 s2 bs b fs fs' hr1 hs1 ih =>
    have ih := ih (fun x hx => hb x (by simp [hx]))
    have hon : ∀ x ∈ bs, ∀ call fits, x = .send call fits → May call := by
      intro x hx call fits hc
      have := hb x (by simp [hx])
      subst hc
      exact absurd this (by simp [PAct.Internal])
    have hg1 := GPipe.run_good hK hP hg hon hr1
    have hw := GPipe.step_work hK hP hg1.toCore (hb b (by simp)) hs1
    rw [List.filter_append, List.length_append]
    have hle : ([b].filter (fun b => decide (b ≠ .rx .checkTimer))).length ≤ 1 := List.length_filter_le _ _
    rcases hw with hw | ⟨hw, hw2⟩
    · omega
    · subst hw hw2
      simp
      simpa using ih

end

end StAsio
