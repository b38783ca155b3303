import Verif.Model.ModePipe
import Verif.Lemmas.Protocols
import Verif.Props.C57_C59_RecvModes
/-!
Lemmas for C95: the pipe with any mode of receiving.
-/
set_option autoImplicit false
namespace StAsio

theorem mpSent_append (es fs : List MPEv) : mpSent (es ++ fs) = mpSent es ++ mpSent fs := by
  induction es with
  | nil => rfl
  | cons e es ih => cases e <;> simp [mpSent, ih]

theorem mpRx_append (es fs : List MPEv) : mpRx (es ++ fs) = mpRx es ++ mpRx fs := by
  induction es with
  | nil => rfl
  | cons e es ih => cases e <;> simp [mpRx, ih]

theorem mpSent_rx (es : List MEv) : mpSent (es.map .rx) = [] := by
  induction es with
  | nil => rfl
  | cons e es ih => simpa [mpSent] using ih

theorem mpRx_rx (es : List MEv) : mpRx (es.map .rx) = es := by
  induction es with
  | nil => rfl
  | cons e es ih => simpa [mpRx] using ih

/-! ### the sender, the stream and the unpacker -/

/-- What always holds of the sender and of what was read from the stream. -/
structure Wired {K : Codec} (w : Item → Bytes) (Ok : Item → Prop) (Inv : Bytes → Conn K.σ → Prop) (batch : Nat) (t : Tx) (off : Nat) (conn : Conn K.σ) (items : List Item) : Prop where
  tx : ∃ tas tes, Tx.Run batch Tx.up tas t tes ∧ (∀ a ∈ tas, (∀ i, a ≠ .complete i false) ∧ a ≠ .linkUp) ∧
    (∀ e ∈ tes, PlainEv e) ∧ TxMsg.bytes (acceptedMsgs tes) = (items.map w).flatten
  ready : t.ready = true
  ok : ∀ b ∈ items, Ok b
  inv : Inv (t.wire.take off) conn
  off : off ≤ t.wire.length

section
variable {K : Codec} {cwf : Bool} {w : Item → Bytes} {Ok : Item → Prop} {Shown : List Item → Nat → List Bytes → Prop} {Inv : Bytes → Conn K.σ → Prop}
  {May : SendCall → Prop} {batch : Nat} {t : Tx} {off : Nat} {conn : Conn K.σ} {items : List Item}

theorem Wired.stream (h : Wired w Ok Inv batch t off conn items) : t.wire ++ (t.unwritten ++ TxMsg.bytes t.q.items) = (items.map w).flatten := by
  obtain ⟨tas, tes, hrun, hf, hp, hacc⟩ := h.tx
  have hw := Tx.run_wire Tx.up_inv hrun hf
  have h0 : Tx.up.wire ++ Tx.up.unwritten = [] := rfl
  have hm := monitor_plain (Tx.run_inv Tx.up_inv hrun).2 hp
  have hm : acceptedMsgs tes = handedMsgs tes ++ t.q.items := by
    have : Tx.up.ideal.waiting = [] := rfl
    rw [this, List.nil_append] at hm
    exact hm
  rw [← hacc, hm, TxMsg.bytes_append, ← List.append_assoc, hw, h0, List.nil_append]

theorem Wired.split (h : Wired w Ok Inv batch t off conn items) (n : Nat) :
    t.wire.take n ++ (t.wire.drop n ++ (t.unwritten ++ TxMsg.bytes t.q.items)) = (items.map w).flatten := by
  rw [← List.append_assoc, List.take_append_drop, h.stream]

theorem Wired.tx_inv (h : Wired w Ok Inv batch t off conn items) : t.Inv := by
  obtain ⟨tas, tes, hrun, _⟩ := h.tx
  exact (Tx.run_inv Tx.up_inv hrun).1

theorem Wired.shown (hK : K.Reads cwf w Ok Shown Inv) (h : Wired w Ok Inv batch t off conn items) {ms : List Bytes} (hm : conn.log = msgs ms) : Shown items off ms := by
  have := hK.shown _ _ h.inv _ h.ok _ (h.split off) ms hm
  have hl : (t.wire.take off).length = off := by rw [List.length_take]; have := h.off; omega
  rwa [hl] at this

theorem Wired.of_tx (h : Wired w Ok Inv batch t off conn items) {t' : Tx} {tes : List TxEv} {a : TxAct} {more : List Item}
    (hs : t.step batch a = some (t', tes)) (ha : (∀ i, a ≠ .complete i false) ∧ a ≠ .linkUp) (hp : ∀ e ∈ tes, PlainEv e)
    (hr : t'.ready = t.ready) (hw : t.wire <+: t'.wire) (hb : TxMsg.bytes (acceptedMsgs tes) = (more.map w).flatten) (hsm : ∀ b ∈ more, Ok b) :
    Wired w Ok Inv batch t' off conn (items ++ more) := by
  obtain ⟨tas, tes0, hrun, hf, hp0, hacc⟩ := h.tx
  obtain ⟨x, hx⟩ := hw
  have hoff := h.off
  refine ⟨⟨tas ++ [a], tes0 ++ tes, Tx.Run.snoc _ _ _ _ _ _ _ hrun hs, ?_, ?_, ?_⟩, by rw [← h.ready]; exact hr, ?_, ?_, ?_⟩
  · intro b hb
    rw [List.mem_append, List.mem_singleton] at hb
    rcases hb with hb | rfl
    · exact hf b hb
    · exact ha
  · intro e he
    rw [List.mem_append] at he
    rcases he with he | he
    · exact hp0 e he
    · exact hp e he
  · rw [acceptedMsgs_append, TxMsg.bytes_append, hacc, hb, List.map_append, List.flatten_append]
  · intro b hb
    rw [List.mem_append] at hb
    rcases hb with hb | hb
    · exact h.ok b hb
    · exact hsm b hb
  · rw [← hx, List.take_append_of_le_length hoff]; exact h.inv
  · rw [← hx, List.length_append]; omega

/-- A healthy step of the sender. -/
theorem Wired.step_tx (h : Wired w Ok Inv batch t off conn items) {t' : Tx} {tes : List TxEv} {a : TxAct} (hh : a.healthy = true) (h1 : t.step batch a = some (t', tes)) :
    Wired w Ok Inv batch t' off conn items := by
  obtain ⟨e1, e2, e3, e4⟩ := Tx.healthy_step hh h1
  have := h.of_tx (more := []) h1 (TxAct.healthy_wire hh) e4 e1 e3 (by rw [e2]; rfl) (by simp)
  rwa [List.append_nil] at this

/-- A send function. -/
theorem Wired.send (hP : K.Packs w Ok May) (h : Wired w Ok Inv batch t off conn items) {call : SendCall} {bs : List Bytes} (fits : Bool) (hm : May call) (hp : K.pack call = some (some bs))
    {r : Tx × List TxEv} (hr : r = if call.single then t.send ⟨bs.flatten, none⟩ false fits else t.sendList (bs.map (fun b => ⟨b, none⟩)) false) :
    Wired w Ok Inv batch r.1 off conn (items ++ if r.2.isEmpty then [] else [call.body]) := by
  obtain ⟨r0, hp', hr0⟩ := hP call hm
  rw [hp] at hp'
  cases hp'
  simp only at hr0
  subst hr
  cases hsg : call.single
  · simp only [Bool.false_eq_true, if_false]
    obtain ⟨e1, e2, e3⟩ := Tx.sendList_step h.tx_inv (bs.map (fun b => (⟨b, none⟩ : TxMsg)))
    rw [hsg] at hr0
    simp only [Bool.false_eq_true, false_and, false_or] at hr0
    rw [e3]
    refine h.of_tx (a := .sendList (bs.map (fun b => (⟨b, none⟩ : TxMsg))) false) (tes := [.accept (bs.map (fun b => (⟨b, none⟩ : TxMsg))) false]) (by simp only [Tx.step]; rw [← e3]) ⟨by simp, by simp⟩ ?_ e1
      (by rw [e2]; exact List.prefix_refl _) ?_ ?_
    · simp [PlainEv]
    · simp [acceptedMsgs, TxMsg.bytes, ← hr0.1, Function.comp_def]
    · simp [hr0.2]
  · simp only [if_true]
    obtain ⟨e1, e2, e3⟩ := Tx.send_step t (⟨bs.flatten, none⟩ : TxMsg) fits
    rcases e3 with ⟨e3, e4⟩ | ⟨e3, e4⟩
    · rw [e3, e4]; simpa using h
    · have hr0 : bs.flatten = w call.body ∧ Ok call.body := by
        rcases hr0 with hr0 | hr0
        · exact absurd hr0.2 e4
        · exact hr0
      rw [e3]
      refine h.of_tx (a := .send ⟨bs.flatten, none⟩ false fits) (tes := [.accept [⟨bs.flatten, none⟩] false]) (by simp only [Tx.step]; rw [← e3]) ⟨by simp, by simp⟩ ?_ e1 (by rw [e2]; exact List.prefix_refl _) ?_ ?_
      · simp [PlainEv]
      · simp [acceptedMsgs, TxMsg.bytes, ← hr0.1]
      · simp [hr0.2]

/-- When the sender is at rest, everything it accepted was written. -/
theorem Wired.quiet (h : Wired w Ok Inv batch t off conn items) (h1 : t.Quiet) : t.wire = (items.map w).flatten := by
  obtain ⟨tas, tes, hrun, hf, hp, hacc⟩ := h.tx
  have hrun' := Tx.run_trans (Tx.run_one (Tx.up_step batch)) hrun
  have hfail : failedSinceUp ([.linkUp] ++ tas) = false := by
    have hg : ∀ as : List TxAct, (∀ a ∈ as, (∀ i, a ≠ .complete i false) ∧ a ≠ .linkUp) → failedSinceUp as = false := by
      intro as h
      unfold failedSinceUp
      induction as with
      | nil => rfl
      | cons a as ih =>
        rw [List.foldl_cons]
        have ha := h a (by simp)
        have := ih (fun x hx => h x (by simp [hx]))
        cases a with
        | complete i ok => cases ok
                           · exact absurd rfl (ha.1 i)
                           · exact this
        | linkUp => exact absurd rfl ha.2
        | _ => exact this
    exact hg tas hf
  have hempty := C22_no_lost_wakeup batch _ t _ hrun' h.ready hfail h1
  have hw : t.unwritten = [] := by simp [Tx.unwritten, h1.2.2.1]
  have hst := h.stream
  rw [hempty, hw] at hst
  simpa [TxMsg.bytes] using hst

/-- One arrival of bytes. -/
theorem Wired.net (hK : K.Reads cwf w Ok Shown Inv) (h : Wired w Ok Inv batch t off conn items) {k cap got want : Nat}
    (hph : conn.ph = .reading cap got want) (k0 : 0 < k) (k1 : k ≤ want) (k2 : got + k ≤ cap) (k3 : off + k ≤ t.wire.length) :
    ∃ conn' ms, readSome K.ops cwf conn cap got ((t.wire.drop off).take k) = some conn' ∧ conn'.log = conn.log ++ msgs ms ∧ Wired w Ok Inv batch t (off + k) conn' items := by
  have hdl : ((t.wire.drop off).take k).length = k := by rw [List.length_take, List.length_drop]; omega
  have hsplit : t.wire.take (off + k) = t.wire.take off ++ (t.wire.drop off).take k := by
    rw [List.take_add]
  have hst := h.split (off + k)
  rw [hsplit] at hst
  obtain ⟨k', ms, g1, g2, g3⟩ := hK.step _ _ cap got want _ h.inv hph (by intro h0; rw [h0] at hdl; simp at hdl; omega) (by omega) (by omega) _ h.ok _ hst
  exact ⟨k', ms, g1, g2, h.tx, h.ready, h.ok, by rw [hsplit]; exact g3, k3⟩

end

/-! ### the receiver -/

theorem MAct.ok_honest {s : Rm} {a : MAct} (h : a.ok s = true) : a.honest s := by
  cases a <;> simp_all [MAct.ok, MAct.honest]
  intro hn; simpa [hn] using h

theorem MAct.ok_fine {s : Rm} {a : MAct} (h : a.ok s = true) : a.fine = true := by
  cases a <;> simp_all [MAct.ok, MAct.fine]

set_option linter.unusedSimpArgs false in
/-- What the steps of the receiver on a link that stays up leave alone. -/
theorem Rm.ok_step {c : MCfg} {limit : Nat} {s s' : Rm} {a : MAct} {fs : List MEv} (ha : a.ok s = true) (hi : s.Inv c) (hs : s.step c limit a = some (s', fs)) :
    s'.ready = s.ready ∧ (s.dlost = false → s'.dlost = false) ∧ s'.ec = s.ec ∧ mReceived fs = [] ∧ (∀ e ∈ fs, MPlainEv e) ∧ (c.passive = true → s.ctimer = false → s'.ctimer = false) := by
  cases a with
  | handle => obtain ⟨hp, ⟨_, rfl, rfl⟩ | ⟨_, _, rfl, rfl⟩ | ⟨ms, rfl, rfl, _⟩⟩ := Rm.handle_cases hs <;> simp [mReceived, MPlainEv, Rm.put]
  | onMsgRet left n => obtain ⟨hp, ⟨_, rfl, rfl⟩ | ⟨_, rfl, rfl⟩⟩ := Rm.onMsg_cases (MAct.ok_honest ha) hs <;> simp [mReceived, MPlainEv, Rm.put]
  | _ =>
    first
    | (simp [MAct.ok] at ha; done)
    | (simp only [Rm.step, Rm.startRead] at hs
       (repeat' split at hs) <;> first
        | (cases hs; done)
        | (simp only [Option.some.injEq, Prod.mk.injEq] at hs; obtain ⟨rfl, rfl⟩ := hs; simp_all [mReceived, MPlainEv]))

theorem Rm.read_step {c : MCfg} {limit : Nat} {s : Rm} (ms : List Bytes) (h1 : s.out = true) (h2 : s.hp = .idle) :
    s.step c limit (.read ms false) = some ({ s with out := false, reading := false, hp := .parsed, ec := false, temp := ms }, [.received ms]) := by
  simp [Rm.step, h1, h2]

/-! ### the pipe -/

/-- What always holds. -/
structure MPipe.Good {K : Codec} (w : Item → Bytes) (Ok : Item → Prop) (Inv : Bytes → Conn K.σ → Prop) (c : MCfg) (batch limit : Nat) (s : MPipe K) (es : List MPEv) : Prop where
  wired : Wired w Ok Inv batch s.tx s.off s.conn (mpSent es)
  rm : ∃ mas, Rm.Run c limit Rm.init mas s.rm (mpRx es) ∧ ∀ a ∈ mas, a.fine = true
  plain : ∀ e ∈ mpRx es, MPlainEv e
  log : s.conn.log = msgs (mReceived (mpRx es))
  ready : s.rm.ready = true
  dlost : s.rm.dlost = false
  ec : s.rm.ec = false
  bad : s.bad = false

section
variable {K : Codec} {c : MCfg} {cwf : Bool} {w : Item → Bytes} {Ok : Item → Prop} {Shown : List Item → Nat → List Bytes → Prop} {Inv : Bytes → Conn K.σ → Prop}
  {May : SendCall → Prop} {batch limit : Nat}

/-- The events before the first action: do_start asked for the first read. -/
theorem MPipe.init_good (hK : K.Reads cwf w Ok Shown Inv) (c : MCfg) (batch limit : Nat) : ∃ s, MPipe.init K = some s ∧ MPipe.Good w Ok Inv c batch limit s [.rx .asked] := by
  obtain ⟨k, h1, h2, h3⟩ := hK.start
  refine ⟨_, by simp only [MPipe.init, h1]; rfl, ?_⟩
  have hrm : Rm.step c limit Rm.init .linkUp = some ({ Rm.init with ready := true, rposted := 1 }, [.asked]) := by
    simp [Rm.step, Rm.init, Rm.still]
  exact ⟨⟨⟨[], [], Tx.Run.nil _, by simp, by simp, rfl⟩, rfl, by simp [mpSent], by simpa using h3, by simp⟩,
    ⟨_, Rm.run_one (a := .linkUp) trivial hrm, by simp [MAct.fine]⟩, by simp [mpRx, MPlainEv], by rw [h2]; rfl, rfl, rfl, rfl, rfl⟩

theorem MPipe.Good.rm_inv {s : MPipe K} {es : List MPEv} (h : s.Good w Ok Inv c batch limit es) : s.rm.Inv c ∧ s.rm.buf.Exact rsz := by
  obtain ⟨mas, hr, _⟩ := h.rm
  exact ⟨(Rm.run_good hr).1, (Rm.run_good hr).2.1⟩

theorem MPipe.step_good (hK : K.Reads cwf w Ok Shown Inv) (hP : K.Packs w Ok May) {s s' : MPipe K} {a : MPAct} {es fs : List MPEv}
    (h : s.Good w Ok Inv c batch limit es) (ha : ∀ call fits, a = .send call fits → May call) (hs : s.step c cwf batch limit a = some (s', fs)) :
    s'.Good w Ok Inv c batch limit (es ++ fs) := by
  obtain ⟨mas, hr, hf⟩ := h.rm
  cases a with
  | send call fits =>
    obtain ⟨r, hp, _⟩ := hP call (ha call fits rfl)
    simp only [MPipe.step, hp] at hs
    cases r with
    | none => simp at hs; obtain ⟨rfl, rfl⟩ := hs; simpa using h
    | some bs =>
      simp only [Option.some.injEq, Prod.mk.injEq] at hs
      obtain ⟨rfl, rfl⟩ := hs
      have hw := h.wired.send hP fits (ha call fits rfl) hp rfl
      have e1 : ∀ b : Bool, mpSent (if b then [] else [MPEv.sent call.body]) = if b then [] else [call.body] := by intro b; cases b <;> rfl
      have e2 : ∀ b : Bool, mpRx (if b then [] else [MPEv.sent call.body]) = [] := by intro b; cases b <;> rfl
      refine ⟨?_, ?_, ?_, ?_, h.ready, h.dlost, h.ec, h.bad⟩
      · rw [mpSent_append, e1]; exact hw
      all_goals rw [mpRx_append, e2, List.append_nil]
      · exact ⟨mas, hr, hf⟩
      · exact h.plain
      · exact h.log
  | tx a =>
    simp only [MPipe.step] at hs
    split at hs
    · next hh =>
      rw [Option.map_eq_some_iff] at hs
      obtain ⟨⟨t, tes⟩, h1, h2⟩ := hs
      cases h2
      rw [List.append_nil]
      exact ⟨h.wired.step_tx hh h1, h.rm, h.plain, h.log, h.ready, h.dlost, h.ec, h.bad⟩
    · cases hs
  | rx a =>
    simp only [MPipe.step] at hs
    split at hs
    · next hh =>
      rw [Option.map_eq_some_iff] at hs
      obtain ⟨⟨r, res⟩, h1, h2⟩ := hs
      cases h2
      obtain ⟨e1, e2, e3, e4, e5, _⟩ := Rm.ok_step hh h.rm_inv.1 h1
      refine ⟨?_, ⟨mas ++ [a], ?_, ?_⟩, ?_, ?_, by rw [← h.ready]; exact e1, e2 h.dlost, by rw [← h.ec]; exact e3, h.bad⟩
      · rw [mpSent_append, mpSent_rx, List.append_nil]; exact h.wired
      · rw [mpRx_append, mpRx_rx]; exact Rm.run_trans hr (Rm.run_one (MAct.ok_honest hh) h1)
      · intro b hb
        rw [List.mem_append, List.mem_singleton] at hb
        rcases hb with hb | rfl
        · exact hf b hb
        · exact MAct.ok_fine hh
      · rw [mpRx_append, mpRx_rx]
        intro e he
        rw [List.mem_append] at he
        rcases he with he | he
        · exact h.plain e he
        · exact e5 e he
      · rw [mpRx_append, mpRx_rx, mReceived_append, e4, List.append_nil]; exact h.log
    · cases hs
  | net k =>
    simp only [MPipe.step] at hs
    split at hs
    · next cap got want hph =>
      split at hs
      · next hk =>
        obtain ⟨ko, ki, k0, k1, k2, k3⟩ := hk
        obtain ⟨conn, ms, hc, hlog, hw⟩ := h.wired.net hK hph k0 k1 k2 k3
        rw [hc] at hs
        simp only at hs
        split at hs
        · rw [hlog, newMsgs_append, Rm.read_step ms ko ki] at hs
          simp only [Option.map_some, Option.some.injEq, Prod.mk.injEq] at hs
          obtain ⟨rfl, rfl⟩ := hs
          refine ⟨?_, ⟨mas ++ [.read ms false], ?_, ?_⟩, ?_, ?_, h.ready, h.dlost, rfl, h.bad⟩
          · rw [mpSent_append, mpSent_rx, List.append_nil]; exact hw
          · rw [mpRx_append, mpRx_rx]; exact Rm.run_trans hr (Rm.run_one (a := .read ms false) trivial (Rm.read_step ms ko ki))
          · intro b hb
            rw [List.mem_append, List.mem_singleton] at hb
            rcases hb with hb | rfl
            · exact hf b hb
            · rfl
          · rw [mpRx_append, mpRx_rx]
            intro e he
            rw [List.mem_append, List.mem_singleton] at he
            rcases he with he | rfl
            · exact h.plain e he
            · trivial
          · rw [mpRx_append, mpRx_rx, mReceived_append, hlog, h.log]; simp [msgs, mReceived]
        · next hnd =>
          simp only [Option.some.injEq, Prod.mk.injEq] at hs
          obtain ⟨rfl, rfl⟩ := hs
          have hl := readSome_undoneG hc (by simpa using hnd)
          rw [List.append_nil]
          exact ⟨hw, h.rm, h.plain, by simpa [hl] using h.log, h.ready, h.dlost, h.ec, h.bad⟩
      · cases hs
    · cases hs

theorem MPipe.run_good (hK : K.Reads cwf w Ok Shown Inv) (hP : K.Packs w Ok May) {s s' : MPipe K} {as : List MPAct} {es fs : List MPEv}
    (h : s.Good w Ok Inv c batch limit es) (ha : ∀ a ∈ as, ∀ call fits, a = .send call fits → May call) (hs : MPipe.Run c cwf batch limit s as s' fs) :
    s'.Good w Ok Inv c batch limit (es ++ fs) := by
  induction hs with
  | nil => simpa using h
  | snoc s1 s2 as a es1 fs1 hr1 hs1 ih =>
    rw [← List.append_assoc]
    exact MPipe.step_good hK hP (ih (fun x hx => ha x (by simp [hx]))) (ha a (by simp)) hs1

theorem MPipe.run_trans {s s1 s2 : MPipe K} {as bs : List MPAct} {es fs : List MPEv} (h1 : MPipe.Run c cwf batch limit s as s1 es) (h2 : MPipe.Run c cwf batch limit s1 bs s2 fs) :
    MPipe.Run c cwf batch limit s (as ++ bs) s2 (es ++ fs) := by
  induction h2 with
  | nil => simpa using h1
  | snoc s2 s3 bs a fs fs' _ hs ih =>
    rw [← List.append_assoc, ← List.append_assoc]
    exact MPipe.Run.snoc _ _ _ _ _ _ _ ih hs

theorem MPipe.run_one {s s' : MPipe K} {a : MPAct} {fs : List MPEv} (h : s.step c cwf batch limit a = some (s', fs)) : MPipe.Run c cwf batch limit s [a] s' fs := by
  simpa using MPipe.Run.snoc _ _ _ _ _ _ _ (MPipe.Run.nil s) h

theorem MPipe.exec_run {s s' : MPipe K} {as : List MPAct} {es : List MPEv} (h : MPipe.exec c cwf batch limit s as = some (s', es)) : MPipe.Run c cwf batch limit s as s' es := by
  induction as generalizing s es with
  | nil => simp [MPipe.exec] at h; obtain ⟨rfl, rfl⟩ := h; exact MPipe.Run.nil _
  | cons a as ih =>
    simp only [MPipe.exec, Option.bind_eq_bind] at h
    rw [Option.bind_eq_some_iff] at h
    obtain ⟨⟨s1, e1⟩, h1, h⟩ := h
    rw [Option.bind_eq_some_iff] at h
    obtain ⟨⟨s2, e2⟩, h2, h⟩ := h
    simp at h
    obtain ⟨rfl, rfl⟩ := h
    exact MPipe.run_trans (MPipe.run_one h1) (ih h2)

end
end StAsio
