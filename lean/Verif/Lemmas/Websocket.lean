import Verif.Spec.Websocket
import Verif.Lemmas.EndToEnd2
set_option autoImplicit false
namespace StAsio

theorem wsPieces_append (a b : List WsEv) : wsPieces (a ++ b) = wsPieces a ++ wsPieces b := by
  induction a with
  | nil => rfl
  | cons e a ih => cases e <;> simp [wsPieces, ih]

theorem wsContents_append (a b : List WsEv) : wsContents (a ++ b) = wsContents a ++ wsContents b := by
  induction a with
  | nil => rfl
  | cons e a ih => cases e <;> simp [wsContents, ih]

theorem wsHandled_append (a b : List WsEv) : wsHandled (a ++ b) = wsHandled a ++ wsHandled b := by
  induction a with
  | nil => rfl
  | cons e a ih => cases e with
    | sent _ _ => simp [wsHandled, ih]
    | handled m ok => cases ok <;> simp [wsHandled, ih]

theorem wsHandled_rxEv (es : List REv) : wsHandled (es.filterMap wsRxEv) = rAccepted es ∧ wsPieces (es.filterMap wsRxEv) = [] ∧ wsContents (es.filterMap wsRxEv) = [] := by
  induction es with
  | nil => exact ⟨rfl, rfl, rfl⟩
  | cons e es ih => cases e with
    | ret m ok => cases ok <;> simp [wsRxEv, wsHandled, wsPieces, wsContents, rAccepted, ih]
    | _ => rw [List.filterMap_cons_none (by rfl)]; exact ih

theorem upToEmpty_whole (a : List Bytes) (h : [] ∉ a) (b : List Bytes) : upToEmpty (a ++ b) = a ++ upToEmpty b := by
  induction a with
  | nil => rfl
  | cons m a ih =>
    simp only [List.mem_cons, not_or] at h
    have h1 : m ≠ [] := fun hc => h.1 hc.symm
    simp only [List.cons_append, upToEmpty, h1, if_false, ih h.2]

theorem upToEmpty_self (a : List Bytes) (h : [] ∉ a) : upToEmpty a = a := by
  have := upToEmpty_whole a h []
  simpa [upToEmpty] using this

theorem upToEmpty_cut (a : List Bytes) (h : [] ∈ a) (b : List Bytes) : upToEmpty (a ++ b) = upToEmpty a := by
  induction a with
  | nil => simp at h
  | cons m a ih =>
    simp only [List.cons_append, upToEmpty]
    split
    · rfl
    · next hm =>
      rw [ih]
      rcases List.mem_cons.mp h with h | h
      · exact absurd h.symm hm
      · exact h

theorem upToEmpty_prefix (a b : List Bytes) : upToEmpty a <+: upToEmpty (a ++ b) := by
  by_cases h : [] ∈ a
  · rw [upToEmpty_cut a h b]; exact List.prefix_refl _
  · rw [upToEmpty_whole a h b, upToEmpty_self a h]; exact ⟨_, rfl⟩

/-! ### the sender -/

/-- The websocket message being written. -/
def Tx.inFlight (s : Tx) : List Bytes := s.writes.map (fun w => TxMsg.bytes w.bufs)

theorem moveOut_one (q : Q TxMsg) (dest : List TxMsg) : (q.moveOutBytes TxMsg.sz dest wsBatch).2 = dest ++ q.items.take 1 ∧
    (q.moveOutBytes TxMsg.sz dest wsBatch).1.items = q.items.drop 1 := by
  unfold Q.moveOutBytes wsBatch
  rw [if_neg (by decide)]
  cases hq : q.items with
  | nil => simp [Q.scanBytes, Q.splice, hq]
  | cons m l =>
    simp only [Q.scanBytes, Nat.zero_le, if_true, Q.splice, hq, Nat.zero_add]
    cases l <;> simp

theorem Tx.send_frames (s : Tx) (m : TxMsg) (fits : Bool) :
    (s.send m false fits).1.writes = s.writes ∧
      (((s.send m false fits).2 = [] ∧ (s.send m false fits).1 = s) ∨ ((s.send m false fits).2 = [.accept [m] false] ∧ m.data ≠ [] ∧
        (s.send m false fits).1.q.items = s.q.items ++ [m])) := by
  unfold Tx.send
  split
  · exact ⟨rfl, Or.inl ⟨rfl, rfl⟩⟩
  · next hm =>
    simp only [Bool.false_eq_true, if_false]
    cases fits with
    | false => exact ⟨rfl, Or.inl ⟨rfl, rfl⟩⟩
    | true => exact ⟨rfl, Or.inr ⟨rfl, by simpa using hm, rfl⟩⟩

theorem Tx.sendList_frames {s : Tx} (hi : s.Inv) (ms : List TxMsg) :
    (s.sendList ms false).1.writes = s.writes ∧ (s.sendList ms false).1.q.items = s.q.items ++ ms := by
  have hs := (Tx.step_inv (batch := 0) (a := .sendList ms false) hi (s' := (s.sendList ms false).1) (es := (s.sendList ms false).2) rfl).2
  have h3 := (Tx.sendList_step hi ms).2.2
  rw [h3] at hs
  simp only [IdealTx.monitor, IdealTx.event, Tx.ideal, Bool.false_eq_true, if_false, Option.some.injEq, IdealTx.mk.injEq] at hs
  refine ⟨?_, hs.1.symm⟩
  simp only [Tx.sendList]
  split <;> rfl

theorem Tx.healthy_frames {s s' : Tx} {a : TxAct} {es : List TxEv} (h : s.Inv) (ha : a.healthy = true) (hs : s.step wsBatch a = some (s', es)) :
    wsWritten s a ++ s'.inFlight ++ s'.q.items.map TxMsg.data = s.inFlight ++ s.q.items.map TxMsg.data := by
  have hown := h.owner
  have hle : s.writes.length + s.dones.length ≤ 1 := by
    have : (if s.sending then 1 else 0) ≤ 1 := by split <;> omega
    omega
  cases a with
  | transfer i k =>
    simp only [Tx.step] at hs
    cases hw : s.writes[i]? with
    | none => simp [hw] at hs
    | some w =>
      simp only [hw, Option.bind_eq_bind, Option.bind_some] at hs
      split at hs
      · cases hs
      · cases hs
        obtain ⟨e1, e2⟩ := length_one_eq (by omega) hw
        subst e2
        simp [wsWritten, Tx.inFlight, e1]
  | complete i ok =>
    simp only [Tx.step] at hs
    cases hw : s.writes[i]? with
    | none => simp [hw] at hs
    | some w =>
      simp only [hw, Option.bind_eq_bind, Option.bind_some] at hs
      split at hs
      · cases hs
      · cases hs
        obtain ⟨e1, e2⟩ := length_one_eq (by omega) hw
        subst e2
        simp [wsWritten, Tx.inFlight, e1]
  | handler i =>
    simp only [Tx.step, Option.bind_eq_bind] at hs
    rw [Option.bind_eq_some_iff] at hs
    obtain ⟨w, hw, hs⟩ := hs
    split at hs
    · cases hs
    · simp only [Tx.handler, Option.some.injEq] at hs
      split at hs <;> (cases hs; rfl)
  | strand =>
    simp only [Tx.step, Tx.strand] at hs
    cases hpc : s.pc with
    | move =>
      rw [hpc] at hs hown
      simp only at hs
      have hw : s.writes = [] ∧ s.dones = [] := by
        simp only [TxPc.owner] at hown
        have : (if s.sending then 1 else 0) ≤ 1 := by split <;> omega
        exact ⟨List.length_eq_zero_iff.mp (by omega), List.length_eq_zero_iff.mp (by omega)⟩
      have hsm := h.none hw.1 hw.2
      obtain ⟨m1, m2⟩ := moveOut_one s.q s.sendingMsgs
      rw [hsm, List.nil_append] at m1
      rw [hsm] at m2
      rw [hsm] at hs
      split at hs
      · next he =>
        cases hs
        rw [m1] at he
        simp only [wsWritten, Tx.inFlight, m2, hw.1]
        cases hq : s.q.items with
        | nil => simp
        | cons m l => rw [hq] at he; simp at he
      · next he =>
        cases hs
        simp only [wsWritten, Tx.inFlight, m1, m2, hw.1]
        cases hq : s.q.items with
        | nil => rw [m1, hq] at he; simp at he
        | cons m l => simp [TxMsg.bytes]
    | idle => rw [hpc] at hs; cases hs
    | test => rw [hpc] at hs; simp only at hs; split at hs <;> (cases hs; rfl)
    | clear => rw [hpc] at hs; cases hs; rfl
    | check => rw [hpc] at hs; cases hs; rfl
    | errClear => rw [hpc] at hs; cases hs; rfl
  | loadReady => simp only [Tx.step] at hs; split at hs <;> (cases hs; try rfl)
  | loadFlag => simp only [Tx.step] at hs; split at hs <;> (cases hs; try rfl)
  | runPosted => simp only [Tx.step] at hs; split at hs <;> (cases hs; try rfl)
  | _ => simp [TxAct.healthy] at ha

/-- Nobody starts receiving again. -/
theorem RAct.healthy_off {limit : Nat} {s s' : Rx} {a : RAct} {es : List REv} (ha : a.healthy = true) (hs : s.step limit a = some (s', es)) :
    s.rd = .off → s'.rd = .off := by
  intro h
  cases a <;> simp only [RAct.healthy, Bool.false_eq_true] at ha <;> simp only [Rx.step] at hs <;> (repeat' split at hs) <;>
    (first | (cases hs; done) | (cases hs; exact h) | (simp_all; done))

/-- Packing does not run into an assertion. -/
theorem SendCall.wsPack_some {c : Cfg} (hv : c.Valid) {nd native : Bool} (hr : c.bufSize < 256 ^ c.headLen) (call : SendCall)
    (hh : ∀ ps, call = .array ps → Readable ps) : ∃ r, call.wsPack c nd native = some r := by
  cases native with
  | false =>
    obtain ⟨r, h1, _⟩ := SendCall.pack_spec hv (nd := nd) hr call hh
    refine ⟨r, ?_⟩
    cases call <;> simpa [SendCall.wsPack, SendCall.pack] using h1
  | true =>
    cases call with
    | array ps =>
      simp only [SendCall.wsPack, packArray_spec c hv true ps (hh ps rfl)]
      simp only [if_true]
      split
      · exact ⟨_, rfl⟩
      · split <;> exact ⟨_, rfl⟩
    | heartbeat =>
      obtain ⟨r, h1, _⟩ := SendCall.pack_spec hv (nd := nd) hr .heartbeat (by simp)
      exact ⟨r, by simpa [SendCall.wsPack, SendCall.pack] using h1⟩
    | _ => exact ⟨_, rfl⟩

/-! ### the invariant -/

structure WsPipe.Good (nd : Bool) (limit : Nat) (s : WsPipe) (es : List WsEv) : Prop where
  tx : ∃ tas tes, Tx.Run wsBatch Tx.up tas s.tx tes ∧ (∀ a ∈ tas, (∀ i, a ≠ .complete i false) ∧ a ≠ .linkUp)
  ready : s.tx.ready = true
  frames : s.link ++ s.tx.inFlight ++ s.tx.q.items.map TxMsg.data = wsPieces es
  off : s.off ≤ s.link.length
  rx : ∃ ras res, Rx.Run limit Rx.init ras s.rx res ∧ (∀ e ∈ res, RPlainEv e) ∧ rAccepted res = wsHandled es ∧ rReceived res = upToEmpty (s.link.take s.off)
  buff : s.recvBuff = []
  live : s.rx.rd ≠ .off → s.bad = false → [] ∉ s.link.take s.off
  dead : s.rx.rd = .off ∨ s.bad = true → [] ∈ s.link.take s.off
  how : (s.bad = true → nd = false) ∧ (s.rx.rd = .off → nd = true)
  dlost : s.rx.dlost = false

theorem WsPipe.init_good (nd : Bool) (limit : Nat) : WsPipe.Good nd limit WsPipe.init [] := by
  have hrx : Rx.step limit Rx.init .linkUp = some ({ Rx.init with rd := .reading }, []) := by
    simp [Rx.step, Rx.init]
  exact ⟨⟨[], [], Tx.Run.nil _, by simp⟩, rfl, rfl, Nat.le_refl _, ⟨_, _, Rx.run_one hrx, by simp, rfl, rfl⟩, rfl, by simp [WsPipe.init],
    by simp [WsPipe.init], by simp [WsPipe.init], rfl⟩

theorem WsPipe.Good.tx_inv {nd : Bool} {limit : Nat} {s : WsPipe} {es : List WsEv} (h : s.Good nd limit es) : s.tx.Inv := by
  obtain ⟨tas, tes, hrun, _⟩ := h.tx
  exact (Tx.run_inv Tx.up_inv hrun).1

theorem WsPipe.Good.rx_inv {nd : Bool} {limit : Nat} {s : WsPipe} {es : List WsEv} (h : s.Good nd limit es) : s.rx.Inv := by
  obtain ⟨ras, res, hrun, _⟩ := h.rx
  exact (Rx.run_inv Rx.init_inv hrun).1

theorem WsPipe.Good.of_tx {nd : Bool} {limit : Nat} {s : WsPipe} {es fs : List WsEv} (h : s.Good nd limit es) {t : Tx} {tes : List TxEv} {a : TxAct} {w : List Bytes}
    (hs : s.tx.step wsBatch a = some (t, tes)) (ha : (∀ i, a ≠ .complete i false) ∧ a ≠ .linkUp) (hr : t.ready = s.tx.ready)
    (hw : w ++ t.inFlight ++ t.q.items.map TxMsg.data = s.tx.inFlight ++ s.tx.q.items.map TxMsg.data ++ wsPieces fs) (hh : wsHandled fs = []) :
    WsPipe.Good nd limit { s with tx := t, link := s.link ++ w } (es ++ fs) := by
  obtain ⟨tas, tes0, hrun, hf⟩ := h.tx
  obtain ⟨ras, res, r1, r2, r3, r4⟩ := h.rx
  have hoff := h.off
  have htk : (s.link ++ w).take s.off = s.link.take s.off := List.take_append_of_le_length hoff
  refine ⟨⟨tas ++ [a], tes0 ++ tes, Tx.Run.snoc _ _ _ _ _ _ _ hrun hs, ?_⟩, by rw [← h.ready]; exact hr, ?_, ?_, ⟨ras, res, r1, r2, ?_, ?_⟩, h.buff, ?_, ?_, h.how, h.dlost⟩
  · intro b hb
    rw [List.mem_append, List.mem_singleton] at hb
    rcases hb with hb | rfl
    · exact hf b hb
    · exact ha
  · have := h.frames
    simp only [wsPieces_append]
    rw [← this]
    simp only [List.append_assoc] at hw ⊢
    rw [hw]
  · simp only [List.length_append]; omega
  · rw [wsHandled_append, hh, List.append_nil]; exact r3
  · simp only [htk]; exact r4
  · simp only [htk]; exact h.live
  · simp only [htk]; exact h.dead

theorem WsPipe.step_good {c : Cfg} (hv : c.Valid) {nd : Bool} (hr : c.bufSize < 256 ^ c.headLen) {limit : Nat} {s s' : WsPipe} {a : WsAct}
    {es fs : List WsEv} (h : s.Good nd limit es) (ha : a.Honest) (hs : s.step c nd limit a = some (s', fs)) : s'.Good nd limit (es ++ fs) := by
  cases a with
  | send native call fits =>
    obtain ⟨r, hp⟩ := SendCall.wsPack_some hv (nd := nd) (native := native) hr call (by intro ps hps; subst hps; exact ha)
    simp only [WsPipe.step, hp] at hs
    split at hs
    · cases hs
    · cases r with
      | none => simp at hs; obtain ⟨rfl, rfl⟩ := hs; simpa using h
      | some bs =>
        simp only at hs
        have hl : ∀ t : Tx, ({ s with tx := t } : WsPipe) = { s with tx := t, link := s.link ++ [] } := by intro t; simp
        split at hs
        · simp only [Option.some.injEq, Prod.mk.injEq] at hs
          obtain ⟨rfl, rfl⟩ := hs
          obtain ⟨e1, e2, _⟩ := Tx.send_step s.tx (⟨bs.flatten, none⟩ : TxMsg) fits
          obtain ⟨f1, f2⟩ := Tx.send_frames s.tx (⟨bs.flatten, none⟩ : TxMsg) fits
          rcases f2 with ⟨f2, f3⟩ | ⟨f2, f3, f4⟩
          · rw [f2, f3]; simpa using h
          · rw [hl]
            refine h.of_tx (a := .send ⟨bs.flatten, none⟩ false fits) (tes := (s.tx.send ⟨bs.flatten, none⟩ false fits).2) rfl ⟨by simp, by simp⟩ e1 ?_ ?_
            · rw [f2]; simp [Tx.inFlight, f1, f4, wsPieces]
            · rw [f2]; rfl
        · simp only [Option.some.injEq, Prod.mk.injEq] at hs
          obtain ⟨rfl, rfl⟩ := hs
          obtain ⟨e1, e2, e3⟩ := Tx.sendList_step h.tx_inv (bs.map (fun b => (⟨b, none⟩ : TxMsg)))
          obtain ⟨f1, f2⟩ := Tx.sendList_frames h.tx_inv (bs.map (fun b => (⟨b, none⟩ : TxMsg)))
          rw [hl]
          refine h.of_tx (a := .sendList (bs.map (fun b => (⟨b, none⟩ : TxMsg))) false) (tes := (s.tx.sendList (bs.map (fun b => (⟨b, none⟩ : TxMsg))) false).2) rfl ⟨by simp, by simp⟩ e1 ?_ ?_
          · rw [e3]; simp [Tx.inFlight, f1, f2, wsPieces, Function.comp_def]
          · rw [e3]; rfl
  | tx a =>
    simp only [WsPipe.step] at hs
    split at hs
    · next hh =>
      rw [Option.map_eq_some_iff] at hs
      obtain ⟨⟨t, tes⟩, h1, h2⟩ := hs
      cases h2
      obtain ⟨e1, _⟩ := Tx.healthy_step hh.2 h1
      exact h.of_tx h1 (TxAct.healthy_wire hh.2) e1 (by rw [Tx.healthy_frames h.tx_inv hh.2 h1]; simp [wsPieces]) rfl
    · cases hs
  | rx a =>
    simp only [WsPipe.step] at hs
    split at hs
    · next hh =>
      rw [Option.map_eq_some_iff] at hs
      obtain ⟨⟨t, tes⟩, h1, h2⟩ := hs
      cases h2
      obtain ⟨e1, e2, e3, e4⟩ := RAct.healthy_step hh.2 h1
      have e5 : t.rd = .off → s.rx.rd = .off := by
        intro ht
        rcases Classical.em (s.rx.rd = .off) with h0 | h0
        · exact h0
        · exact absurd ht (e2 h0)
      have e6 : s.rx.rd = .off → t.rd = .off := by
        exact RAct.healthy_off hh.2 h1
      obtain ⟨f1, f2, _⟩ := wsHandled_rxEv tes
      obtain ⟨ras, res, r1, r2, r3, r4⟩ := h.rx
      refine ⟨h.tx, h.ready, ?_, h.off, ⟨_, _, Rx.Run.snoc _ _ _ _ _ _ _ r1 h1, ?_, ?_, ?_⟩, h.buff, ?_, ?_, ⟨h.how.1, fun ht => h.how.2 (e5 ht)⟩, e1 h.dlost⟩
      · rw [wsPieces_append, f2, List.append_nil]; exact h.frames
      · intro e he
        rw [List.mem_append] at he
        rcases he with he | he
        · exact r2 e he
        · exact e4 e he
      · rw [rAccepted_append', wsHandled_append, f1, r3]
      · rw [rReceived_append, e3, List.append_nil]; exact r4
      · intro ht hb; exact h.live (fun hc => ht (e6 hc)) hb
      · intro ht
        rcases ht with ht | ht
        · exact h.dead (Or.inl (e5 ht))
        · exact h.dead (Or.inr ht)
    · cases hs
  | net =>
    obtain ⟨ras, res, r1, r2, r3, r4⟩ := h.rx
    simp only [WsPipe.step] at hs
    split at hs
    · cases hs
    · next hc =>
      simp only [not_or, Bool.not_eq_true, ne_eq, Classical.not_not] at hc
      obtain ⟨hb, hrd⟩ := hc
      have hno := h.live (by rw [hrd]; simp) hb
      split at hs
      · cases hs
      · next m hm =>
        have hlt : s.off < s.link.length := by
          rcases Nat.lt_or_ge s.off s.link.length with h' | h'
          · exact h'
          · rw [List.getElem?_eq_none h'] at hm; cases hm
        have htk : s.link.take (s.off + 1) = s.link.take s.off ++ [m] := by
          rw [List.take_add_one, hm]; rfl
        split at hs
        · next hpos =>
          have hne : m ≠ [] := by intro hc; rw [hc] at hpos; simp at hpos
          rw [Option.map_eq_some_iff] at hs
          obtain ⟨⟨t, tes⟩, h1, h2⟩ := hs
          simp only [wsParse, h.buff, List.nil_append, if_true, Prod.mk.injEq] at h1 h2
          obtain ⟨rfl, rfl⟩ := h2
          have hti := Rx.step_inv (Rx.run_inv Rx.init_inv r1).1 h1
          have hres : rReceived tes = [m] ∧ (∀ e ∈ tes, RPlainEv e) ∧ t.rd ≠ .off ∧ t.dlost = false := by
            simp only [Rx.step, hrd] at h1
            simp only [ne_eq, not_true_eq_false, if_false, List.isEmpty_cons, Bool.false_eq_true] at h1
            split at h1
            · cases h1; exact absurd hti.1.bad (by simp)
            · cases h1; exact ⟨by simp [rReceived], by simp [RPlainEv], by simp, h.dlost⟩
          obtain ⟨g1, g2, g3, g4⟩ := hres
          obtain ⟨f1, f2, _⟩ := wsHandled_rxEv tes
          have hno' : [] ∉ s.link.take (s.off + 1) := by
            rw [htk, List.mem_append, List.mem_singleton]
            rintro (hc | hc)
            · exact hno hc
            · exact hne hc.symm
          refine ⟨h.tx, h.ready, ?_, hlt, ⟨_, _, Rx.Run.snoc _ _ _ _ _ _ _ r1 h1, ?_, ?_, ?_⟩, rfl, fun _ _ => hno', ?_, ⟨h.how.1, fun hc => absurd hc g3⟩, g4⟩
          · rw [wsPieces_append, f2, List.append_nil]; exact h.frames
          · intro e he
            rw [List.mem_append] at he
            rcases he with he | he
            · exact r2 e he
            · exact g2 e he
          · rw [rAccepted_append', wsHandled_append, f1, r3]
          · rw [rReceived_append, g1, r4]
            simp only
            rw [upToEmpty_self _ hno', upToEmpty_self _ hno, htk]
          · rintro (hc | hc)
            · exact absurd hc g3
            · simp only [hb] at hc; cases hc
        · next hpos =>
          have hne : m = [] := by cases m with
            | nil => rfl
            | cons x m => simp at hpos
          subst hne
          have hin : [] ∈ s.link.take (s.off + 1) := by rw [htk]; simp
          have hup : upToEmpty (s.link.take (s.off + 1)) = upToEmpty (s.link.take s.off) := by
            rw [htk, upToEmpty_whole _ hno, upToEmpty_self _ hno]; simp [upToEmpty]
          split at hs
          · next hnd =>
            rw [Option.map_eq_some_iff] at hs
            obtain ⟨⟨t, tes⟩, h1, h2⟩ := hs
            simp only [h.buff, List.append_nil, Prod.mk.injEq] at h2
            obtain ⟨rfl, rfl⟩ := h2
            have h1' := h1
            simp only [Rx.step, hrd, true_or, if_true, Option.some.injEq, Prod.mk.injEq] at h1'
            obtain ⟨rfl, rfl⟩ := h1'
            refine ⟨h.tx, h.ready, by simpa using h.frames, hlt, ⟨_, _, Rx.Run.snoc _ _ _ _ _ _ _ r1 h1, by simpa using r2, by simpa using r3, ?_⟩, rfl, ?_, fun _ => hin, ⟨h.how.1, fun _ => hnd⟩, h.dlost⟩
            · simp only [List.append_nil]; rw [hup]; exact r4
            · intro hc; exact absurd rfl hc
          · next hnd =>
            simp only [Option.some.injEq, Prod.mk.injEq] at hs
            obtain ⟨rfl, rfl⟩ := hs
            refine ⟨h.tx, h.ready, by simpa using h.frames, hlt, ⟨ras, res, r1, r2, by simpa using r3, ?_⟩, by simp [h.buff], ?_, fun _ => hin, ⟨fun _ => by simpa using hnd, h.how.2⟩, h.dlost⟩
            · simp only; rw [hup]; exact r4
            · intro _ hc; cases hc

theorem WsPipe.run_good {c : Cfg} (hv : c.Valid) {nd : Bool} (hr : c.bufSize < 256 ^ c.headLen) {limit : Nat} {s s' : WsPipe} {as : List WsAct}
    {es fs : List WsEv} (h : s.Good nd limit es) (ha : ∀ a ∈ as, a.Honest) (hs : WsPipe.Run c nd limit s as s' fs) : s'.Good nd limit (es ++ fs) := by
  induction hs with
  | nil => simpa using h
  | snoc s1 s2 as a es1 fs1 hr1 hs1 ih =>
    rw [← List.append_assoc]
    exact WsPipe.step_good hv hr (ih (fun x hx => ha x (by simp [hx]))) (ha a (by simp)) hs1

end StAsio
