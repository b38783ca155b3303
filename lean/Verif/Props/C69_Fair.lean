import Verif.Props.C22_Fair
import Verif.Props.C26_Fair
import Verif.Props.C56_Fair
import Verif.Props.C69_Websocket
/-!
C69 for ever: a sender that never stops sending over a websocket link, a receiver that never stops receiving.
-/
set_option autoImplicit false
namespace StAsio

/-- The sender does something of class `c`. -/
def WsAct.isTx (c : TxAct → Bool) : WsAct → Bool
  | .tx a => c a
  | _ => false

/-- The receiver does something of class `c`. -/
def WsAct.isRx (c : RAct → Bool) : WsAct → Bool
  | .rx a => c a
  | _ => false

/-- The receiver's async_read completes. -/
def WsAct.isNet : WsAct → Bool
  | .net => true
  | _ => false

/-- What an action means for the sending socket. -/
def WsPipe.txAct (c : Cfg) (nd : Bool) (_ : WsPipe) : WsAct → Option TxAct
  | .send native call fits => match call.wsPack c nd native with
    | some (some bs) => some (if call.wsSingle native then .send ⟨bs.flatten, none⟩ false fits else .sendList (bs.map (fun b => ⟨b, none⟩)) false)
    | _ => none
  | .tx a => some a
  | _ => none

/-- What an action means for the receiving socket, as long as there are no empty messages. -/
def WsPipe.rxAct (s : WsPipe) : WsAct → Option RAct
  | .rx a => some a
  | .net => (s.link[s.off]?).map (fun m => .read [s.recvBuff ++ m])
  | _ => none

theorem WsPipe.step_tx {c : Cfg} {nd : Bool} {limit : Nat} {s s' : WsPipe} {a : WsAct} {es : List WsEv} (hi : s.tx.Inv) (hs : s.step c nd limit a = some (s', es)) :
    match WsPipe.txAct c nd s a with
      | none => s'.tx = s.tx ∧ wsPieces es = []
      | some y => y.steady = true ∧ ∃ fs, s.tx.step wsBatch y = some (s'.tx, fs) ∧ wsPieces es = (acceptedMsgs fs).map TxMsg.data := by
  cases a with
  | send native call fits =>
    simp only [WsPipe.step] at hs
    simp only [WsPipe.txAct]
    split at hs
    · cases hs
    · split at hs
      · next h => rw [h]; cases hs; exact ⟨rfl, rfl⟩
      · next h => rw [h]; cases hs; exact ⟨rfl, rfl⟩
      · next bs h =>
        rw [h]
        simp only
        cases hc : call.wsSingle native
        · simp only [hc, Bool.false_eq_true, if_false, Option.some.injEq, Prod.mk.injEq] at hs ⊢
          obtain ⟨rfl, rfl⟩ := hs
          refine ⟨rfl, (s.tx.sendList (bs.map (fun b => ⟨b, none⟩)) false).2, rfl, ?_⟩
          rw [(Tx.sendList_step hi _).2.2]
          simp [wsPieces, acceptedMsgs, Function.comp_def]
        · simp only [hc, if_true, Option.some.injEq, Prod.mk.injEq] at hs ⊢
          obtain ⟨rfl, rfl⟩ := hs
          refine ⟨rfl, (s.tx.send ⟨bs.flatten, none⟩ false fits).2, rfl, ?_⟩
          rcases (Tx.send_step s.tx (⟨bs.flatten, none⟩ : TxMsg) fits).2.2 with ⟨h1, _⟩ | ⟨h1, _⟩ <;> rw [h1] <;> simp [wsPieces, acceptedMsgs]
  | tx a =>
    simp only [WsPipe.step] at hs
    split at hs
    · next hh =>
      obtain ⟨r, h1, h2⟩ := Option.map_eq_some_iff.mp hs
      cases h2
      refine ⟨?_, r.2, h1, by rw [(Tx.healthy_step hh.2 h1).2.1]; rfl⟩
      have hh := hh.2
      cases a with
      | complete i ok => cases ok <;> simp_all [TxAct.healthy, TxAct.steady]
      | _ => simp_all [TxAct.healthy, TxAct.steady]
    · cases hs
  | net =>
    have hp := (WsPipe.internal_contents (a := .net) trivial hs).1
    simp only [WsPipe.step] at hs
    simp only [WsPipe.txAct]
    refine ⟨?_, hp⟩
    (repeat' split at hs) <;> first | (cases hs; done) | (cases hs; rfl) | (obtain ⟨r, h1, h2⟩ := Option.map_eq_some_iff.mp hs; cases h2; rfl)
  | rx a =>
    simp only [WsPipe.step] at hs
    simp only [WsPipe.txAct]
    split at hs
    · obtain ⟨r, h1, h2⟩ := Option.map_eq_some_iff.mp hs; cases h2; exact ⟨rfl, (wsHandled_rxEv r.2).2.1⟩
    · cases hs

theorem WsPipe.step_rx {c : Cfg} {nd : Bool} {limit : Nat} {s s' : WsPipe} {a : WsAct} {es : List WsEv} (hne : [] ∉ s.link) (hs : s.step c nd limit a = some (s', es)) :
    match WsPipe.rxAct s a with
      | none => s'.rx = s.rx ∧ wsHandled es = []
      | some y => (y.healthy = true ∨ ∃ ms, y = .read ms ∧ a.isNet = true) ∧ ∃ fs, s.rx.step limit y = some (s'.rx, fs) ∧ wsHandled es = rAccepted fs := by
  cases a with
  | send native call fits =>
    simp only [WsPipe.step] at hs
    simp only [WsPipe.rxAct]
    (repeat' split at hs) <;> first | (cases hs; done) | (cases hs; refine ⟨rfl, ?_⟩; (try split) <;> rfl)
  | tx a =>
    simp only [WsPipe.step] at hs
    simp only [WsPipe.rxAct]
    split at hs
    · obtain ⟨r, h1, h2⟩ := Option.map_eq_some_iff.mp hs; cases h2; exact ⟨rfl, rfl⟩
    · cases hs
  | net =>
    simp only [WsPipe.step] at hs
    simp only [WsPipe.rxAct]
    split at hs
    · cases hs
    · split at hs
      · cases hs
      · next m hm =>
        simp only [hm, Option.map_some]
        split at hs
        · obtain ⟨r, h1, h2⟩ := Option.map_eq_some_iff.mp hs
          cases h2
          exact ⟨.inr ⟨_, rfl, rfl⟩, r.2, h1, (wsHandled_rxEv r.2).1⟩
        · next h0 =>
          have : m = [] := List.length_eq_zero_iff.mp (by omega)
          exact absurd (List.mem_of_getElem? hm) (this ▸ hne)
  | rx a =>
    simp only [WsPipe.step] at hs
    simp only [WsPipe.rxAct]
    split at hs
    · next hh =>
      obtain ⟨r, h1, h2⟩ := Option.map_eq_some_iff.mp hs
      cases h2
      exact ⟨.inl hh.2, r.2, h1, (wsHandled_rxEv r.2).1⟩
    · cases hs

/-- Messages read are never given back; only the network reads. What is on its way stays there. -/
theorem WsPipe.step_off {c : Cfg} {nd : Bool} {limit : Nat} {s s' : WsPipe} {a : WsAct} {es : List WsEv} (hs : s.step c nd limit a = some (s', es)) :
    (if a.isNet then s'.off = s.off + 1 else s'.off = s.off) ∧ s.link <+: s'.link := by
  cases a with
  | send native call fits =>
    simp only [WsPipe.step] at hs
    (repeat' split at hs) <;> first | (cases hs; done) | (cases hs; exact ⟨by simp [WsAct.isNet], List.prefix_refl _⟩)
  | tx a =>
    simp only [WsPipe.step] at hs
    split at hs
    · obtain ⟨r, h1, h2⟩ := Option.map_eq_some_iff.mp hs; cases h2; exact ⟨by simp [WsAct.isNet], List.prefix_append _ _⟩
    · cases hs
  | net =>
    simp only [WsPipe.step] at hs
    (repeat' split at hs) <;> first | (cases hs; done) | (cases hs; exact ⟨by simp [WsAct.isNet], List.prefix_refl _⟩) |
      (obtain ⟨r, h1, h2⟩ := Option.map_eq_some_iff.mp hs; cases h2; exact ⟨by simp [WsAct.isNet], List.prefix_refl _⟩)
  | rx a =>
    simp only [WsPipe.step] at hs
    split at hs
    · obtain ⟨r, h1, h2⟩ := Option.map_eq_some_iff.mp hs; cases h2; exact ⟨by simp [WsAct.isNet], List.prefix_refl _⟩
    · cases hs

/-- While the receiver waits for a message and there is one, the network can deliver it. -/
theorem WsPipe.net_can (c : Cfg) (nd : Bool) {limit : Nat} {s : WsPipe} (hb : s.bad = false) (hrd : s.rx.rd = .reading) (h3 : s.off < s.link.length) :
    (s.step c nd limit .net).isSome = true := by
  simp only [WsPipe.step, hrd, hb, List.getElem?_eq_getElem h3]
  simp only [Bool.false_eq_true, ne_eq, not_true_eq_false, or_self, if_false]
  split
  · simp only [Rx.step, hrd, ne_eq, not_true_eq_false, if_false]
    split
    · rfl
    · split <;> rfl
  · split
    · simp only [Rx.step, hrd, true_or, if_true]; rfl
    · rfl

/-- None of the activities of a working link is put off for ever, and on_msg_handle, called again and again, accepts again and again. -/
structure WsPipe.FairRun (c : Cfg) (nd : Bool) (limit : Nat) (s : Nat → WsPipe) (a : Nat → Option WsAct) : Prop where
  /-- a thread inside a send function goes on -/
  loadReady : Fair (WsPipe.step c nd limit) s a (WsAct.isTx (· == .loadReady))
  loadFlag : Fair (WsPipe.step c nd limit) s a (WsAct.isTx (· == .loadFlag))
  /-- the sender's strand goes on: a posted do_send_msg, do_send_msg itself -/
  runPosted : Fair (WsPipe.step c nd limit) s a (WsAct.isTx (· == .runPosted))
  strand : Fair (WsPipe.step c nd limit) s a (WsAct.isTx (· == .strand))
  /-- the sender's kernel takes bytes and completes writes -/
  kernel : Fair (WsPipe.step c nd limit) s a (WsAct.isTx TxAct.kernel)
  /-- send_handler is called -/
  handler : Fair (WsPipe.step c nd limit) s a (WsAct.isTx TxAct.isHandler)
  /-- the network delivers -/
  net : Fair (WsPipe.step c nd limit) s a WsAct.isNet
  /-- the receiving chain goes on -/
  loadDisp : Fair (WsPipe.step c nd limit) s a (WsAct.isRx (· == .loadDisp))
  handled : Fair (WsPipe.step c nd limit) s a (WsAct.isRx (· == .handled))
  checkTimer : Fair (WsPipe.step c nd limit) s a (WsAct.isRx (· == .checkTimer))
  resume : Fair (WsPipe.step c nd limit) s a (WsAct.isRx (· == .resume))
  /-- the receiver's dispatching goes on: a posted do_dispatch_msg, do_dispatch_msg itself, the retry timer -/
  run : Fair (WsPipe.step c nd limit) s a (WsAct.isRx (· == .run))
  begin : Fair (WsPipe.step c nd limit) s a (WsAct.isRx (· == .begin))
  dis : Fair (WsPipe.step c nd limit) s a (WsAct.isRx (· == .dis))
  dtimer : Fair (WsPipe.step c nd limit) s a (WsAct.isRx (· == .dtimer))
  /-- the receiving application accepts messages -/
  accepts : Fair (WsPipe.step c nd limit) s a (WsAct.isRx (· == .ret true))

section
variable {c : Cfg} {nd : Bool} {limit : Nat} {s : Nat → WsPipe} {a : Nat → Option WsAct} {e : Nat → List WsEv}

theorem WsPipe.fair_tx (hb : ∀ n, (s n).bad = false) (c' : TxAct → Bool) (hh : ∀ y, c' y = true → y.healthy = true) (hf : Fair (WsPipe.step c nd limit) s a (WsAct.isTx c')) :
    Fair (Tx.step wsBatch) (fun n => (s n).tx) (fun n => (a n).bind (WsPipe.txAct c nd (s n))) c' := by
  refine Fair.project (proj := WsPipe.tx) hf c' (fun n y hy hs => ⟨.tx y, hy, ?_⟩) (fun n x hx _ => ?_)
  · simp only [WsPipe.step, hb n, hh y hy, and_self, if_true, Option.isSome_map]
    exact hs
  · cases x with
    | tx y => exact ⟨y, hx, rfl⟩
    | _ => simp [WsAct.isTx] at hx

theorem WsPipe.fair_rx (hb : ∀ n, (s n).bad = false) (c' : RAct → Bool) (hh : ∀ y, c' y = true → y.healthy = true) (hf : Fair (WsPipe.step c nd limit) s a (WsAct.isRx c')) :
    Fair (Rx.step limit) (fun n => (s n).rx) (fun n => (a n).bind (WsPipe.rxAct (s n))) c' := by
  refine Fair.project (proj := WsPipe.rx) hf c' (fun n y hy hs => ⟨.rx y, hy, ?_⟩) (fun n x hx _ => ?_)
  · simp only [WsPipe.step, hb n, hh y hy, and_self, if_true, Option.isSome_map]
    exact hs
  · cases x with
    | rx y => exact ⟨y, hx, rfl⟩
    | _ => simp [WsAct.isRx] at hx

theorem WsPipe.exec_tx (hi : ∀ n, (s n).tx.Inv) (he : Exec (WsPipe.step c nd limit) s a e) :
    Exec (Tx.step wsBatch) (fun n => (s n).tx) (fun n => (a n).bind (WsPipe.txAct c nd (s n))) (partTrace (Tx.step wsBatch) (fun n => (s n).tx) (fun n => (a n).bind (WsPipe.txAct c nd (s n)))) := by
  refine Exec.project (proj := WsPipe.tx) he (fun n x es _ hs => ?_)
  have := WsPipe.step_tx (hi n) hs
  cases h : WsPipe.txAct c nd (s n) x with
  | none => rw [h] at this; exact this.1
  | some y =>
    rw [h] at this
    obtain ⟨_, fs, h, _⟩ := this
    exact ⟨fs, h⟩

theorem WsPipe.trace_tx (hi : ∀ n, (s n).tx.Inv) (he : Exec (WsPipe.step c nd limit) s a e) (n : Nat) :
    (acceptedMsgs (partTrace (Tx.step wsBatch) (fun n => (s n).tx) (fun n => (a n).bind (WsPipe.txAct c nd (s n))) n)).map TxMsg.data = wsPieces (e n) := by
  induction n with
  | zero => rw [he.start]; rfl
  | succ n ih =>
    cases ha : a n with
    | none => simp only [partTrace, ha, Option.bind_none]; rw [ih, (he.idle n ha).2]
    | some x =>
      obtain ⟨es, hs, h1⟩ := he.next n x ha
      have h2 := WsPipe.step_tx (hi n) hs
      rw [h1, wsPieces_append, ← ih]
      simp only [partTrace, ha, Option.bind_some]
      split at h2
      · next h3 => simp only [h3]; rw [h2.2, List.append_nil]
      · next y h3 =>
        obtain ⟨_, fs, h4, h5⟩ := h2
        simp only [h3, h4]
        rw [acceptedMsgs_append, List.map_append, h5]

theorem WsPipe.exec_rx (hne : ∀ n, [] ∉ (s n).link) (he : Exec (WsPipe.step c nd limit) s a e) :
    Exec (Rx.step limit) (fun n => (s n).rx) (fun n => (a n).bind (WsPipe.rxAct (s n))) (partTrace (Rx.step limit) (fun n => (s n).rx) (fun n => (a n).bind (WsPipe.rxAct (s n)))) := by
  refine Exec.project (proj := WsPipe.rx) he (fun n x es _ hs => ?_)
  have := WsPipe.step_rx (hne n) hs
  cases h : WsPipe.rxAct (s n) x with
  | none => rw [h] at this; exact this.1
  | some y =>
    rw [h] at this
    obtain ⟨_, fs, h, _⟩ := this
    exact ⟨fs, h⟩

theorem WsPipe.trace_rx (hne : ∀ n, [] ∉ (s n).link) (he : Exec (WsPipe.step c nd limit) s a e) (n : Nat) :
    rAccepted (partTrace (Rx.step limit) (fun n => (s n).rx) (fun n => (a n).bind (WsPipe.rxAct (s n))) n) = wsHandled (e n) := by
  induction n with
  | zero => rw [he.start]; rfl
  | succ n ih =>
    cases ha : a n with
    | none => simp only [partTrace, ha, Option.bind_none]; rw [ih, (he.idle n ha).2]
    | some x =>
      obtain ⟨es, hs, h1⟩ := he.next n x ha
      have h2 := WsPipe.step_rx (hne n) hs
      rw [h1, wsHandled_append, ← ih]
      simp only [partTrace, ha, Option.bind_some]
      split at h2
      · next h3 => simp only [h3]; rw [h2.2, List.append_nil]
      · next y h3 =>
        obtain ⟨_, fs, h4, h5⟩ := h2
        simp only [h3, h4]
        rw [rAccepted_append, h5]

/-- C69, for ever: threads of the sender that go on sending for ever, a receiver that may refuse messages for a while and whose receive buffer may be full for a while. If none of the activities involved is
put off for ever and no empty message is sent, then every piece put into the send buffer is accepted by the receiver's on_msg_handle at some time, after all those sent before it, with the same content. -/
theorem C69_no_starvation_partial (c : Cfg) (hv : c.Valid) (hh : c.bufSize < 256 ^ c.headLen) (nd : Bool) (limit : Nat) (hlim : 0 < limit) (s : Nat → WsPipe) (a : Nat → Option WsAct) (e : Nat → List WsEv)
    (h0 : s 0 = WsPipe.init) (ha : ∀ n x, a n = some x → x.Honest) (he : Exec (WsPipe.step c nd limit) s a e) (hf : WsPipe.FairRun c nd limit s a) (hemp : ∀ n, [] ∉ wsPieces (e n)) (n : Nat) :
    ∃ m, wsPieces (e n) <+: wsHandled (e m) := by
  have hg : ∀ n, (s n).Good nd limit (e n) :=
    he.holds (fun t es => t.Good nd limit es) (h0 ▸ WsPipe.init_good nd limit) (fun n x es hx h hs => WsPipe.step_good hv hh h (ha n x hx) hs)
  have hne : ∀ n, [] ∉ (s n).link := fun n hc => hemp n (by rw [← (hg n).frames]; simp [hc])
  have hbad : ∀ n, (s n).bad = false := fun n => (hg n).not_bad (.inr (hemp n))
  have hrdoff : ∀ n, (s n).rx.rd ≠ .off := fun n hc => hne n (List.mem_of_mem_take ((hg n).dead (.inl hc)))
  have hi : ∀ n, (s n).tx.Inv := fun n => (hg n).tx_inv
  have hlinkgrow : ∀ n m, n ≤ m → (s n).link <+: (s m).link := by
    intro n m hm
    obtain ⟨k, rfl⟩ := Nat.exists_eq_add_of_le hm
    clear hm
    induction k with
    | zero => exact List.prefix_refl _
    | succ k ih =>
      refine ih.trans ?_
      cases hx : a (n + k) with
      | none => rw [← Nat.add_assoc, (he.idle _ hx).1]; exact List.prefix_refl _
      | some x =>
        obtain ⟨es, hs, _⟩ := he.next _ x hx
        exact (WsPipe.step_off hs).2
  -- the sender
  have hsent : ∀ n, ∃ m, (wsPieces (e n)).length ≤ (s m).link.length := by
    intro n
    have htx := WsPipe.exec_tx hi he
    have htr := WsPipe.trace_tx hi he
    have hsteady : ∀ n y, (a n).bind (WsPipe.txAct c nd (s n)) = some y → y.steady = true := by
      intro n y hy
      cases hx : a n with
      | none => simp [hx] at hy
      | some x =>
        simp only [hx, Option.bind_some] at hy
        obtain ⟨es, hs, _⟩ := he.next n x hx
        have := WsPipe.step_tx (hi n) hs
        rw [hy] at this
        exact this.1
    have f1 := WsPipe.fair_tx hbad _ (by intro y hy; cases eq_of_beq hy; rfl) hf.loadReady
    have f2 := WsPipe.fair_tx hbad _ (by intro y hy; cases eq_of_beq hy; rfl) hf.loadFlag
    have f3 := WsPipe.fair_tx hbad _ (by intro y hy; cases eq_of_beq hy; rfl) hf.runPosted
    have f4 := WsPipe.fair_tx hbad _ (by intro y hy; cases eq_of_beq hy; rfl) hf.strand
    have f5 := WsPipe.fair_tx hbad _ (by intro y hy; cases y <;> simp_all [TxAct.kernel, TxAct.healthy]) hf.kernel
    have f6 := WsPipe.fair_tx hbad _ (by intro y hy; cases y <;> simp_all [TxAct.isHandler, TxAct.healthy]) hf.handler
    have hup : (s 0).tx = Tx.up := by rw [h0]; rfl
    have hu : Tx.step wsBatch Tx.init .linkUp = some ((s 0).tx, []) := by rw [hup]; exact Tx.up_step wsBatch
    obtain ⟨m, hm, _⟩ := C22_no_starvation wsBatch [] Tx.init [] [] _ _ _ (.nil _) hu htx hsteady f1 f2 f3 f4 f5 f6 n
    have hgo : Tx.Going wsBatch _ _ _ := ⟨htx, ⟨hi 0, by simpa [failedSinceUp] using Tx.run_live (.snoc _ _ _ _ _ _ _ (.nil _) hu), (hg 0).ready⟩, hsteady, f4, f3, f1, f2, f5, f6⟩
    have hord := (hgo.order (by simp only [hup]; rfl) m).1
    have h1 := congrArg List.length (htr n)
    have h2 := congrArg List.length (htr m)
    have h3 := congrArg List.length (hg m).frames
    have h4 := congrArg List.length hord
    have h5 := hm.length_le
    have h6 : Tx.init.q.items = [] := rfl
    have h7 : (s 0).tx.q.items = [] := by rw [hup]; rfl
    simp only [h6, h7, List.nil_append, List.length_append, List.length_map, Tx.inFlight] at h1 h2 h3 h4 h5
    have h8 : (s m).tx.writes.length ≤ (s m).tx.sendingMsgs.length := by
      have hown := (hi m).owner
      have h9 : (if (s m).tx.sending then 1 else 0) ≤ 1 := by split <;> omega
      cases hw : (s m).tx.writes with
      | nil => simp
      | cons w ws =>
        have := List.length_pos_iff.mpr ((hi m).some (.inl (by rw [hw]; simp)))
        rw [hw] at hown
        simp only [List.length_cons] at hown ⊢
        omega
    exact ⟨m, by omega⟩
  -- the receiver
  have hrx := WsPipe.exec_rx hne he
  have hacc := WsPipe.trace_rx hne he
  have hrxinit : (s 0).rx = { Rx.init with rd := .reading } := by rw [h0]; rfl
  have hlink : Rx.Run limit Rx.init [.linkUp] (s 0).rx [] := by
    rw [hrxinit]
    exact Rx.run_one (by simp [Rx.step, Rx.init])
  have hrok : ∀ n y, (a n).bind (WsPipe.rxAct (s n)) = some y → y.healthy = true ∨ ∃ x ms, a n = some x ∧ y = .read ms ∧ x.isNet = true := by
    intro n y hy
    cases hx : a n with
    | none => simp [hx] at hy
    | some x =>
      simp only [hx, Option.bind_some] at hy
      obtain ⟨es, hs, _⟩ := he.next n x hx
      have := WsPipe.step_rx (hne n) hs
      rw [hy] at this
      rcases this.1 with h | ⟨ms, h, h'⟩
      · exact .inl h
      · exact .inr ⟨x, ms, rfl, h, h'⟩
  have hrok' : ∀ n y, (a n).bind (WsPipe.rxAct (s n)) = some y → y ≠ .loseDispatch ∧ y ≠ .pop ∧ y ≠ .popAll ∧ y ≠ .reset := by
    intro n y hy
    rcases hrok n y hy with h | ⟨x, ms, _, rfl, _⟩
    · cases y <;> simp_all [RAct.healthy]
    · simp
  have hordr := Rx.fair_order hrx ⟨(hg 0).rx_inv, (hg 0).dlost⟩ (by
    intro n y hy
    have := hrok' n y hy
    cases y <;> simp_all [RAct.steady])
  generalize partTrace (Rx.step limit) (fun n => (s n).rx) (fun n => (a n).bind (WsPipe.rxAct (s n))) = re at hrx hacc hordr
  have hlist : ∀ n, rReceived (re n) = wsHandled (e n) ++ (s n).rx.cur.toList ++ (s n).rx.buf.items := by
    intro n
    have := rMonitor_plain (hordr n).2.2 (hordr n).2.1
    rw [hacc, hrxinit] at this
    simpa [Rx.ideal, Rx.init, Q.init] using this
  have hrec : ∀ n, rReceived (re n) = (s n).link.take (s n).off := by
    intro n
    obtain ⟨ras, res, r1, r2, r3, r4⟩ := (hg n).rx
    have h1 := C25_order limit ras (s n).rx res r1 r2
    rw [r3, r4, upToEmpty_self _ (fun hc => hne n (List.mem_of_mem_take hc))] at h1
    rw [hlist, h1]
  have hhandled : ∀ n, ∃ m, rReceived (re n) <+: wsHandled (e m) := by
    intro n
    have f1 := WsPipe.fair_rx hbad _ (by intro y hy; cases eq_of_beq hy; rfl) hf.loadDisp
    have f2 := WsPipe.fair_rx hbad _ (by intro y hy; cases eq_of_beq hy; rfl) hf.run
    have f3 := WsPipe.fair_rx hbad _ (by intro y hy; cases eq_of_beq hy; rfl) hf.begin
    have f4 := WsPipe.fair_rx hbad _ (by intro y hy; cases eq_of_beq hy; rfl) hf.dis
    have f5 := WsPipe.fair_rx hbad _ (by intro y hy; cases eq_of_beq hy; rfl) hf.dtimer
    have f6 := WsPipe.fair_rx hbad _ (by intro y hy; cases eq_of_beq hy; rfl) hf.accepts
    obtain ⟨m, hm⟩ := C26_no_starvation_partial limit [.linkUp] [] _ _ _ hlink (hg 0).dlost hrx hrok' f1 f2 f3 f4 f5 f6 n
    refine ⟨m, ?_⟩
    rw [hacc, hrxinit] at hm
    simpa [Rx.init, Q.init] using hm
  have hgrow : ∀ n m, n ≤ m → wsHandled (e n) <+: wsHandled (e m) := by
    intro n m hm
    obtain ⟨es, h⟩ := he.grow_le hm
    rw [h, wsHandled_append]
    exact List.prefix_append _ _
  have hoff1 : ∀ n, (s n).off ≤ (s (n + 1)).off ∧ ((∃ x, a n = some x ∧ x.isNet = true) → (s n).off < (s (n + 1)).off) := by
    intro n
    cases hx : a n with
    | none => rw [(he.idle n hx).1]; exact ⟨Nat.le_refl _, by simp⟩
    | some x =>
      obtain ⟨es, hs, _⟩ := he.next n x hx
      have := (WsPipe.step_off hs).1
      refine ⟨by split at this <;> omega, ?_⟩
      rintro ⟨y, hy, h2⟩
      cases hy
      rw [if_pos h2] at this
      omega
  have hoff : ∀ n m, n ≤ m → (s n).off ≤ (s m).off := by
    intro n m hm
    obtain ⟨k, rfl⟩ := Nat.exists_eq_add_of_le hm
    clear hm
    induction k with
    | zero => exact Nat.le_refl _
    | succ k ih => exact Nat.le_trans ih (hoff1 _).1
  have hread : ∀ n, (s n).off < (s n).link.length → ∃ m, n ≤ m ∧ (s n).off < (s m).off := by
    intro n hn
    apply Classical.byContradiction
    intro hc
    have hsame : ∀ m, n ≤ m → (s m).off = (s n).off := by
      intro m hm
      have h1 := hoff n m hm
      have h2 : ¬ (s n).off < (s m).off := fun h => hc ⟨m, hm, h⟩
      omega
    have hno : ∀ m x, n ≤ m → a m = some x → x.isNet = false := by
      intro m x hm hx
      cases hnet : x.isNet with
      | false => rfl
      | true =>
        have h1 := (hoff1 m).2 ⟨x, hx, hnet⟩
        have h2 := hsame m hm
        have h3 := hsame (m + 1) (by omega)
        omega
    have hok : ∀ m y, n ≤ m → (a m).bind (WsPipe.rxAct (s m)) = some y → y.healthy = true := by
      intro m y hm hy
      rcases hrok m y hy with h | ⟨x, ms, hx, _, h'⟩
      · exact h
      · rw [hno m x hm hx] at h'; cases h'
    have hstill : ∀ m, n ≤ m → rReceived (re m) = rReceived (re n) := by
      intro m hm
      obtain ⟨k, rfl⟩ := Nat.exists_eq_add_of_le hm
      clear hm
      induction k with
      | zero => rfl
      | succ k ih =>
        rw [← ih, ← Nat.add_assoc]
        cases hy : (a (n + k)).bind (WsPipe.rxAct (s (n + k))) with
        | none => rw [(hrx.idle _ hy).2]
        | some y =>
          obtain ⟨fs, h1, h2⟩ := hrx.next _ y hy
          rw [h2, rReceived_append, Rx.no_received (hok _ y (by omega) hy) h1, List.append_nil]
    obtain ⟨m0, hm0⟩ := hhandled n
    have hempty : ∀ m, n + m0 ≤ m → (s m).rx.rd ≠ .off ∧ (s m).rx.available limit = true := by
      intro m hm
      refine ⟨hrdoff m, ?_⟩
      have h1 := hm0.length_le
      have h2 := (hgrow m0 m (by omega)).length_le
      have h3 := congrArg List.length (hlist m)
      rw [hstill m (by omega)] at h3
      simp only [List.length_append] at h3
      have h4 : (s m).rx.buf.items = [] := List.length_eq_zero_iff.mp (by omega)
      have h5 := (hg m).rx_inv.exact
      rw [Q.Exact, h4] at h5
      simp only [sumSize, List.map_nil, List.sum_nil] at h5
      simp only [Rx.available, decide_eq_true_eq]
      omega
    have hok' : ∀ m y, n + m0 ≤ m → (a m).bind (WsPipe.rxAct (s m)) = some y → y.healthy = true := fun m y hm => hok m y (by omega)
    have g1 := WsPipe.fair_rx hbad _ (by intro y hy; cases eq_of_beq hy; rfl) hf.loadDisp
    have g2 := WsPipe.fair_rx hbad _ (by intro y hy; cases eq_of_beq hy; rfl) hf.handled
    have g3 := WsPipe.fair_rx hbad _ (by intro y hy; cases eq_of_beq hy; rfl) hf.checkTimer
    have g4 := WsPipe.fair_rx hbad _ (by intro y hy; cases eq_of_beq hy; rfl) hf.resume
    obtain ⟨m1, hm1, hrd⟩ := Rx.reads hrx hok' hempty g1 g2 g3 g4
    have hstay := hrx.stays (ok := fun _ y => y.healthy = true) (n0 := m1) (fun k y hk hy => hok k y (by omega) hy) (J := fun _ => True) (fun _ _ => trivial) (fun t => t.rd = .reading) hrd
      (fun t t' x es _ _ hp hx hs => by
        have := Rx.rd_step hx hs
        simp only [hp] at this
        simpa using this)
    obtain ⟨m2, hm2, x, hx, hax⟩ := hf.net (fun k => ⟨m1 + k, by omega, .net, rfl, WsPipe.net_can c nd (hbad _) (hstay _ (by omega)) (by
      rw [hsame _ (by omega)]
      exact Nat.lt_of_lt_of_le hn (hlinkgrow n _ (by omega)).length_le)⟩) n
    rw [hno m2 x hm2 hax] at hx
    cases hx
  -- both
  obtain ⟨m1, hm1⟩ := hsent n
  obtain ⟨k, hk, hm2⟩ := reaches (f := fun k => (s (n + m1 + k)).off) (t := (wsPieces (e n)).length) (by
    intro k hlt
    obtain ⟨m, h1, h2⟩ := hread (n + m1 + k) (Nat.lt_of_lt_of_le hlt (Nat.le_trans hm1 (hlinkgrow m1 _ (by omega)).length_le))
    exact ⟨m - (n + m1), by omega, by rw [show n + m1 + (m - (n + m1)) = m by omega]; exact h2⟩) 0
  obtain ⟨m3, hm3⟩ := hhandled (n + m1 + k)
  refine ⟨m3, List.IsPrefix.trans ?_ hm3⟩
  rw [hrec, (hg (n + m1 + k)).read]
  obtain ⟨es, hes⟩ := he.grow_le (show n ≤ n + m1 + k by omega)
  rw [hes, wsPieces_append, List.take_append, List.take_of_length_le hm2]
  exact List.prefix_append _ _

/-- C69, for ever, for send_native_msg with one message at a time: every message sent is accepted by the receiver's on_msg_handle at some time, after all those sent before it, as one message, with the same
content. -/
theorem C69_native_no_starvation (c : Cfg) (hv : c.Valid) (hh : c.bufSize < 256 ^ c.headLen) (nd : Bool) (limit : Nat) (hlim : 0 < limit) (s : Nat → WsPipe) (a : Nat → Option WsAct) (e : Nat → List WsEv)
    (h0 : s 0 = WsPipe.init) (ha : ∀ n x, a n = some x → x.Honest) (hna : ∀ n x, a n = some x → x.NativeOnly) (he : Exec (WsPipe.step c nd limit) s a e) (hf : WsPipe.FairRun c nd limit s a) (n : Nat) :
    ∃ m, wsContents (e n) <+: wsHandled (e m) := by
  have hp : ∀ n, wsPieces (e n) = wsContents (e n) ∧ [] ∉ wsPieces (e n) := by
    refine he.holds (fun _ es => wsPieces es = wsContents es ∧ [] ∉ wsPieces es) ⟨rfl, by simp [wsPieces]⟩ (fun n x es hx h hs => ?_)
    obtain ⟨h1, h2⟩ := WsPipe.native_pieces (as := [x]) hv (by simpa using ha n x hx) (by simpa using hna n x hx) (WsPipe.run_one hs)
    rw [wsPieces_append, wsContents_append, h.1, h1]
    refine ⟨rfl, fun hc => ?_⟩
    rcases List.mem_append.mp hc with hc | hc
    · exact h.2 (h.1 ▸ hc)
    · exact h2 (h1 ▸ hc)
  rw [← (hp n).1]
  exact C69_no_starvation_partial c hv hh nd limit hlim s a e h0 ha he hf (fun n => (hp n).2) n

end

/-- `wsDemo`, and everything that is left to do. -/
def wsFairDemo : List WsAct := wsDemo ++ [.tx .loadReady, .tx .loadReady, .tx .loadFlag, .tx .loadFlag, .tx .strand, .tx .strand, .tx .strand, .rx .run]

/-- Non-vacuity of C69_native_no_starvation: this execution is fair, since nothing is left to do in the end. -/
theorem C69_fair_exists : ∃ (s : Nat → WsPipe) (a : Nat → Option WsAct) (e : Nat → List WsEv), s 0 = WsPipe.init ∧ (∀ n x, a n = some x → x.Honest) ∧ (∀ n x, a n = some x → x.NativeOnly) ∧
    Exec (WsPipe.step exCfg true 100) s a e ∧ WsPipe.FairRun exCfg true 100 s a ∧ ∃ n, wsContents (e n) = [[1, 2], [3]] ∧ wsHandled (e n) = [] := by
  have hn : ∀ x ∈ wsFairDemo, x.Honest ∧ x.NativeOnly := by
    intro x hx
    have h1 : x = .send true (.array [Piece.of [1], Piece.of [2]]) true ∨ x = .send true (.one [3]) true ∨ x = .send true (.one []) true ∨ (∃ y, x = .tx y) ∨ (∃ y, x = .rx y) ∨ x = .net := by
      simp only [wsFairDemo, wsDemo, wsWake, wsWrite, List.mem_append, List.mem_cons, List.not_mem_nil, or_false] at hx
      cases x with
      | send native call fits => simp_all
      | _ => simp
    rcases h1 with rfl | rfl | rfl | ⟨y, rfl⟩ | ⟨y, rfl⟩ | rfl
    · exact ⟨by intro p hp mem hm; simp [Piece.of] at hp; rcases hp with rfl | rfl <;> simp at hm <;> subst hm <;> decide, trivial⟩
    all_goals exact ⟨trivial, trivial⟩
  have hend : (play (WsPipe.step exCfg true 100) WsPipe.init wsFairDemo wsFairDemo.length).1 =
      { WsPipe.init with tx := { Tx.init with ready := true, wire := [1, 2, 3] }, link := [[1, 2], [3]], off := 2 } := by decide +kernel
  have hfin : ∀ x : WsAct, x.Internal → (play (WsPipe.step exCfg true 100) WsPipe.init wsFairDemo wsFairDemo.length).1.step exCfg true 100 x = none := by
    intro x hx
    rw [hend]
    cases x with
    | send _ _ _ => exact absurd hx (by simp [WsAct.Internal])
    | net => rfl
    | tx y => cases y <;> simp [WsPipe.step, WsPipe.init, Tx.step, Tx.init, Tx.strand, TxAct.healthy]
    | rx y => cases y <;> simp [WsPipe.step, WsPipe.init, Rx.step, Rx.init, RAct.healthy]
  have htx : ∀ cl : TxAct → Bool, Fair (WsPipe.step exCfg true 100) (fun n => (play (WsPipe.step exCfg true 100) WsPipe.init wsFairDemo n).1) (fun n => wsFairDemo[n]?) (WsAct.isTx cl) := fun cl =>
    play_fair _ _ _ (fun x hx => hfin x (by cases x <;> simp_all [WsAct.isTx, WsAct.Internal]))
  have hrx : ∀ cl : RAct → Bool, cl (.ret false) = false →
      Fair (WsPipe.step exCfg true 100) (fun n => (play (WsPipe.step exCfg true 100) WsPipe.init wsFairDemo n).1) (fun n => wsFairDemo[n]?) (WsAct.isRx cl) := fun cl hcl =>
    play_fair _ _ _ (fun x hx => hfin x (by
      cases x with
      | rx y => cases y with
        | ret ok => cases ok <;> simp_all [WsAct.isRx, WsAct.Internal]
        | _ => trivial
      | _ => simp [WsAct.isRx] at hx))
  refine ⟨_, _, _, rfl, fun n x hx => (hn x (List.mem_of_getElem? hx)).1, fun n x hx => (hn x (List.mem_of_getElem? hx)).2, play_exec WsPipe.init wsFairDemo (by decide +kernel), ?_, 15, by decide +kernel⟩
  exact ⟨htx _, htx _, htx _, htx _, htx _, htx _, play_fair _ _ _ (fun x hx => hfin x (by cases x <;> simp_all [WsAct.isNet, WsAct.Internal])),
    hrx _ rfl, hrx _ rfl, hrx _ rfl, hrx _ rfl, hrx _ rfl, hrx _ rfl, hrx _ rfl, hrx _ rfl, hrx _ rfl⟩

end StAsio
