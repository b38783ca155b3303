import Verif.Lemmas.EndToEnd2
import Verif.Props.C22_Fair
import Verif.Props.C26_Fair
import Verif.Props.C56_EndToEnd
/-!
C56 for ever: a sender that never stops sending, a receiver that never stops receiving.
-/
set_option autoImplicit false
namespace StAsio

/-- The sender does something of class `c`. -/
def PAct.isTx (c : TxAct → Bool) : PAct → Bool
  | .tx a => c a
  | _ => false

/-- The receiver does something of class `c`. -/
def PAct.isRx (c : RAct → Bool) : PAct → Bool
  | .rx a => c a
  | _ => false

/-- The receiver's async_read_some gets bytes. -/
def PAct.isNet : PAct → Bool
  | .net _ => true
  | _ => false

/-- What an action means for the sending socket. -/
def Pipe.txAct (c : Cfg) (nd : Bool) (_ : Pipe) : PAct → Option TxAct
  | .send call fits => match call.pack c nd with
    | some (some bs) => some (if call.single then .send ⟨bs.flatten, none⟩ false fits else .sendList (bs.map (fun b => ⟨b, none⟩)) false)
    | _ => none
  | .tx a => some a
  | _ => none

/-- What an action means for the receiving socket. -/
def Pipe.rxAct (c : Cfg) (cwf : Bool) (s : Pipe) : PAct → Option RAct
  | .rx a => some a
  | .net k => match s.conn.ph with
    | .reading cap got _ => match readSome (unpackerOps c) cwf s.conn cap got ((s.tx.wire.drop s.off).take k) with
      | some conn => if readDone conn.ph then some (.read (newMsgs s.conn.log conn.log)) else none
      | none => none
    | _ => none
  | _ => none

theorem Pipe.step_tx {c : Cfg} {nd cwf : Bool} {batch limit : Nat} {s s' : Pipe} {a : PAct} {es : List PEv} (hs : s.step c nd cwf batch limit a = some (s', es)) :
    match Pipe.txAct c nd s a with
      | none => s'.tx = s.tx
      | some y => y.steady = true ∧ ∃ fs, s.tx.step batch y = some (s'.tx, fs) := by
  cases a with
  | send call fits =>
    simp only [Pipe.step] at hs
    simp only [Pipe.txAct]
    split at hs
    · next h => rw [h]; cases hs; rfl
    · next h => rw [h]; cases hs; rfl
    · next bs h =>
      rw [h]
      cases hs
      simp only
      cases hc : call.single
      · exact ⟨rfl, _, by simp only [Tx.step]; rfl⟩
      · exact ⟨rfl, _, by simp only [Tx.step]; rfl⟩
  | tx a =>
    simp only [Pipe.step] at hs
    split at hs
    · next hh =>
      obtain ⟨r, h1, h2⟩ := Option.map_eq_some_iff.mp hs
      cases h2
      refine ⟨?_, r.2, h1⟩
      cases a with
      | complete i ok => cases ok <;> simp_all [TxAct.healthy, TxAct.steady]
      | _ => simp_all [TxAct.healthy, TxAct.steady]
    · cases hs
  | net k =>
    simp only [Pipe.step] at hs
    simp only [Pipe.txAct]
    (repeat' split at hs) <;> first | (cases hs; done) | (cases hs; rfl) | (obtain ⟨r, h1, h2⟩ := Option.map_eq_some_iff.mp hs; cases h2; rfl)
  | rx a =>
    simp only [Pipe.step] at hs
    simp only [Pipe.txAct]
    split at hs
    · obtain ⟨r, h1, h2⟩ := Option.map_eq_some_iff.mp hs; cases h2; rfl
    · cases hs

theorem Pipe.step_rx {c : Cfg} {nd cwf : Bool} {batch limit : Nat} {s s' : Pipe} {a : PAct} {es : List PEv} (hs : s.step c nd cwf batch limit a = some (s', es)) :
    match Pipe.rxAct c cwf s a with
      | none => s'.rx = s.rx ∧ handledItems es = []
      | some y => (y.healthy = true ∨ ∃ ms, y = .read ms ∧ a.isNet = true) ∧ ∃ fs, s.rx.step limit y = some (s'.rx, fs) ∧ handledItems es = rAccepted fs := by
  cases a with
  | send call fits =>
    simp only [Pipe.step] at hs
    simp only [Pipe.rxAct]
    (repeat' split at hs) <;> cases hs <;> refine ⟨rfl, ?_⟩ <;> (try split) <;> rfl
  | tx a =>
    simp only [Pipe.step] at hs
    simp only [Pipe.rxAct]
    split at hs
    · obtain ⟨r, h1, h2⟩ := Option.map_eq_some_iff.mp hs; cases h2; exact ⟨rfl, rfl⟩
    · cases hs
  | net k =>
    simp only [Pipe.step] at hs
    simp only [Pipe.rxAct]
    split at hs
    · next cap got want hrd hph =>
      simp only [hph]
      split at hs
      · split at hs
        · next h => simp only [h]; cases hs; exact ⟨rfl, rfl⟩
        · next conn h =>
          simp only [h]
          split at hs
          · next hd =>
            simp only [hd, if_true]
            obtain ⟨r, h1, h2⟩ := Option.map_eq_some_iff.mp hs
            cases h2
            exact ⟨.inr ⟨_, rfl, rfl⟩, r.2, h1, (handledItems_rxEv r.2).1⟩
          · next hd =>
            simp only [hd]
            cases hs
            exact ⟨rfl, rfl⟩
      · cases hs
    · cases hs
  | rx a =>
    simp only [Pipe.step] at hs
    simp only [Pipe.rxAct]
    split at hs
    · next hh =>
      obtain ⟨r, h1, h2⟩ := Option.map_eq_some_iff.mp hs
      cases h2
      exact ⟨.inl hh, r.2, h1, (handledItems_rxEv r.2).1⟩
    · cases hs

/-- Bytes read are never given back; only the network reads. -/
theorem Pipe.step_off {c : Cfg} {nd cwf : Bool} {batch limit : Nat} {s s' : Pipe} {a : PAct} {es : List PEv} (hb : s'.bad = false) (hs : s.step c nd cwf batch limit a = some (s', es)) :
    if a.isNet then s.off < s'.off else s'.off = s.off := by
  cases a with
  | send call fits =>
    simp only [Pipe.step] at hs
    (repeat' split at hs) <;> cases hs <;> simp [PAct.isNet]
  | tx a =>
    simp only [Pipe.step] at hs
    split at hs
    · obtain ⟨r, h1, h2⟩ := Option.map_eq_some_iff.mp hs; cases h2; simp [PAct.isNet]
    · cases hs
  | net k =>
    simp only [Pipe.step] at hs
    (repeat' split at hs) <;> first | (cases hs; done) | (cases hs; simp at hb; done) | (cases hs; simp only [PAct.isNet, if_true]; omega) | (obtain ⟨r, h1, h2⟩ := Option.map_eq_some_iff.mp hs; cases h2; simp only [PAct.isNet, if_true]; omega)
  | rx a =>
    simp only [Pipe.step] at hs
    split at hs
    · obtain ⟨r, h1, h2⟩ := Option.map_eq_some_iff.mp hs; cases h2; simp [PAct.isNet]
    · cases hs

/-- While the receiver waits for data and there is some, the network can deliver. -/
theorem Pipe.net_can {c : Cfg} (hv : c.Valid) (nd cwf : Bool) {st : Bool} {batch limit : Nat} {s : Pipe} {es : List PEv} (h : s.Good c st batch limit es)
    (hrd : s.rx.rd = .reading) (h3 : s.off < s.tx.wire.length) : (s.step c nd cwf batch limit (.net 1)).isSome = true := by
  obtain ⟨ras, res, r1, r2, r3, r4, p, r5, r6⟩ := h.rx
  obtain ⟨cap, got, want, hph, hw, hg⟩ := (unpacker_simulates c hv st cwf).reading s.conn p r6
  have hdl : ((s.tx.wire.drop s.off).take 1).length = 1 := by rw [List.length_take, List.length_drop]; omega
  obtain ⟨conn, hc, hm⟩ := (unpacker_simulates c hv st cwf).step s.conn p cap got want ((s.tx.wire.drop s.off).take 1) r6 hph
      (by intro h0; rw [h0] at hdl; simp at hdl) (by omega) (by omega)
  simp only [Pipe.step, hrd, hph]
  rw [if_pos ⟨by omega, by omega, by omega, by omega⟩, hc]
  simp only
  split
  · simp only [Rx.step, hrd, ne_eq, not_true_eq_false, if_false]
    split
    · rfl
    · split <;> rfl
  · rfl

theorem arrived_append (hl : Nat) (st : Bool) (x y : List Item) (n : Nat) (hn : ((x.map (wire hl)).flatten).length ≤ n) : expected hl st x <+: arrived hl st (x ++ y) n := by
  induction x generalizing n with
  | nil => exact List.nil_prefix
  | cons b x ih =>
    simp only [List.map_cons, List.flatten_cons, List.length_append, wire_length] at hn
    simp only [List.cons_append, arrived]
    rw [if_neg (by omega)]
    obtain ⟨t, ht⟩ := ih (n - (hl + b.length)) (by omega)
    refine ⟨t, ?_⟩
    rw [← ht]
    by_cases hb : b = []
    · simp [hb, expected]
    · simp [hb, expected, seen]

/-- No reading: the receiving chain only gets on. -/
theorem Rx.rd_step {limit : Nat} {t t' : Rx} {x : RAct} {es : List REv} (hx : x.healthy = true) (hs : t.step limit x = some (t', es)) :
    t'.rd = t.rd ∨ (t.rd = .moved ∧ t'.rd = .check) ∨ (t.rd = .check ∧ (t'.rd = .reading ∨ t'.rd = .timer)) ∨ (t.rd = .timer ∧ t'.rd = .resume) ∨ (t.rd = .resume ∧ t'.rd = .reading) := by
  cases x <;> simp only [Rx.step] at hs <;> (repeat' split at hs) <;> simp_all [RAct.healthy] <;> (try (obtain ⟨rfl, _⟩ := hs; simp_all)) <;> (try split) <;> simp_all

theorem Rx.no_received {limit : Nat} {t t' : Rx} {x : RAct} {es : List REv} (hx : x.healthy = true) (hs : t.step limit x = some (t', es)) : rReceived es = [] :=
  (RAct.healthy_step hx hs).2.2.1

/-- With room in the receive buffer, the receiving chain comes to the next read. -/
theorem Rx.reads {limit : Nat} {s : Nat → Rx} {a : Nat → Option RAct} {e : Nat → List REv} (he : Exec (Rx.step limit) s a e) {n0 : Nat} (hok : ∀ n x, n0 ≤ n → a n = some x → x.healthy = true)
    (hI : ∀ n, n0 ≤ n → (s n).rd ≠ .off ∧ (s n).available limit = true) (f1 : Fair (Rx.step limit) s a (· == .loadDisp)) (f2 : Fair (Rx.step limit) s a (· == .handled))
    (f3 : Fair (Rx.step limit) s a (· == .checkTimer)) (f4 : Fair (Rx.step limit) s a (· == .resume)) : ∃ m, n0 ≤ m ∧ (s m).rd = .reading := by
  have e4 := he.leads (ok := fun _ x => x.healthy = true) hok (I := fun t => t.rd ≠ .off ∧ t.available limit = true) hI f4 (fun t => t.rd = .resume) (fun t => t.rd = .reading)
    (fun t t' x es _ _ hp hx hs => by have := Rx.rd_step hx hs; simp [hp] at this; grind)
    (fun t t' x es _ _ hp hx hc hs => by cases eq_of_beq hc; simp only [Rx.step, hp] at hs; cases hs; rfl) (fun t _ hp => ⟨.resume, rfl, by simp [Rx.step, hp]⟩)
  have e3 := he.leads (ok := fun _ x => x.healthy = true) hok (I := fun t => t.rd ≠ .off ∧ t.available limit = true) hI f3 (fun t => t.rd = .timer) (fun t => t.rd = .resume)
    (fun t t' x es _ _ hp hx hs => by have := Rx.rd_step hx hs; simp [hp] at this; grind)
    (fun t t' x es hi _ hp hx hc hs => by cases eq_of_beq hc; simp only [Rx.step, hp, hi.2] at hs; cases hs; rfl) (fun t _ hp => ⟨.checkTimer, rfl, by simp [Rx.step, hp]⟩)
  have e2 := he.leads (ok := fun _ x => x.healthy = true) hok (I := fun t => t.rd ≠ .off ∧ t.available limit = true) hI f2 (fun t => t.rd = .check) (fun t => t.rd = .reading ∨ t.rd = .timer)
    (fun t t' x es _ _ hp hx hs => by have := Rx.rd_step hx hs; simp [hp] at this; grind)
    (fun t t' x es hi _ hp hx hc hs => by cases eq_of_beq hc; simp only [Rx.step, hp, hi.2] at hs; cases hs; exact .inl rfl) (fun t _ hp => ⟨.handled, rfl, by simp [Rx.step, hp]⟩)
  have e1 := he.leads (ok := fun _ x => x.healthy = true) hok (I := fun t => t.rd ≠ .off ∧ t.available limit = true) hI f1 (fun t => t.rd = .moved) (fun t => t.rd = .check)
    (fun t t' x es _ _ hp hx hs => by have := Rx.rd_step hx hs; simp [hp] at this; grind)
    (fun t t' x es hi _ hp hx hc hs => by cases eq_of_beq hc; simp only [Rx.step, hp] at hs; cases hs; rfl) (fun t _ hp => ⟨.loadDisp, rfl, by simp [Rx.step, hp]⟩)
  have d3 : ∀ n, n0 ≤ n → (s n).rd = .timer → ∃ m, n0 ≤ m ∧ (s m).rd = .reading := by
    intro n hn hp
    obtain ⟨m, hm, h1⟩ := e3 n hn hp
    obtain ⟨k, hk, h2⟩ := e4 m (by omega) h1
    exact ⟨k, by omega, h2⟩
  have d2 : ∀ n, n0 ≤ n → (s n).rd = .check → ∃ m, n0 ≤ m ∧ (s m).rd = .reading := by
    intro n hn hp
    obtain ⟨m, hm, h1 | h1⟩ := e2 n hn hp
    · exact ⟨m, by omega, h1⟩
    · exact d3 m (by omega) h1
  cases hp : (s n0).rd with
  | off => exact absurd hp (hI n0 (Nat.le_refl _)).1
  | reading => exact ⟨n0, Nat.le_refl _, hp⟩
  | moved =>
    obtain ⟨m, hm, h1⟩ := e1 n0 (Nat.le_refl _) hp
    exact d2 m (by omega) h1
  | check => exact d2 n0 (Nat.le_refl _) hp
  | timer => exact d3 n0 (Nat.le_refl _) hp
  | resume =>
    obtain ⟨m, hm, h1⟩ := e4 n0 (Nat.le_refl _) hp
    exact ⟨m, by omega, h1⟩

theorem Pipe.step_wire {c : Cfg} {nd cwf : Bool} {batch limit : Nat} {s s' : Pipe} {a : PAct} {es : List PEv} (hi : s.tx.Inv) (hs : s.step c nd cwf batch limit a = some (s', es)) :
    s.tx.wire <+: s'.tx.wire := by
  cases a with
  | send call fits =>
    simp only [Pipe.step] at hs
    split at hs
    · cases hs; exact List.prefix_refl _
    · cases hs; exact List.prefix_refl _
    · next bs h =>
      cases hs
      cases hc : call.single
      · simp only [Bool.false_eq_true, if_false]
        rw [(Tx.sendList_step hi _).2.1]
        exact List.prefix_refl _
      · simp only [if_true]
        rw [(Tx.send_step s.tx _ fits).2.1]
        exact List.prefix_refl _
  | tx a =>
    simp only [Pipe.step] at hs
    split at hs
    · next hh =>
      obtain ⟨r, h1, h2⟩ := Option.map_eq_some_iff.mp hs
      cases h2
      exact (Tx.healthy_step hh h1).2.2.1
    · cases hs
  | net k =>
    have := Pipe.step_tx hs
    simp only [Pipe.txAct] at this
    rw [this]
    exact List.prefix_refl _
  | rx a =>
    have := Pipe.step_tx hs
    simp only [Pipe.txAct] at this
    rw [this]
    exact List.prefix_refl _

/-- None of the activities of a working link is put off for ever, and on_msg_handle, called again and again, accepts again and again. -/
structure Pipe.FairRun (c : Cfg) (nd cwf : Bool) (batch limit : Nat) (s : Nat → Pipe) (a : Nat → Option PAct) : Prop where
  /-- a thread inside a send function goes on -/
  loadReady : Fair (Pipe.step c nd cwf batch limit) s a (PAct.isTx (· == .loadReady))
  loadFlag : Fair (Pipe.step c nd cwf batch limit) s a (PAct.isTx (· == .loadFlag))
  /-- the sender's strand goes on: a posted do_send_msg, do_send_msg itself -/
  runPosted : Fair (Pipe.step c nd cwf batch limit) s a (PAct.isTx (· == .runPosted))
  strand : Fair (Pipe.step c nd cwf batch limit) s a (PAct.isTx (· == .strand))
  /-- the sender's kernel takes bytes and completes writes -/
  kernel : Fair (Pipe.step c nd cwf batch limit) s a (PAct.isTx TxAct.kernel)
  /-- send_handler is called -/
  handler : Fair (Pipe.step c nd cwf batch limit) s a (PAct.isTx TxAct.isHandler)
  /-- the network delivers -/
  net : Fair (Pipe.step c nd cwf batch limit) s a PAct.isNet
  /-- the receiving chain goes on: after messages were stored, before the next read, when it polls a full receive buffer -/
  loadDisp : Fair (Pipe.step c nd cwf batch limit) s a (PAct.isRx (· == .loadDisp))
  handled : Fair (Pipe.step c nd cwf batch limit) s a (PAct.isRx (· == .handled))
  checkTimer : Fair (Pipe.step c nd cwf batch limit) s a (PAct.isRx (· == .checkTimer))
  resume : Fair (Pipe.step c nd cwf batch limit) s a (PAct.isRx (· == .resume))
  /-- the receiver's dispatching goes on: a posted do_dispatch_msg, do_dispatch_msg itself, the retry timer -/
  run : Fair (Pipe.step c nd cwf batch limit) s a (PAct.isRx (· == .run))
  begin : Fair (Pipe.step c nd cwf batch limit) s a (PAct.isRx (· == .begin))
  dis : Fair (Pipe.step c nd cwf batch limit) s a (PAct.isRx (· == .dis))
  dtimer : Fair (Pipe.step c nd cwf batch limit) s a (PAct.isRx (· == .dtimer))
  /-- the receiving application accepts messages -/
  accepts : Fair (Pipe.step c nd cwf batch limit) s a (PAct.isRx (· == .ret true))

section
variable {c : Cfg} {nd cwf : Bool} {batch limit : Nat} {s : Nat → Pipe} {a : Nat → Option PAct} {e : Nat → List PEv}

theorem Pipe.fair_tx (c' : TxAct → Bool) (hh : ∀ y, c' y = true → y.healthy = true) (hf : Fair (Pipe.step c nd cwf batch limit) s a (PAct.isTx c')) :
    Fair (Tx.step batch) (fun n => (s n).tx) (fun n => (a n).bind (Pipe.txAct c nd (s n))) c' := by
  refine Fair.project (proj := Pipe.tx) hf c' (fun n y hy hs => ⟨.tx y, hy, ?_⟩) (fun n x hx _ => ?_)
  · simp only [Pipe.step, hh y hy, if_true, Option.isSome_map]
    exact hs
  · cases x with
    | tx y => exact ⟨y, hx, rfl⟩
    | _ => simp [PAct.isTx] at hx

theorem Pipe.fair_rx (c' : RAct → Bool) (hh : ∀ y, c' y = true → y.healthy = true) (hf : Fair (Pipe.step c nd cwf batch limit) s a (PAct.isRx c')) :
    Fair (Rx.step limit) (fun n => (s n).rx) (fun n => (a n).bind (Pipe.rxAct c cwf (s n))) c' := by
  refine Fair.project (proj := Pipe.rx) hf c' (fun n y hy hs => ⟨.rx y, hy, ?_⟩) (fun n x hx _ => ?_)
  · simp only [Pipe.step, hh y hy, if_true, Option.isSome_map]
    exact hs
  · cases x with
    | rx y => exact ⟨y, hx, rfl⟩
    | _ => simp [PAct.isRx] at hx

theorem Pipe.exec_tx (he : Exec (Pipe.step c nd cwf batch limit) s a e) :
    Exec (Tx.step batch) (fun n => (s n).tx) (fun n => (a n).bind (Pipe.txAct c nd (s n))) (partTrace (Tx.step batch) (fun n => (s n).tx) (fun n => (a n).bind (Pipe.txAct c nd (s n)))) := by
  refine Exec.project (proj := Pipe.tx) he (fun n x es _ hs => ?_)
  have := Pipe.step_tx hs
  cases h : Pipe.txAct c nd (s n) x with
  | none => rw [h] at this; exact this
  | some y => rw [h] at this; exact this.2

theorem Pipe.exec_rx (he : Exec (Pipe.step c nd cwf batch limit) s a e) :
    Exec (Rx.step limit) (fun n => (s n).rx) (fun n => (a n).bind (Pipe.rxAct c cwf (s n))) (partTrace (Rx.step limit) (fun n => (s n).rx) (fun n => (a n).bind (Pipe.rxAct c cwf (s n)))) := by
  refine Exec.project (proj := Pipe.rx) he (fun n x es _ hs => ?_)
  have := Pipe.step_rx hs
  cases h : Pipe.rxAct c cwf (s n) x with
  | none => rw [h] at this; exact this.1
  | some y =>
    rw [h] at this
    obtain ⟨_, fs, h, _⟩ := this
    exact ⟨fs, h⟩

theorem Pipe.trace_rx (he : Exec (Pipe.step c nd cwf batch limit) s a e) (n : Nat) :
    rAccepted (partTrace (Rx.step limit) (fun n => (s n).rx) (fun n => (a n).bind (Pipe.rxAct c cwf (s n))) n) = handledItems (e n) := by
  induction n with
  | zero => rw [he.start]; rfl
  | succ n ih =>
    cases ha : a n with
    | none => simp only [partTrace, ha, Option.bind_none]; rw [ih, (he.idle n ha).2]
    | some x =>
      obtain ⟨es, hs, h1⟩ := he.next n x ha
      have h2 := Pipe.step_rx hs
      rw [h1, handledItems_append, ← ih]
      simp only [partTrace, ha, Option.bind_some]
      split at h2
      · next h3 => simp only [h3]; rw [h2.2, List.append_nil]
      · next y h3 =>
        obtain ⟨_, fs, h4, h5⟩ := h2
        simp only [h3, h4]
        rw [rAccepted_append, h5]

/-- The part of `Pipe.FairRun` that concerns the network and the receiver. -/
structure Pipe.FairRx (c : Cfg) (nd cwf : Bool) (batch limit : Nat) (s : Nat → Pipe) (a : Nat → Option PAct) : Prop where
  net : Fair (Pipe.step c nd cwf batch limit) s a PAct.isNet
  loadDisp : Fair (Pipe.step c nd cwf batch limit) s a (PAct.isRx (· == .loadDisp))
  handled : Fair (Pipe.step c nd cwf batch limit) s a (PAct.isRx (· == .handled))
  checkTimer : Fair (Pipe.step c nd cwf batch limit) s a (PAct.isRx (· == .checkTimer))
  resume : Fair (Pipe.step c nd cwf batch limit) s a (PAct.isRx (· == .resume))
  run : Fair (Pipe.step c nd cwf batch limit) s a (PAct.isRx (· == .run))
  begin : Fair (Pipe.step c nd cwf batch limit) s a (PAct.isRx (· == .begin))
  dis : Fair (Pipe.step c nd cwf batch limit) s a (PAct.isRx (· == .dis))
  dtimer : Fair (Pipe.step c nd cwf batch limit) s a (PAct.isRx (· == .dtimer))
  accepts : Fair (Pipe.step c nd cwf batch limit) s a (PAct.isRx (· == .ret true))

/-- The part of `Pipe.FairRun` that concerns the sender. -/
structure Pipe.FairTx (c : Cfg) (nd cwf : Bool) (batch limit : Nat) (s : Nat → Pipe) (a : Nat → Option PAct) : Prop where
  loadReady : Fair (Pipe.step c nd cwf batch limit) s a (PAct.isTx (· == .loadReady))
  loadFlag : Fair (Pipe.step c nd cwf batch limit) s a (PAct.isTx (· == .loadFlag))
  runPosted : Fair (Pipe.step c nd cwf batch limit) s a (PAct.isTx (· == .runPosted))
  strand : Fair (Pipe.step c nd cwf batch limit) s a (PAct.isTx (· == .strand))
  kernel : Fair (Pipe.step c nd cwf batch limit) s a (PAct.isTx TxAct.kernel)
  handler : Fair (Pipe.step c nd cwf batch limit) s a (PAct.isTx TxAct.isHandler)

theorem Pipe.init_parts {t : Pipe} {raw : Bytes} {stripped : Bool} (h0 : Pipe.init c raw stripped = some t) : t.tx = Tx.up ∧ t.rx = { Rx.init with rd := .reading } := by
  simp only [Pipe.init, Option.bind_eq_bind, Option.pure_def] at h0
  rw [Option.bind_eq_some_iff] at h0
  obtain ⟨k, _, h0⟩ := h0
  simp only [Option.some.injEq] at h0
  rw [← h0]
  exact ⟨rfl, rfl⟩

/-- Whatever the receiver does, everything sent gets onto the wire. -/
theorem Pipe.writes_on (hv : c.Valid) (hh : c.bufSize < 256 ^ c.headLen) {raw : Bytes} (hraw : raw.length = c.bufSize) {stripped : Bool}
    (h0 : Pipe.init c raw stripped = some (s 0)) (ha : ∀ n x, a n = some x → x.Honest) (he : Exec (Pipe.step c nd cwf batch limit) s a e)
    (hf : Pipe.FairTx c nd cwf batch limit s a) : ∀ n, ∃ m, (((sentItems (e n)).map (wire c.headLen)).flatten).length ≤ (s m).tx.wire.length := by
  obtain ⟨s1, h1, hg0⟩ := Pipe.init_good c hv stripped batch limit raw hraw
  rw [h0] at h1
  cases h1
  have hg : ∀ n, (s n).Good c stripped batch limit (e n) :=
    he.holds (fun t es => t.Good c stripped batch limit es) hg0 (fun n x es hx h hs => Pipe.step_good hv hh h (ha n x hx) hs)
  have hinit := Pipe.init_parts h0
  have htx := Pipe.exec_tx he
  have hsteady : ∀ n y, (a n).bind (Pipe.txAct c nd (s n)) = some y → y.steady = true := by
    intro n y hy
    cases hx : a n with
    | none => simp [hx] at hy
    | some x =>
      simp only [hx, Option.bind_some] at hy
      obtain ⟨es, hs, _⟩ := he.next n x hx
      have := Pipe.step_tx hs
      rw [hy] at this
      exact this.1
  have hsent : ∀ n, ∃ m, (((sentItems (e n)).map (wire c.headLen)).flatten).length ≤ (s m).tx.wire.length := by
    intro n
    have f1 := Pipe.fair_tx _ (by intro y hy; cases eq_of_beq hy; rfl) hf.loadReady
    have f2 := Pipe.fair_tx _ (by intro y hy; cases eq_of_beq hy; rfl) hf.loadFlag
    have f3 := Pipe.fair_tx _ (by intro y hy; cases eq_of_beq hy; rfl) hf.runPosted
    have f4 := Pipe.fair_tx _ (by intro y hy; cases eq_of_beq hy; rfl) hf.strand
    have f5 := Pipe.fair_tx _ (by intro y hy; cases y <;> simp_all [TxAct.kernel, TxAct.healthy]) hf.kernel
    have f6 := Pipe.fair_tx _ (by intro y hy; cases y <;> simp_all [TxAct.isHandler, TxAct.healthy]) hf.handler
    have hu : Tx.step batch Tx.init .linkUp = some ((s 0).tx, []) := by rw [hinit.1]; exact Tx.up_step batch
    obtain ⟨m, _, hm⟩ := C22_no_starvation batch [] Tx.init [] [] _ _ _ (.nil _) hu htx hsteady f1 f2 f3 f4 f5 f6 n
    have hgo : Tx.Going batch _ _ _ := ⟨htx, ⟨(hg 0).tx_inv, by simpa [failedSinceUp] using Tx.run_live (.snoc _ _ _ _ _ _ _ (.nil _) hu), (hg 0).ready⟩, hsteady, f4, f3, f1, f2, f5, f6⟩
    refine ⟨m, ?_⟩
    obtain ⟨as, hr, hst⟩ := hgo.run n
    have hw := Tx.run_wire (hg 0).tx_inv hr (by
      intro x hx
      have := hst x hx
      constructor
      · rintro i rfl; simp [TxAct.steady] at this
      · rintro rfl; simp [TxAct.steady] at this)
    have hmon := monitor_plain (Tx.run_inv (hg 0).tx_inv hr).2 (hgo.plain n).1
    have h2 := (hg n).stream
    have h3 := hm.length_le
    simp only [hinit.1] at hw hmon
    have h4 : Tx.up.ideal.waiting = [] := rfl
    have h5 : Tx.up.wire ++ Tx.up.unwritten = [] := rfl
    have h6 : Tx.init.q.items = [] := rfl
    rw [h4, List.nil_append] at hmon
    rw [h5, List.nil_append] at hw
    rw [h6, List.nil_append, hmon, TxMsg.bytes_append, ← hw] at h3
    rw [← h2, ← List.append_assoc]
    exact h3
  exact hsent

/-- Whatever the sender does, the receiver reads everything that is on its way, and everything received is handled. -/
theorem Pipe.reads_on (hv : c.Valid) (hh : c.bufSize < 256 ^ c.headLen) {raw : Bytes} (hraw : raw.length = c.bufSize) {stripped : Bool}
    (h0 : Pipe.init c raw stripped = some (s 0)) (ha : ∀ n x, a n = some x → x.Honest) (he : Exec (Pipe.step c nd cwf batch limit) s a e)
    (hlim : 0 < limit) (hf : Pipe.FairRx c nd cwf batch limit s a) :
    (∀ n, (s n).Good c stripped batch limit (e n)) ∧ (∀ n m, n ≤ m → (s n).tx.wire.length ≤ (s m).tx.wire.length) ∧
      (∀ n, (s n).off < (s n).tx.wire.length → ∃ m, n ≤ m ∧ (s n).off < (s m).off) ∧
      ∀ n, ∃ m, arrived c.headLen stripped (sentItems (e n)) (s n).off <+: handledItems (e m) := by
  obtain ⟨s1, h1, hg0⟩ := Pipe.init_good c hv stripped batch limit raw hraw
  rw [h0] at h1
  cases h1
  have hg : ∀ n, (s n).Good c stripped batch limit (e n) :=
    he.holds (fun t es => t.Good c stripped batch limit es) hg0 (fun n x es hx h hs => Pipe.step_good hv hh h (ha n x hx) hs)
  have hinit := Pipe.init_parts h0
  have hwire : ∀ n m, n ≤ m → (s n).tx.wire.length ≤ (s m).tx.wire.length := by
    intro n m hm
    obtain ⟨k, rfl⟩ := Nat.exists_eq_add_of_le hm
    clear hm
    induction k with
    | zero => exact Nat.le_refl _
    | succ k ih =>
      refine Nat.le_trans ih ?_
      cases hx : a (n + k) with
      | none => rw [← Nat.add_assoc, (he.idle _ hx).1]; exact Nat.le_refl _
      | some x =>
        obtain ⟨es, hs, _⟩ := he.next _ x hx
        exact (Pipe.step_wire (hg _).tx_inv hs).length_le
  have hrx := Pipe.exec_rx he
  have hacc := Pipe.trace_rx he
  have hlink : Rx.Run limit Rx.init [.linkUp] (s 0).rx [] := by
    rw [hinit.2]
    exact Rx.run_one (by simp [Rx.step, Rx.init])
  have hrok : ∀ n y, (a n).bind (Pipe.rxAct c cwf (s n)) = some y → y.healthy = true ∨ ∃ x ms, a n = some x ∧ y = .read ms ∧ x.isNet = true := by
    intro n y hy
    cases hx : a n with
    | none => simp [hx] at hy
    | some x =>
      simp only [hx, Option.bind_some] at hy
      obtain ⟨es, hs, _⟩ := he.next n x hx
      have := Pipe.step_rx hs
      rw [hy] at this
      rcases this.1 with h | ⟨ms, h, h'⟩
      · exact .inl h
      · exact .inr ⟨x, ms, rfl, h, h'⟩
  have hrok' : ∀ n y, (a n).bind (Pipe.rxAct c cwf (s n)) = some y → y ≠ .loseDispatch ∧ y ≠ .pop ∧ y ≠ .popAll ∧ y ≠ .reset := by
    intro n y hy
    rcases hrok n y hy with h | ⟨x, ms, _, rfl, _⟩
    · cases y <;> simp_all [RAct.healthy]
    · simp
  have hord := Rx.fair_order hrx ⟨(hg 0).rx_inv, (hg 0).dlost⟩ (by
    intro n y hy
    have := hrok' n y hy
    cases y <;> simp_all [RAct.steady])
  generalize partTrace (Rx.step limit) (fun n => (s n).rx) (fun n => (a n).bind (Pipe.rxAct c cwf (s n))) = re at hrx hacc hord
  have hlist : ∀ n, rReceived (re n) = handledItems (e n) ++ (s n).rx.cur.toList ++ (s n).rx.buf.items := by
    intro n
    have := rMonitor_plain (hord n).2.2 (hord n).2.1
    rw [hacc, hinit.2] at this
    simpa [Rx.ideal, Rx.init, Q.init] using this
  have hrec : ∀ n, rReceived (re n) = arrived c.headLen stripped (sentItems (e n)) (s n).off := by
    intro n
    obtain ⟨ras, res, r1, r2, r3, r4, p, r5, r6⟩ := (hg n).rx
    have h1 := C25_order limit ras (s n).rx res r1 r2
    obtain ⟨q, hq⟩ := (hg n).arrived (s n).off (hg n).off
    rw [hq] at r5
    simp only [Prod.mk.injEq] at r5
    rw [r3, ← r5.1] at h1
    rw [hlist, h1]
  have hhandled : ∀ n, ∃ m, rReceived (re n) <+: handledItems (e m) := by
    intro n
    have f1 := Pipe.fair_rx _ (by intro y hy; cases eq_of_beq hy; rfl) hf.loadDisp
    have f2 := Pipe.fair_rx _ (by intro y hy; cases eq_of_beq hy; rfl) hf.run
    have f3 := Pipe.fair_rx _ (by intro y hy; cases eq_of_beq hy; rfl) hf.begin
    have f4 := Pipe.fair_rx _ (by intro y hy; cases eq_of_beq hy; rfl) hf.dis
    have f5 := Pipe.fair_rx _ (by intro y hy; cases eq_of_beq hy; rfl) hf.dtimer
    have f6 := Pipe.fair_rx _ (by intro y hy; cases eq_of_beq hy; rfl) hf.accepts
    obtain ⟨m, hm⟩ := C26_no_starvation_partial limit [.linkUp] [] _ _ _ hlink (hg 0).dlost hrx hrok' f1 f2 f3 f4 f5 f6 n
    refine ⟨m, ?_⟩
    rw [hacc, hinit.2] at hm
    simpa [Rx.init, Q.init] using hm
  have hgrow : ∀ n m, n ≤ m → handledItems (e n) <+: handledItems (e m) ∧ ∃ l, sentItems (e m) = sentItems (e n) ++ l := by
    intro n m hm
    obtain ⟨es, h⟩ := he.grow_le hm
    rw [h, handledItems_append, sentItems_append]
    exact ⟨List.prefix_append _ _, _, rfl⟩
  have hoff1 : ∀ n, (s n).off ≤ (s (n + 1)).off ∧ ((∃ x, a n = some x ∧ x.isNet = true) → (s n).off < (s (n + 1)).off) := by
    intro n
    cases hx : a n with
    | none => rw [(he.idle n hx).1]; exact ⟨Nat.le_refl _, by simp⟩
    | some x =>
      obtain ⟨es, hs, _⟩ := he.next n x hx
      have := Pipe.step_off (hg (n + 1)).bad hs
      refine ⟨by split at this <;> omega, ?_⟩
      rintro ⟨y, hy, h2⟩
      cases hy
      rw [if_pos h2] at this
      exact this
  have hoff : ∀ n m, n ≤ m → (s n).off ≤ (s m).off := by
    intro n m hm
    obtain ⟨k, rfl⟩ := Nat.exists_eq_add_of_le hm
    clear hm
    induction k with
    | zero => exact Nat.le_refl _
    | succ k ih => exact Nat.le_trans ih (hoff1 _).1
  have hread : ∀ n, (s n).off < (s n).tx.wire.length → ∃ m, n ≤ m ∧ (s n).off < (s m).off := by
    intro n hn
    apply Classical.byContradiction
    intro hc
    have hsame : ∀ m, n ≤ m → (s m).off = (s n).off := by
      intro m hm
      have h1 := hoff n m hm
      have h2 : ¬ (s n).off < (s m).off := fun h => hc ⟨m, hm, h⟩
      omega
    have hno : ∀ m x, n ≤ m → a m = some x → x.isNet = false := by
      intro m x hm hx
      cases hnet : x.isNet with
      | false => rfl
      | true =>
        have h1 := (hoff1 m).2 ⟨x, hx, hnet⟩
        have h2 := hsame m hm
        have h3 := hsame (m + 1) (by omega)
        omega
    have hok : ∀ m y, n ≤ m → (a m).bind (Pipe.rxAct c cwf (s m)) = some y → y.healthy = true := by
      intro m y hm hy
      rcases hrok m y hy with h | ⟨x, ms, hx, _, h'⟩
      · exact h
      · rw [hno m x hm hx] at h'; cases h'
    have hstill : ∀ m, n ≤ m → rReceived (re m) = rReceived (re n) := by
      intro m hm
      obtain ⟨k, rfl⟩ := Nat.exists_eq_add_of_le hm
      clear hm
      induction k with
      | zero => rfl
      | succ k ih =>
        rw [← ih, ← Nat.add_assoc]
        cases hy : (a (n + k)).bind (Pipe.rxAct c cwf (s (n + k))) with
        | none => rw [(hrx.idle _ hy).2]
        | some y =>
          obtain ⟨fs, h1, h2⟩ := hrx.next _ y hy
          rw [h2, rReceived_append, Rx.no_received (hok _ y (by omega) hy) h1, List.append_nil]
    obtain ⟨m0, hm0⟩ := hhandled n
    have hempty : ∀ m, n + m0 ≤ m → (s m).rx.rd ≠ .off ∧ (s m).rx.available limit = true := by
      intro m hm
      refine ⟨(hg m).rd, ?_⟩
      have h1 := hm0.length_le
      have h2 := (hgrow m0 m (by omega)).1.length_le
      have h3 := congrArg List.length (hlist m)
      rw [hstill m (by omega)] at h3
      simp only [List.length_append] at h3
      have h4 : (s m).rx.buf.items = [] := List.length_eq_zero_iff.mp (by omega)
      have h5 := (hg m).rx_inv.exact
      rw [Q.Exact, h4] at h5
      simp only [sumSize, List.map_nil, List.sum_nil] at h5
      simp only [Rx.available, decide_eq_true_eq]
      omega
    have hok' : ∀ m y, n + m0 ≤ m → (a m).bind (Pipe.rxAct c cwf (s m)) = some y → y.healthy = true := fun m y hm => hok m y (by omega)
    have g1 := Pipe.fair_rx _ (by intro y hy; cases eq_of_beq hy; rfl) hf.loadDisp
    have g2 := Pipe.fair_rx _ (by intro y hy; cases eq_of_beq hy; rfl) hf.handled
    have g3 := Pipe.fair_rx _ (by intro y hy; cases eq_of_beq hy; rfl) hf.checkTimer
    have g4 := Pipe.fair_rx _ (by intro y hy; cases eq_of_beq hy; rfl) hf.resume
    obtain ⟨m1, hm1, hrd⟩ := Rx.reads hrx hok' hempty g1 g2 g3 g4
    have hstay := hrx.stays (ok := fun _ y => y.healthy = true) (n0 := m1) (fun k y hk hy => hok k y (by omega) hy) (J := fun _ => True) (fun _ _ => trivial) (fun t => t.rd = .reading) hrd
      (fun t t' x es _ _ hp hx hs => by
        have := Rx.rd_step hx hs
        simp only [hp] at this
        simpa using this)
    obtain ⟨m2, hm2, x, hx, hax⟩ := hf.net (fun k => ⟨m1 + k, by omega, .net 1, rfl, Pipe.net_can hv nd cwf (hg _) (hstay _ (by omega)) (by
      rw [hsame _ (by omega)]
      exact Nat.lt_of_lt_of_le hn (hwire n _ (by omega)))⟩) n
    rw [hno m2 x hm2 hax] at hx
    cases hx
  exact ⟨hg, hwire, hread, fun n => by rw [← hrec n]; exact hhandled n⟩

/-- C56, for ever: a link that works, threads of the sender that go on sending for ever, a receiver that may refuse messages for a while and whose receive buffer may be full for a while, bytes that arrive
in any pieces. If none of the activities involved is put off for ever, then every non-empty message sent is accepted by the receiver's on_msg_handle at some time, after all those sent before it, with the
same content. -/
theorem C56_no_starvation (c : Cfg) (hv : c.Valid) (hh : c.bufSize < 256 ^ c.headLen) (raw : Bytes) (hraw : raw.length = c.bufSize) (stripped nd cwf : Bool)
    (batch limit : Nat) (hlim : 0 < limit) (s : Nat → Pipe) (a : Nat → Option PAct) (e : Nat → List PEv) (h0 : Pipe.init c raw stripped = some (s 0)) (ha : ∀ n x, a n = some x → x.Honest)
    (he : Exec (Pipe.step c nd cwf batch limit) s a e) (hf : Pipe.FairRun c nd cwf batch limit s a) (n : Nat) :
    ∃ m, expected c.headLen stripped (sentItems (e n)) <+: handledItems (e m) := by
  obtain ⟨hg, hwire, hread, hhandled⟩ := Pipe.reads_on hv hh hraw h0 ha he hlim ⟨hf.net, hf.loadDisp, hf.handled, hf.checkTimer, hf.resume, hf.run, hf.begin, hf.dis, hf.dtimer, hf.accepts⟩
  have hsent := Pipe.writes_on hv hh hraw h0 ha he ⟨hf.loadReady, hf.loadFlag, hf.runPosted, hf.strand, hf.kernel, hf.handler⟩
  have hgrow : ∀ n m, n ≤ m → handledItems (e n) <+: handledItems (e m) ∧ ∃ l, sentItems (e m) = sentItems (e n) ++ l := by
    intro n m hm
    obtain ⟨es, h⟩ := he.grow_le hm
    rw [h, handledItems_append, sentItems_append]
    exact ⟨List.prefix_append _ _, _, rfl⟩
  obtain ⟨m1, hm1⟩ := hsent n
  obtain ⟨k, hk, hm2⟩ := reaches (f := fun k => (s (n + m1 + k)).off) (t := ((sentItems (e n)).map (wire c.headLen)).flatten.length) (by
    intro k hlt
    obtain ⟨m, h1, h2⟩ := hread (n + m1 + k) (Nat.lt_of_lt_of_le hlt (Nat.le_trans hm1 (hwire m1 _ (by omega))))
    exact ⟨m - (n + m1), by omega, by rw [show n + m1 + (m - (n + m1)) = m by omega]; exact h2⟩) 0
  obtain ⟨_, l, hl⟩ := hgrow n (n + m1 + k) (by omega)
  obtain ⟨m3, hm3⟩ := hhandled (n + m1 + k)
  refine ⟨m3, List.IsPrefix.trans ?_ hm3⟩
  rw [hl]
  exact arrived_append _ _ _ _ _ hm2

end

theorem play_le {State Action Event : Type} (step : State → Action → Option (State × List Event)) (s0 : State) (as bs : List Action) (n : Nat) (hn : n ≤ as.length) :
    play step s0 (as ++ bs) n = play step s0 as n := by
  induction n with
  | zero => rfl
  | succ n ih => simp only [play, ih (by omega), List.getElem?_append_left (show n < as.length by omega)]

theorem Pipe.run_play {c : Cfg} {nd cwf : Bool} {batch limit : Nat} {s0 s : Pipe} {as : List PAct} {es : List PEv} (h : Pipe.Run c nd cwf batch limit s0 as s es) :
    play (Pipe.step c nd cwf batch limit) s0 as as.length = (s, es) ∧ ∀ i : Fin as.length, (Pipe.step c nd cwf batch limit (play (Pipe.step c nd cwf batch limit) s0 as i).1 as[i]).isSome = true := by
  induction h with
  | nil => exact ⟨rfl, fun i => absurd i.2 (by simp)⟩
  | snoc s1 s2 as x es fs hr hs ih =>
    obtain ⟨h1, h2⟩ := ih
    have h3 := play_le (Pipe.step c nd cwf batch limit) s0 as [x] as.length (Nat.le_refl _)
    refine ⟨?_, fun i => ?_⟩
    · rw [List.length_append, List.length_singleton]
      simp only [play, h3, h1, List.getElem?_append_right (Nat.le_refl _), Nat.sub_self, List.getElem?_cons_zero, hs]
    · obtain ⟨i, hi⟩ := i
      simp only [Fin.getElem_fin]
      by_cases hl : i < as.length
      · rw [play_le _ _ _ _ _ (by omega), List.getElem_append_left hl]
        exact h2 ⟨i, hl⟩
      · simp only [List.length_append, List.length_singleton] at hi
        have : i = as.length := by omega
        subst this
        rw [h3, h1, List.getElem_append_right (Nat.le_refl _)]
        simp only [Nat.sub_self, List.getElem_cons_zero, hs, Option.isSome_some]

/-- Non-vacuity of C56_no_starvation: whatever happened so far (`pipeDemo` above, for example), there is a way to go on for ever that is fair. -/
theorem C56_fair_exists (c : Cfg) (hv : c.Valid) (hh : c.bufSize < 256 ^ c.headLen) (raw : Bytes) (hraw : raw.length = c.bufSize) (stripped nd cwf : Bool)
    (batch limit : Nat) (hlim : 0 < limit) (s0 s1 : Pipe) (as : List PAct) (es : List PEv) (h0 : Pipe.init c raw stripped = some s0) (ha : ∀ a ∈ as, a.Honest)
    (h : Pipe.Run c nd cwf batch limit s0 as s1 es) :
    ∃ (s : Nat → Pipe) (a : Nat → Option PAct) (e : Nat → List PEv), s 0 = s0 ∧ (∀ i, i < as.length → a i = as[i]?) ∧ (∀ n x, a n = some x → x.Honest) ∧ Exec (Pipe.step c nd cwf batch limit) s a e ∧
      e as.length = es ∧ Pipe.FairRun c nd cwf batch limit s a := by
  obtain ⟨bs, s', fs, hb, hi, _, hq⟩ := C56_delivers c hv hh raw hraw stripped nd cwf batch limit hlim s0 s1 as es h0 ha h
  obtain ⟨p1, p2⟩ := Pipe.run_play (Pipe.run_trans h hb)
  have hno : ∀ (cl : PAct → Bool), (∀ x, cl x = true → x.Internal ∨ ∀ t : Pipe, t.step c nd cwf batch limit x = none) →
      Fair (Pipe.step c nd cwf batch limit) (fun n => (play (Pipe.step c nd cwf batch limit) s0 (as ++ bs) n).1) (fun n => (as ++ bs)[n]?) cl := by
    intro cl hcl
    refine play_fair s0 (as ++ bs) cl (fun x hx => ?_)
    rcases hcl x hx with h1 | h1
    · rw [p1]; exact hq x h1
    · exact h1 _
  have htx : ∀ cl : TxAct → Bool, ∀ x, PAct.isTx cl x = true → x.Internal ∨ ∀ t : Pipe, t.step c nd cwf batch limit x = none := by
    intro cl x hx
    cases x with
    | tx y => exact .inl trivial
    | _ => simp [PAct.isTx] at hx
  have hrx : ∀ cl : RAct → Bool, cl (.ret false) = false → ∀ x, PAct.isRx cl x = true → x.Internal ∨ ∀ t : Pipe, t.step c nd cwf batch limit x = none := by
    intro cl hcl x hx
    cases x with
    | rx y =>
      cases y with
      | ret ok => cases ok with
        | true => exact .inl rfl
        | false => simp [PAct.isRx, hcl] at hx
      | _ => exact .inl trivial
    | _ => simp [PAct.isRx] at hx
  refine ⟨_, _, _, rfl, fun i hil => List.getElem?_append_left hil, ?_, play_exec s0 (as ++ bs) p2, ?_, ?_⟩
  · intro n x hx
    rcases List.mem_append.mp (List.mem_of_getElem? hx) with h1 | h1
    · exact ha x h1
    · have := hi x h1
      cases x <;> first | trivial | simp [PAct.Internal] at this
  · rw [play_le _ _ _ _ _ (Nat.le_refl _), (Pipe.run_play h).1]
  · exact ⟨hno _ (htx _), hno _ (htx _), hno _ (htx _), hno _ (htx _), hno _ (htx _), hno _ (htx _),
      hno _ (fun x hx => by cases x <;> first | exact .inl trivial | simp [PAct.isNet] at hx),
      hno _ (hrx _ rfl), hno _ (hrx _ rfl), hno _ (hrx _ rfl), hno _ (hrx _ rfl), hno _ (hrx _ rfl), hno _ (hrx _ rfl), hno _ (hrx _ rfl), hno _ (hrx _ rfl), hno _ (hrx _ rfl)⟩

end StAsio
