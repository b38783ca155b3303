import Verif.Spec.UdpOrder
import Verif.Lemmas.TcpSend
set_option autoImplicit false
namespace StAsio

theorem uStrip_append (p r : List UMsg) : uStrip p (p ++ r) = some r := by
  induction p with
  | nil => rfl
  | cons a p ih => simp [uStrip, ih]

theorem uStrip_some {p l r : List UMsg} (h : uStrip p l = some r) : l = p ++ r := by
  induction p generalizing l with
  | nil => simpa [uStrip] using h
  | cons a p ih =>
    cases l with
    | nil => simp [uStrip] at h
    | cons b l =>
      simp only [uStrip] at h
      split at h
      · rename_i hab; rw [hab, ih h]; rfl
      · cases h

theorem uMonitor_append (t : IdealUx) (es es' : List UEv) :
    t.monitor (es ++ es') = (t.monitor es).bind (fun t => t.monitor es') := by
  induction es generalizing t with
  | nil => rfl
  | cons e es ih =>
    simp only [List.cons_append, IdealUx.monitor]
    cases t.event e with
    | none => rfl
    | some t' => exact ih t'

theorem uPromise_cases (m : UMsg) (r : SyncRes) : uPromise m r = [] ∧ m.p = none ∨ ∃ p, m.p = some p ∧ uPromise m r = [UEv.resolved p r] := by
  unfold uPromise
  cases hp : m.p with
  | none => left; simp
  | some p => right; exact ⟨p, rfl, rfl⟩

theorem uMonitor_promise (t : IdealUx) (m : UMsg) (r : SyncRes) (es : List UEv) : t.monitor (uPromise m r ++ es) = t.monitor es := by
  rcases uPromise_cases m r with ⟨h, _⟩ | ⟨p, _, h⟩ <;> rw [h] <;> rfl

theorem uMonitor_promises (t : IdealUx) (ms : List UMsg) (r : SyncRes) (es : List UEv) : t.monitor (uPromises ms r ++ es) = t.monitor es := by
  unfold uPromises
  induction ms with
  | nil => rfl
  | cons m ms ih => simp only [List.map_cons, List.flatten_cons, List.append_assoc]; rw [uMonitor_promise, ih]

/-! projections of the events -/

theorem uAccepted_append (a b : List UEv) : uAccepted (a ++ b) = uAccepted a ++ uAccepted b := by
  induction a with
  | nil => rfl
  | cons e a ih => cases e <;> simp [uAccepted, ih]

theorem uHanded_append (a b : List UEv) : uHanded (a ++ b) = uHanded a ++ uHanded b := by
  induction a with
  | nil => rfl
  | cons e a ih => cases e <;> simp [uHanded, ih]

theorem uSent_append (a b : List UEv) : uSent (a ++ b) = uSent a ++ uSent b := by
  induction a with
  | nil => rfl
  | cons e a ih => cases e <;> simp [uSent, ih]

theorem uOutcomes_append (a b : List UEv) : uOutcomes (a ++ b) = uOutcomes a ++ uOutcomes b := by
  induction a with
  | nil => rfl
  | cons e a ih => cases e <;> simp [uOutcomes, ih]

theorem uDropped_append (a b : List UEv) : uDropped (a ++ b) = uDropped a ++ uDropped b := by
  induction a with
  | nil => rfl
  | cons e a ih => cases e <;> simp [uDropped, ih]

theorem uResolved_append (a b : List UEv) : uResolved (a ++ b) = uResolved a ++ uResolved b := by
  induction a with
  | nil => rfl
  | cons e a ih => cases e <;> simp [uResolved, ih]

theorem uPromiseIds_append (a b : List UMsg) : uPromiseIds (a ++ b) = uPromiseIds a ++ uPromiseIds b := by simp [uPromiseIds]

theorem uSent_outcomes (es : List UEv) : uSent es = ((uOutcomes es).filter (fun o => o.2)).map (fun o => o.1) := by
  induction es with
  | nil => rfl
  | cons e es ih => cases e <;> simp [uSent, uOutcomes, ih]

theorem uResolved_promise (m : UMsg) (r : SyncRes) : uResolved (uPromise m r) = uPromiseIds [m] := by
  unfold uPromise uPromiseIds
  cases hp : m.p <;> simp [hp, uResolved]

theorem uResolved_promises (ms : List UMsg) (r : SyncRes) : uResolved (uPromises ms r) = uPromiseIds ms := by
  unfold uPromises
  induction ms with
  | nil => rfl
  | cons m ms ih =>
    simp only [List.map_cons, List.flatten_cons, uResolved_append, ih, uResolved_promise]
    rw [← uPromiseIds_append]; rfl

theorem uOther_promise (m : UMsg) (r : SyncRes) :
    uHanded (uPromise m r) = [] ∧ uAccepted (uPromise m r) = [] ∧ uDropped (uPromise m r) = [] ∧ uOutcomes (uPromise m r) = [] := by
  rcases uPromise_cases m r with ⟨h, _⟩ | ⟨p, _, h⟩ <;> rw [h] <;> exact ⟨rfl, rfl, rfl, rfl⟩

theorem uOther_promises (ms : List UMsg) (r : SyncRes) :
    uHanded (uPromises ms r) = [] ∧ uAccepted (uPromises ms r) = [] ∧ uDropped (uPromises ms r) = [] ∧ uOutcomes (uPromises ms r) = [] := by
  unfold uPromises
  induction ms with
  | nil => exact ⟨rfl, rfl, rfl, rfl⟩
  | cons m ms ih =>
    have := uOther_promise m r
    simp [uHanded_append, uAccepted_append, uDropped_append, uOutcomes_append, this, ih]

theorem uSent_promise (m : UMsg) (r : SyncRes) : uSent (uPromise m r) = [] := by rw [uSent_outcomes, (uOther_promise m r).2.2.2]; rfl

theorem uSent_promises (ms : List UMsg) (r : SyncRes) : uSent (uPromises ms r) = [] := by rw [uSent_outcomes, (uOther_promises ms r).2.2.2]; rfl

theorem uMonitor_plain {t t' : IdealUx} {es : List UEv} (h : t.monitor es = some t') (hp : ∀ e ∈ es, UPlainEv e) :
    t.waiting ++ uAccepted es = uHanded es ++ t'.waiting := by
  induction es generalizing t with
  | nil => simp [IdealUx.monitor] at h; subst h; simp [uAccepted, uHanded]
  | cons e es ih =>
    simp only [IdealUx.monitor] at h
    cases he : t.event e with
    | none => rw [he] at h; cases h
    | some t1 =>
      rw [he] at h
      have ih := ih h (fun x hx => hp x (by simp [hx]))
      have hpe := hp e (by simp)
      cases e with
      | accept m prior =>
        simp only [UPlainEv] at hpe; subst hpe
        simp [IdealUx.event] at he; subst he
        simp only [uAccepted, uHanded]
        rw [← ih]; simp
      | handOff m =>
        simp only [IdealUx.event] at he
        split at he
        · rw [Option.map_eq_some_iff] at he
          obtain ⟨w, h1, rfl⟩ := he
          have := uStrip_some h1
          simp only [uAccepted, uHanded]
          rw [this, List.append_assoc, List.cons_append, List.cons_append, ← ih]; rfl
        · cases he
      | sent m =>
        simp only [IdealUx.event] at he
        split at he
        · cases he; exact ih
        · cases he
      | sendError m =>
        simp only [IdealUx.event] at he
        split at he
        · cases he; exact ih
        · cases he
      | popped ms => exact absurd hpe (by simp [UPlainEv])
      | discarded ms => exact absurd hpe (by simp [UPlainEv])
      | cleared ms => exact absurd hpe (by simp [UPlainEv])
      | resolved p r => simp [IdealUx.event] at he; subst he; exact ih

theorem uMonitor_outcomes {t t' : IdealUx} {es : List UEv} (h : t.monitor es = some t') :
    t.flight.toList ++ uHanded es = (uOutcomes es).map (fun o => o.1) ++ t'.flight.toList := by
  induction es generalizing t with
  | nil => simp [IdealUx.monitor] at h; subst h; simp [uOutcomes, uHanded]
  | cons e es ih =>
    simp only [IdealUx.monitor] at h
    cases he : t.event e with
    | none => rw [he] at h; cases h
    | some t1 =>
      rw [he] at h
      have ih := ih h
      cases e with
      | accept m prior => simp [IdealUx.event] at he; subst he; exact ih
      | handOff m =>
        simp only [IdealUx.event] at he
        split at he
        · rename_i hc
          rw [Option.map_eq_some_iff] at he
          obtain ⟨w, h1, rfl⟩ := he
          simp only [uHanded, uOutcomes, hc]
          simpa using ih
        · cases he
      | sent m =>
        simp only [IdealUx.event] at he
        split at he
        · rename_i hc
          cases he
          simp only [uHanded, uOutcomes, hc]
          simp at ih ⊢
          exact ih
        · cases he
      | sendError m =>
        simp only [IdealUx.event] at he
        split at he
        · rename_i hc
          cases he
          simp only [uHanded, uOutcomes, hc]
          simp at ih ⊢
          exact ih
        · cases he
      | popped ms =>
        simp only [IdealUx.event] at he
        rw [Option.map_eq_some_iff] at he
        obtain ⟨w, h1, rfl⟩ := he
        exact ih
      | discarded ms =>
        simp only [IdealUx.event] at he
        rw [Option.map_eq_some_iff] at he
        obtain ⟨w, h1, rfl⟩ := he
        exact ih
      | cleared ms =>
        simp only [IdealUx.event] at he
        rw [Option.map_eq_some_iff] at he
        obtain ⟨w, h1, rfl⟩ := he
        exact ih
      | resolved p r => simp [IdealUx.event] at he; subst he; exact ih

/-! invariants -/

def UPc.owner : UPc → Nat
  | .cc => 1
  | .move => 1
  | .clear => 1
  | .errClear => 1
  | _ => 0

structure Ux.Inv (s : Ux) : Prop where
  bad : s.bad = false
  exact : s.q.Exact UMsg.sz
  owner : s.writes.length + s.dones.length + s.pc.owner + s.ccTimer.toNat + s.stopped.toNat = s.sending.toNat
  wcur : ∀ m ∈ s.writes, s.cur = some m
  dcur : ∀ d ∈ s.dones, s.cur = some d.m
  none : s.writes = [] → s.dones = [] → s.cur = none

theorem Ux.init_inv : Ux.init.Inv where
  bad := rfl
  exact := rfl
  owner := rfl
  wcur := by intro w h; simp [Ux.init] at h
  dcur := by intro w h; simp [Ux.init] at h
  none := fun _ _ => rfl

def Ux.ideal (s : Ux) : IdealUx := { waiting := s.q.items, flight := s.cur }

/-- Somebody will look into the send buffer (again). -/
def Ux.Wake (s : Ux) : Prop :=
  s.sending = true ∨ 0 < s.posted ∨ s.pc = .test ∨ s.pc = .check ∨ 0 < s.atReady ∨ 0 < s.atFlag ∨ 0 < s.atEmpty

/-- `f`: the socket became invalid (not_socket, bad_descriptor). -/
structure Ux.Live (f : Bool) (s : Ux) : Prop where
  dones : f = false → ∀ d ∈ s.dones, d.ok = false → d.fatal = false
  pc : f = false → s.pc ≠ .errClear
  wake : f = false → s.ready = true → s.q.items ≠ [] → s.Wake

def uFatal (f : Bool) : UAct → Bool
  | .complete _ false true => true
  | .linkUp => false
  | _ => f

/-- The datagrams sent on this link: those reported as sent and those about to be. -/
def Ux.pendingOk (s : Ux) : List UMsg := (s.dones.filter (fun d => d.ok)).map (fun d => d.m)

theorem uNoAsync_true {s : Ux} (h : s.noAsync = true) :
    s.posted = 0 ∧ s.pc = .idle ∧ s.writes = [] ∧ s.dones = [] ∧ s.ccTimer = false ∧ s.atEmpty = 0 := by
  simpa [Ux.noAsync, and_assoc] using h

structure Ux.StepOk (f : Bool) (s : Ux) (a : UAct) (s' : Ux) (es : List UEv) : Prop where
  inv : s'.Inv
  mon : s.ideal.monitor es = some s'.ideal
  live : Ux.Live (uFatal f a) s'
  wire : a ≠ .linkUp → s'.wire = s.wire ++ (uSent es ++ s'.pendingOk).drop s.pendingOk.length
  pend : a ≠ .linkUp → s.pendingOk <+: uSent es ++ s'.pendingOk
  prom : ∀ x, (uResolved es).count x + (uPromiseIds s'.cur.toList).count x + (uPromiseIds s'.q.items).count x + (uPromiseIds (uDropped es)).count x =
    (uPromiseIds s.cur.toList).count x + (uPromiseIds s.q.items).count x + (uPromiseIds (uAccepted es)).count x

theorem moveOutBytes_specU (q : Q UMsg) (h : q.Exact UMsg.sz) (n : Nat) :
    ∃ p, (q.moveOutBytes UMsg.sz [] n).2 = p ∧ q.items = p ++ (q.moveOutBytes UMsg.sz [] n).1.items ∧
      (q.moveOutBytes UMsg.sz [] n).1.Exact UMsg.sz := by
  obtain ⟨q', r, h1, h2, p, h3, h4, _⟩ := Q.step_spec UMsg.sz h (.moveOutBytes [] n) trivial
  simp only [Q.step, Option.some.injEq, Prod.mk.injEq] at h1
  obtain ⟨e1, e2⟩ := h1
  subst e1; subst e2
  exact ⟨p, h3, h4, h2⟩

/-- A step that changes nothing of interest. -/
theorem Ux.stepOk_same {f : Bool} {s s' : Ux} {a : UAct} (h : s.Inv) (hq : s'.q = s.q) (hc : s'.cur = s.cur) (hw : s'.writes = s.writes)
    (hd : s'.dones = s.dones) (hwi : s'.wire = s.wire) (hb : s'.bad = s.bad)
    (ho : s'.pc.owner + s'.ccTimer.toNat + s'.stopped.toNat + s.sending.toNat = s.pc.owner + s.ccTimer.toNat + s.stopped.toNat + s'.sending.toNat)
    (hl : Ux.Live (uFatal f a) s') : Ux.StepOk f s a s' [] where
  inv := ⟨by rw [hb, h.bad], by rw [hq]; exact h.exact, by have := h.owner; rw [hw, hd]; omega, by rw [hw, hc]; exact h.wcur,
    by rw [hd, hc]; exact h.dcur, by rw [hw, hd, hc]; exact h.none⟩
  mon := by simp [IdealUx.monitor, Ux.ideal, hq, hc]
  live := hl
  wire := by intro _; simp [Ux.pendingOk, hd, hwi, uSent]
  pend := by intro _; simp [Ux.pendingOk, hd, uSent]
  prom := by intro x; simp [uResolved, uDropped, uAccepted, hq, hc, uPromiseIds]

theorem Ux.step_ok {conn : Bool} {f : Bool} {s s' : Ux} {a : UAct} {es : List UEv} (h : s.Inv) (hl : Ux.Live f s)
    (hs : s.step conn a = some (s', es)) : Ux.StepOk f s a s' es := by
  have hown := h.owner
  have hse : s.sending.toNat ≤ 1 := Bool.toNat_le _
  have hn : ∀ x, (uPromiseIds []).count x = 0 := fun _ => rfl
  cases a with
  | send m prior fits =>
    simp only [Ux.step] at hs
    split at hs
    · cases hs; exact Ux.stepOk_same h rfl rfl rfl rfl rfl rfl rfl hl
    · have he := h.exact
      unfold Q.Exact at he
      cases fits with
      | false => cases prior <;> simp [Q.enqueue, Q.enqueueFront] at hs <;> obtain ⟨rfl, rfl⟩ := hs <;> exact Ux.stepOk_same h rfl rfl rfl rfl rfl rfl rfl hl
      | true =>
        cases prior with
        | false =>
          simp [Q.enqueue] at hs
          obtain ⟨rfl, rfl⟩ := hs
          refine ⟨⟨h.bad, ?_, h.owner, h.wcur, h.dcur, h.none⟩, rfl, ⟨hl.dones, hl.pc, fun _ _ _ => by simp [Ux.Wake]⟩, fun _ => ?_, fun _ => ?_, fun x => ?_⟩
          · simp only [Q.Exact, sumSize_append, sumSize_cons, sumSize_nil, w64add, he]; omega
          · simp [Ux.pendingOk, uSent]
          · simp [Ux.pendingOk, uSent]
          · simp only [uResolved, uDropped, uAccepted, uPromiseIds_append, List.count_append, hn, List.count_nil]; omega
        | true =>
          simp [Q.enqueueFront] at hs
          obtain ⟨rfl, rfl⟩ := hs
          refine ⟨⟨h.bad, ?_, h.owner, h.wcur, h.dcur, h.none⟩, rfl, ⟨hl.dones, hl.pc, fun _ _ _ => by simp [Ux.Wake]⟩, fun _ => ?_, fun _ => ?_, fun x => ?_⟩
          · simp only [Q.Exact, sumSize_cons, w64add, he]; omega
          · simp [Ux.pendingOk, uSent]
          · simp [Ux.pendingOk, uSent]
          · have : m :: s.q.items = [m] ++ s.q.items := rfl
            rw [this]
            simp only [uResolved, uDropped, uAccepted, uPromiseIds_append, List.count_append, hn, List.count_nil]; omega
  | loadReady =>
    simp only [Ux.step] at hs
    split at hs
    · cases hs
    · cases hs
      refine Ux.stepOk_same h rfl rfl rfl rfl rfl rfl rfl ⟨hl.dones, hl.pc, fun hf hr hq => ?_⟩
      simp only at hr
      simp [Ux.Wake, hr]
  | loadFlag =>
    simp only [Ux.step] at hs
    split at hs
    · cases hs
    · cases hs
      refine Ux.stepOk_same h rfl rfl rfl rfl rfl rfl rfl ⟨hl.dones, hl.pc, fun hf hr hq => ?_⟩
      cases hse : s.sending <;> simp [Ux.Wake]
  | runPosted =>
    simp only [Ux.step] at hs
    split at hs
    · cases hs
    · rename_i hc
      have hpc : s.pc = .idle := by cases hp : s.pc <;> simp [hp] at hc ⊢
      cases hs
      exact Ux.stepOk_same h rfl rfl rfl rfl rfl rfl (by simp [hpc, UPc.owner]) ⟨hl.dones, by simp, fun _ _ _ => by simp [Ux.Wake]⟩
  | strand ccOk custom =>
    simp only [Ux.step, Ux.strand] at hs
    cases hpc : s.pc with
    | idle => rw [hpc] at hs; cases hs
    | test =>
      rw [hpc] at hs
      simp only at hs
      split at hs
      · rename_i hse; cases hs
        exact Ux.stepOk_same h rfl rfl rfl rfl rfl rfl (by simp [hpc, UPc.owner]) ⟨hl.dones, by simp, fun _ _ _ => by simp [Ux.Wake, hse]⟩
      · rename_i hse; cases hs
        exact Ux.stepOk_same h rfl rfl rfl rfl rfl rfl (by simp [hpc, UPc.owner, hse]; omega) ⟨hl.dones, by simp, fun _ _ _ => by simp [Ux.Wake]⟩
    | cc =>
      rw [hpc] at hs hown
      simp only [UPc.owner] at hown
      have hse' : s.sending = true := by
        cases hse : s.sending
        · simp [hse] at hown
        · rfl
      have hcc : s.ccTimer = false := by
        cases hc : s.ccTimer
        · rfl
        · simp [hc, hse'] at hown; omega
      simp only at hs
      split at hs
      · cases hs
        exact Ux.stepOk_same h rfl rfl rfl rfl rfl rfl (by simp [hpc, UPc.owner, hcc]) ⟨hl.dones, by simp, fun _ _ _ => by simp [Ux.Wake, hse']⟩
      · cases hs
        exact Ux.stepOk_same h rfl rfl rfl rfl rfl rfl (by simp [hpc, UPc.owner]) ⟨hl.dones, by simp, fun _ _ _ => by simp [Ux.Wake, hse']⟩
    | move =>
      rw [hpc] at hs hown
      simp only [UPc.owner] at hown
      have hse' : s.sending = true := by
        cases hse : s.sending
        · simp [hse] at hown
        · rfl
      have hw : s.writes = [] ∧ s.dones = [] ∧ s.ccTimer.toNat = 0 ∧ s.stopped.toNat = 0 :=
        ⟨List.length_eq_zero_iff.mp (by omega), List.length_eq_zero_iff.mp (by omega), by omega, by omega⟩
      have hcur := h.none hw.1 hw.2.1
      have he := h.exact
      unfold Q.Exact at he
      simp only at hs
      cases hi : s.q.items with
      | nil =>
        simp [Q.tryDequeue, hi] at hs
        obtain ⟨rfl, rfl⟩ := hs
        exact Ux.stepOk_same h rfl rfl rfl rfl rfl rfl (by simp [hpc, UPc.owner]) ⟨hl.dones, by simp, fun _ _ _ => by simp [Ux.Wake, hse']⟩
      | cons m l =>
        rw [hi, sumSize_cons] at he
        have hex : w64sub s.q.total (UMsg.sz m) = sumSize UMsg.sz l % 2 ^ 64 := by
          rw [he]; unfold w64sub; omega
        have hid : s.ideal = ⟨m :: l, none⟩ := by simp [Ux.ideal, hi, hcur]
        simp only [Q.tryDequeue, hi] at hs
        split at hs
        · cases hs
          refine ⟨⟨h.bad, hex, ?_, ?_, ?_, ?_⟩, ?_, ⟨?_, by simp, fun _ _ _ => by simp [Ux.Wake, hse']⟩, fun _ => ?_, fun _ => ?_, fun x => ?_⟩
          · simp [hw, hse', UPc.owner]
          · simp [hw.1]
          · simp [hw.2.1]
          · simp
          · rw [hid]; simp [IdealUx.monitor, IdealUx.event, uStrip, Ux.ideal]
          · simp [hw.2.1]
          · simp [Ux.pendingOk, uSent, hw.2.1]
          · simp [Ux.pendingOk, uSent, hw.2.1]
          · have e1 : uPromiseIds (m :: l) = uPromiseIds [m] ++ uPromiseIds l := by rw [← uPromiseIds_append]; rfl
            simp only [uResolved, uDropped, uAccepted, hn, hi, hcur, e1, List.count_append, List.count_nil, Option.toList]; omega
        · cases hs
          refine ⟨⟨h.bad, hex, ?_, ?_, ?_, ?_⟩, ?_, ⟨?_, by simp, fun _ _ _ => by simp [Ux.Wake, hse']⟩, fun _ => ?_, fun _ => ?_, fun x => ?_⟩
          · simp [hw, hse', UPc.owner]
          · simp [hw.1]
          · simp [hw.2.1]
          · simp
          · rw [hid]; simp [IdealUx.monitor, IdealUx.event, uStrip, Ux.ideal]
          · simp [hw.2.1]
          · simp [Ux.pendingOk, uSent, hw.2.1]
          · simp [Ux.pendingOk, uSent, hw.2.1]
          · have e1 : uPromiseIds (m :: l) = uPromiseIds [m] ++ uPromiseIds l := by rw [← uPromiseIds_append]; rfl
            simp only [uResolved, uDropped, uAccepted, hn, hi, hcur, e1, List.count_append, List.count_nil, Option.toList]; omega
    | clear =>
      rw [hpc] at hs hown
      simp only [UPc.owner] at hown
      cases hs
      exact Ux.stepOk_same h rfl rfl rfl rfl rfl rfl (by simp [hpc, UPc.owner]; omega) ⟨hl.dones, by simp, fun _ _ _ => by simp [Ux.Wake]⟩
    | check =>
      rw [hpc] at hs
      simp only at hs
      cases hs
      refine Ux.stepOk_same h rfl rfl rfl rfl rfl rfl ?_ ⟨hl.dones, ?_, fun _ _ hq => ?_⟩
      · simp only [hpc]; split <;> rfl
      · intro _; simp only; split <;> simp
      · simp only at hq; simp [Ux.Wake, hq]
    | errClear =>
      rw [hpc] at hs hown
      simp only [UPc.owner] at hown
      cases hs
      have hf : f = true := by
        cases f
        · exact absurd hpc (hl.pc rfl)
        · rfl
      subst hf
      exact Ux.stepOk_same h rfl rfl rfl rfl rfl rfl (by simp [hpc, UPc.owner]; omega) ⟨by simp [uFatal], by simp, by simp [uFatal]⟩
  | timerCC =>
    simp only [Ux.step] at hs
    split at hs
    · rename_i hc
      cases hs
      have hse' : s.sending = true := by
        cases hse : s.sending
        · simp [hse, hc] at hown
        · rfl
      exact Ux.stepOk_same h rfl rfl rfl rfl rfl rfl (by simp [hc, hse']; omega) ⟨hl.dones, hl.pc, fun _ _ _ => by simp [Ux.Wake]⟩
    · cases hs
  | timerLost =>
    simp only [Ux.step] at hs
    split at hs
    · rename_i hc
      cases hs
      have hse' : s.sending = true ∧ s.stopped = false := by
        cases hse : s.sending <;> cases hst : s.stopped <;> simp [hse, hc, hst] at hown ⊢
      exact Ux.stepOk_same h rfl rfl rfl rfl rfl rfl (by simp [hc, hse'.2]) ⟨hl.dones, hl.pc, fun _ _ _ => by simp [Ux.Wake, hse'.1]⟩
    · cases hs
  | resumeCheck =>
    simp only [Ux.step] at hs
    split at hs
    · cases hs
    · cases hs
      refine Ux.stepOk_same h rfl rfl rfl rfl rfl rfl rfl ⟨hl.dones, hl.pc, fun hf hr hq => ?_⟩
      simp only at hq
      simp [Ux.Wake, hq]
  | complete i ok fatal =>
    simp only [Ux.step] at hs
    cases hw : s.writes[i]? with
    | none => simp [hw] at hs
    | some m =>
      simp only [hw, Option.bind_eq_bind, Option.bind_some, Option.some.injEq, Prod.mk.injEq] at hs
      obtain ⟨rfl, rfl⟩ := hs
      obtain ⟨e1, e2⟩ := length_one_eq (by omega) hw
      subst e2
      have hcur := h.wcur m (by rw [e1]; simp)
      rw [e1] at hown
      simp at hown
      have hd : s.dones = [] := List.length_eq_zero_iff.mp (by omega)
      have hse' : s.sending = true := by
        cases hse : s.sending
        · simp [hse] at hown
        · rfl
      refine ⟨⟨?_, h.exact, ?_, ?_, ?_, ?_⟩, rfl, ⟨?_, ?_, fun _ _ _ => by simp [Ux.Wake, hse']⟩, fun _ => ?_, fun _ => ?_, fun x => ?_⟩
      · simp [h.bad, hcur]
      · simp [e1, hd]; omega
      · simp [e1]
      · simp [hd, hcur]
      · simp
      · intro hf d hd'
        simp [hd] at hd'
        subst hd'
        intro hok
        simp only at hok ⊢
        subst hok
        cases fatal
        · rfl
        · simp [uFatal] at hf
      · intro hf
        have : f = false := by
          cases ok <;> cases fatal <;> simp [uFatal] at hf <;> exact hf
        exact hl.pc this
      · cases ok <;> simp [Ux.pendingOk, uSent, hd]
      · simp [Ux.pendingOk, uSent, hd]
      · simp [uResolved, uDropped, uAccepted, uPromiseIds]
  | handler i =>
    simp only [Ux.step] at hs
    cases hd : s.dones[i]? with
    | none => simp [hd] at hs
    | some d =>
      simp only [hd, Option.bind_eq_bind, Option.bind_some] at hs
      split at hs
      · cases hs
      · rename_i hpc
        have hpc : s.pc = .idle := by cases hp : s.pc <;> simp [hp] at hpc ⊢
        obtain ⟨e1, e2⟩ := length_one_eq (by omega) hd
        subst e2
        have hcur := h.dcur d (by rw [e1]; simp)
        rw [e1] at hown
        simp at hown
        have hw0 : s.writes = [] := List.length_eq_zero_iff.mp (by omega)
        have hse' : s.sending = true := by
          cases hse : s.sending
          · simp [hse] at hown
          · rfl
        have hz : s.ccTimer.toNat = 0 ∧ s.stopped.toNat = 0 := ⟨by omega, by omega⟩
        simp only [Option.some.injEq, Ux.handler, hcur] at hs
        have hid : s.ideal = ⟨s.q.items, some d.m⟩ := by simp [Ux.ideal, hcur]
        cases hok : d.ok with
        | true =>
          simp [hok] at hs
          obtain ⟨rfl, rfl⟩ := hs
          refine ⟨⟨by simp [h.bad], h.exact, ?_, ?_, ?_, ?_⟩, ?_, ⟨?_, by simp, fun _ _ _ => by simp [Ux.Wake, hse']⟩, fun _ => ?_, fun _ => ?_, fun x => ?_⟩
          · simp [hw0, e1, hse', UPc.owner, hz]
          · simp [hw0]
          · simp [e1]
          · simp
          · rw [uMonitor_promise, hid]; simp [IdealUx.monitor, IdealUx.event, Ux.ideal]
          · simp [e1]
          · simp [Ux.pendingOk, e1, hok, uSent_append, uSent_promise, uSent]
          · simp [Ux.pendingOk, e1, hok, uSent_append, uSent_promise, uSent]
          · simp only [uResolved_append, uAccepted_append, uDropped_append, uResolved_promise, (uOther_promise _ _).2.1, (uOther_promise _ _).2.2.1]
            simp only [uResolved, uDropped, uAccepted, hn, hcur, List.append_nil, Option.toList]; omega
        | false =>
          simp [hok] at hs
          obtain ⟨rfl, rfl⟩ := hs
          refine ⟨⟨by simp [h.bad], h.exact, ?_, ?_, ?_, ?_⟩, ?_, ⟨?_, ?_, fun _ _ _ => by simp [Ux.Wake, hse']⟩, fun _ => ?_, fun _ => ?_, fun x => ?_⟩
          · cases d.fatal <;> simp [hw0, e1, hse', UPc.owner, hz]
          · simp [hw0]
          · simp [e1]
          · simp
          · rw [uMonitor_promise, hid]; simp [IdealUx.monitor, IdealUx.event, Ux.ideal]
          · simp [e1]
          · intro hf
            have := hl.dones hf d (by rw [e1]; simp) hok
            simp [this]
          · simp [Ux.pendingOk, e1, hok, uSent_append, uSent_promise, uSent]
          · simp [Ux.pendingOk, e1, hok]
          · simp only [uResolved_append, uAccepted_append, uDropped_append, uResolved_promise, (uOther_promise _ _).2.1, (uOther_promise _ _).2.2.1]
            simp only [uResolved, uDropped, uAccepted, hn, hcur, List.append_nil, Option.toList]; omega
  | pop =>
    simp only [Ux.step] at hs
    have he := h.exact
    unfold Q.Exact at he
    cases hi : s.q.items with
    | nil =>
      simp [Q.tryDequeue, hi] at hs
      obtain ⟨rfl, rfl⟩ := hs
      exact Ux.stepOk_same h rfl rfl rfl rfl rfl rfl rfl hl
    | cons m l =>
      simp [Q.tryDequeue, hi] at hs
      obtain ⟨rfl, rfl⟩ := hs
      refine ⟨⟨h.bad, ?_, h.owner, h.wcur, h.dcur, h.none⟩, ?_, ⟨hl.dones, hl.pc, fun hf hr _ => hl.wake hf hr (by simp [hi])⟩, fun _ => ?_, fun _ => ?_, fun x => ?_⟩
      · rw [hi, sumSize_cons] at he
        simp only [Q.Exact, he]
        unfold w64sub; omega
      · rw [uMonitor_promises]
        simp [IdealUx.monitor, IdealUx.event, Ux.ideal, hi, uStrip]
      · simp [Ux.pendingOk, uSent_append, uSent_promises, uSent]
      · simp [Ux.pendingOk, uSent_append, uSent_promises, uSent]
      · have e1 : uPromiseIds (m :: l) = uPromiseIds [m] ++ uPromiseIds l := by rw [← uPromiseIds_append]; rfl
        simp only [uResolved_append, uAccepted_append, uDropped_append, uResolved_promises, (uOther_promises _ _).2.1, (uOther_promises _ _).2.2.1, hi, e1]
        simp only [uResolved, uDropped, uAccepted, hn, List.append_nil, List.count_append]; omega
  | popAll =>
    simp only [Ux.step, Option.some.injEq, Prod.mk.injEq] at hs
    obtain ⟨rfl, rfl⟩ := hs
    refine ⟨⟨h.bad, rfl, h.owner, h.wcur, h.dcur, h.none⟩, ?_, ⟨hl.dones, hl.pc, fun hf hr hq => by simp [Q.swap] at hq⟩, fun _ => ?_, fun _ => ?_, fun x => ?_⟩
    · rw [uMonitor_promises]
      have : uStrip s.q.items s.q.items = some [] := by simpa using uStrip_append s.q.items []
      simp [IdealUx.monitor, IdealUx.event, Ux.ideal, Q.swap, this]
    · simp [Ux.pendingOk, uSent_append, uSent_promises, uSent]
    · simp [Ux.pendingOk, uSent_append, uSent_promises, uSent]
    · simp only [uResolved_append, uAccepted_append, uDropped_append, uResolved_promises, (uOther_promises _ _).2.1, (uOther_promises _ _).2.2.1, Q.swap]
      simp only [uResolved, uDropped, uAccepted, hn, List.append_nil]; omega
  | shrink n =>
    simp only [Ux.step, Option.some.injEq, Prod.mk.injEq] at hs
    obtain ⟨rfl, rfl⟩ := hs
    obtain ⟨p, m1, m2, m3⟩ := moveOutBytes_specU s.q h.exact n
    refine ⟨⟨h.bad, m3, h.owner, h.wcur, h.dcur, h.none⟩, ?_, ⟨hl.dones, hl.pc, fun hf hr hq => hl.wake hf hr ?_⟩, fun _ => ?_, fun _ => ?_, fun x => ?_⟩
    · simp only [IdealUx.monitor, IdealUx.event, Ux.ideal, m1]
      rw [m2, uStrip_append]
      rfl
    · intro hc
      rw [hc] at m2
      simp at m2
      exact hq m2.2
    · simp [Ux.pendingOk, uSent]
    · simp [Ux.pendingOk, uSent]
    · simp only [uResolved, uDropped, uAccepted, m1, hn, List.append_nil]
      rw [m2]
      simp only [uPromiseIds_append, List.count_append, List.count_nil]; omega
  | linkUp =>
    simp only [Ux.step] at hs
    split at hs
    · cases hs
    · rename_i hc
      cases hs
      have hna := uNoAsync_true (s := s) (by simpa using hc)
      refine ⟨⟨h.bad, h.exact, h.owner, h.wcur, h.dcur, h.none⟩, rfl, ⟨?_, ?_, fun _ _ _ => by simp [Ux.Wake]⟩, fun hx => absurd rfl hx, fun hx => absurd rfl hx, fun x => ?_⟩
      · intro _ d hd; simp [hna.2.2.2.1] at hd
      · intro _; simp [hna.2.1]
      · simp [uResolved, uDropped, uAccepted, uPromiseIds]
  | onClose =>
    simp only [Ux.step] at hs
    split at hs
    · cases hs
    · rename_i hc
      have hna := uNoAsync_true (s := s) (by simpa using hc)
      have hcur := h.none hna.2.2.1 hna.2.2.2.1
      simp [hcur] at hs
      obtain ⟨rfl, rfl⟩ := hs
      exact Ux.stepOk_same h rfl rfl rfl rfl rfl rfl rfl hl
  | reset =>
    simp only [Ux.step] at hs
    split at hs
    · cases hs
    · rename_i hc
      have hna := uNoAsync_true (s := s) (by simpa using fun hf => hc (Or.inl hf))
      have hcur := h.none hna.2.2.1 hna.2.2.2.1
      cases hs
      refine ⟨⟨h.bad, rfl, ?_, ?_, ?_, fun _ _ => rfl⟩, ?_, ⟨hl.dones, hl.pc, fun _ hr => by simp at hr⟩, fun _ => ?_, fun _ => ?_, fun x => ?_⟩
      · simp [hna.2.1, hna.2.2.1, hna.2.2.2.1, hna.2.2.2.2.1, UPc.owner]
      · simp [hna.2.2.1]
      · simp [hna.2.2.2.1]
      · have : uStrip s.q.items s.q.items = some [] := by simpa using uStrip_append s.q.items []
        simp [IdealUx.monitor, IdealUx.event, Ux.ideal, Q.clear, this, hcur]
      · simp [Ux.pendingOk, uSent]
      · simp [Ux.pendingOk, uSent]
      · simp only [uResolved, uDropped, uAccepted, hn, List.append_nil, Q.clear, hcur, List.count_nil, Option.toList]; omega

/-- Did the socket become invalid since the link came up? -/
def uFatalSinceUp (as : List UAct) : Bool := as.foldl uFatal false

theorem Ux.run_ok {conn : Bool} {s : Ux} {as : List UAct} {es : List UEv} (hr : Ux.Run conn Ux.init as s es) :
    s.Inv ∧ Ux.Live (uFatalSinceUp as) s ∧ Ux.init.ideal.monitor es = some s.ideal ∧
      ∀ x, (uResolved es).count x + (uPromiseIds s.cur.toList).count x + (uPromiseIds s.q.items).count x + (uPromiseIds (uDropped es)).count x =
        (uPromiseIds (uAccepted es)).count x := by
  generalize hi : Ux.init = s0 at hr
  induction hr with
  | nil => subst hi; exact ⟨Ux.init_inv, ⟨by simp [Ux.init], by simp [Ux.init], by simp [Ux.init]⟩, rfl, fun x => rfl⟩
  | snoc s1 s2 as a es es' hr hs ih =>
    subst hi
    obtain ⟨i1, i2, i3, i4⟩ := ih
    have := Ux.step_ok i1 i2 hs
    refine ⟨this.inv, ?_, ?_, fun x => ?_⟩
    · have h1 := this.live
      unfold uFatalSinceUp at *
      rw [List.foldl_append]
      exact h1
    · rw [uMonitor_append, i3]; exact this.mon
    · have h1 := this.prom x
      have h2 := i4 x
      simp only [uResolved_append, uAccepted_append, uDropped_append, uPromiseIds_append, List.count_append]
      omega

theorem Ux.run_wire {conn : Bool} {f : Bool} {s s' : Ux} {as : List UAct} {es : List UEv} (h : s.Inv) (hl : Ux.Live f s) (hr : Ux.Run conn s as s' es)
    (hp : s.pendingOk = []) (ha : UAct.linkUp ∉ as) :
    s'.Inv ∧ Ux.Live (as.foldl uFatal f) s' ∧ s'.wire = s.wire ++ uSent es ++ s'.pendingOk := by
  induction hr with
  | nil => exact ⟨h, hl, by simp [uSent, hp]⟩
  | snoc s1 s2 as a es es' hr hs ih =>
    obtain ⟨i1, i2, i3⟩ := ih (fun hx => ha (by simp [hx]))
    have := Ux.step_ok i1 i2 hs
    have hne : a ≠ .linkUp := fun hx => ha (by simp [hx])
    refine ⟨this.inv, ?_, ?_⟩
    · rw [List.foldl_append]; exact this.live
    · rw [this.wire hne, i3, uSent_append]
      obtain ⟨t, ht⟩ := this.pend hne
      have e : s2.wire = s1.wire ++ t := by rw [this.wire hne, ← ht, List.drop_left]
      rw [this.wire hne] at e
      rw [← ht, List.drop_left]
      have e2 : s.wire ++ (uSent es ++ uSent es') ++ s2.pendingOk = s.wire ++ uSent es ++ (uSent es' ++ s2.pendingOk) := by simp
      rw [e2, ← ht]
      simp

end StAsio
