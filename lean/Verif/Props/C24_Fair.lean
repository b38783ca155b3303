import Verif.Lemmas.Fair
import Verif.Props.C24_UdpSend
/-!
# C24: no datagram waits for ever, however much others send

Infinite executions of Model/UdpSend.lean, in which threads may send for ever and sends may fail.
-/
set_option autoImplicit false
namespace StAsio

/-- What happens as long as the socket is valid and not closed: sends without priority, and everything the library, its timer and the kernel do; single sends may fail. -/
def UAct.steady : UAct → Bool
  | .send _ prior _ => !prior
  | .loadReady | .loadFlag | .runPosted | .strand _ _ | .timerCC | .resumeCheck | .handler _ => true
  | .complete _ ok fatal => ok || !fatal
  | _ => false

def UAct.isStrand : UAct → Bool
  | .strand _ _ => true
  | _ => false

/-- The kernel finishes a send. -/
def UAct.isComplete : UAct → Bool
  | .complete _ _ _ => true
  | _ => false

/-- The strand runs send_handler. -/
def UAct.isHandler : UAct → Bool
  | .handler _ => true
  | _ => false

structure Ux.Up (s : Ux) : Prop where
  inv : s.Inv
  live : Ux.Live false s
  ready : s.ready = true
  stopped : s.stopped = false

/-- What a step outside of do_send_msg and send_handler leaves as it is. -/
structure Ux.Frame (s : Ux) (a : UAct) (s' : Ux) : Prop where
  ready : s'.ready = s.ready
  stopped : s'.stopped = s.stopped
  pc : a ≠ .runPosted ∨ s.pc ≠ .idle → s'.pc = s.pc
  items : ∃ l, s'.q.items = s.q.items ++ l
  cur : s'.cur = s.cur
  dones : s.dones.length ≤ s'.dones.length
  writes : a.isComplete = false → s'.writes = s.writes
  posted : a ≠ .runPosted → s.posted ≤ s'.posted
  sending : a ≠ .timerCC → s'.sending = s.sending
  timer : a ≠ .timerCC → s'.ccTimer = s.ccTimer
  atFlag : a ≠ .loadFlag → s.atFlag ≤ s'.atFlag
  atReady : a ≠ .loadReady → s.atReady ≤ s'.atReady
  atEmpty : a ≠ .resumeCheck → s.atEmpty ≤ s'.atEmpty

theorem Ux.step_frame {conn : Bool} {s s' : Ux} {a : UAct} {es : List UEv} (ha : a.steady = true) (h1 : a.isStrand = false) (h2 : a.isHandler = false) (hs : s.step conn a = some (s', es)) : Ux.Frame s a s' := by
  cases a with
  | send m prior fits =>
    have hp : prior = false := by simpa [UAct.steady] using ha
    subst hp
    simp only [Ux.step, Bool.false_eq_true, if_false] at hs
    split at hs
    · cases hs; constructor <;> simp
    · split at hs
      · rename_i hq
        cases hs
        have : ∃ l, (s.q.enqueue UMsg.sz m fits).1.items = s.q.items ++ l := by
          unfold Q.enqueue at hq ⊢
          cases fits <;> simp at hq ⊢
        constructor <;> simp [this]
      · cases hs; constructor <;> simp
  | loadReady =>
    simp only [Ux.step] at hs
    split at hs <;> cases hs
    constructor <;> simp
    split <;> omega
  | loadFlag =>
    simp only [Ux.step] at hs
    split at hs <;> cases hs
    constructor <;> simp
    split <;> omega
  | runPosted =>
    simp only [Ux.step] at hs
    split at hs <;> cases hs
    rename_i hc
    constructor <;> simp
    intro h; exact absurd (Or.inr h) hc
  | strand _ _ => simp [UAct.isStrand] at h1
  | timerCC =>
    simp only [Ux.step] at hs
    split at hs <;> cases hs
    constructor <;> simp
  | resumeCheck =>
    simp only [Ux.step] at hs
    split at hs <;> cases hs
    constructor <;> simp
    split <;> omega
  | complete i ok fatal =>
    simp only [Ux.step, Option.bind_eq_bind, Option.bind_eq_some_iff] at hs
    obtain ⟨w, _, hs⟩ := hs
    cases hs
    constructor <;> simp [UAct.isComplete]
  | handler i => simp [UAct.isHandler] at h2
  | _ => simp [UAct.steady] at ha

theorem Ux.step_up {conn : Bool} {s s' : Ux} {a : UAct} {es : List UEv} (h : s.Up) (ha : a.steady = true) (hs : s.step conn a = some (s', es)) :
    s'.Up ∧ s.ideal.monitor es = some s'.ideal ∧ ∀ ev ∈ es, UPlainEv ev := by
  have h1 := Ux.step_ok h.inv h.live hs
  have h2 : s'.ready = s.ready ∧ s'.stopped = s.stopped := by
    by_cases hx : a.isStrand = true
    · cases a <;> simp [UAct.isStrand] at hx
      simp only [Ux.step, Ux.strand] at hs
      (repeat' split at hs) <;> cases hs <;> exact ⟨rfl, rfl⟩
    · by_cases hy : a.isHandler = true
      · cases a <;> simp [UAct.isHandler] at hy
        simp only [Ux.step, Option.bind_eq_bind, Option.bind_eq_some_iff] at hs
        obtain ⟨d, _, hs⟩ := hs
        simp only [Ux.handler] at hs
        (repeat' split at hs) <;> cases hs <;> exact ⟨rfl, rfl⟩
      · have := Ux.step_frame ha (by simpa using hx) (by simpa using hy) hs
        exact ⟨this.ready, this.stopped⟩
  refine ⟨⟨h1.inv, ?_, h2.1.trans h.ready, h2.2.trans h.stopped⟩, h1.mon, ?_⟩
  · have := h1.live
    cases a <;> simp only [uFatal] at this <;> (try exact this) <;> (try (simp [UAct.steady] at ha; done))
    rename_i i ok fatal
    cases ok <;> cases fatal <;> simp [UAct.steady] at ha <;> exact this
  · have hpr : ∀ m r, ∀ ev ∈ uPromise m r, UPlainEv ev := by
      intro m r ev hev
      rcases uPromise_cases m r with ⟨h, _⟩ | ⟨p, _, h⟩ <;> rw [h] at hev <;> simp at hev
      subst hev; trivial
    cases a with
    | send m prior fits =>
      have hp : prior = false := by simpa [UAct.steady] using ha
      subst hp
      simp only [Ux.step] at hs
      (repeat' split at hs) <;> cases hs <;> simp [UPlainEv]
    | strand x y =>
      simp only [Ux.step, Ux.strand] at hs
      (repeat' split at hs) <;> cases hs <;> simp [UPlainEv]
    | handler i =>
      simp only [Ux.step, Option.bind_eq_bind, Option.bind_eq_some_iff] at hs
      obtain ⟨d, _, hs⟩ := hs
      simp only [Ux.handler] at hs
      (repeat' split at hs) <;> cases hs <;> (intro ev hev; (try rcases List.mem_append.mp hev with hev | hev)) <;>
        first | exact hpr _ _ ev hev | (rw [List.mem_singleton.mp hev]; trivial) | cases hev
    | complete i ok fatal =>
      simp only [Ux.step, Option.bind_eq_bind, Option.bind_eq_some_iff] at hs
      obtain ⟨w, _, hs⟩ := hs
      cases hs; simp
    | loadReady | loadFlag | runPosted | timerCC | resumeCheck =>
      simp only [Ux.step] at hs
      split at hs <;> cases hs <;> simp
    | _ => simp [UAct.steady] at ha

theorem uMonitor_all {t t' : IdealUx} {es : List UEv} (h : t.monitor es = some t') (hp : ∀ e ∈ es, UPlainEv e) :
    t.flight.toList ++ t.waiting ++ uAccepted es = (uOutcomes es).map (fun o => o.1) ++ t'.flight.toList ++ t'.waiting := by
  rw [List.append_assoc, uMonitor_plain h hp, ← List.append_assoc, uMonitor_outcomes h]

theorem Ux.steady_silent {conn : Bool} {s s' : Ux} {a : UAct} {es : List UEv} (ha : a.steady = true) (hh : a.isHandler = false) (hs : s.step conn a = some (s', es)) : uOutcomes es = [] := by
  cases a with
  | handler i => simp [UAct.isHandler] at hh
  | complete i ok fatal =>
    simp only [Ux.step, Option.bind_eq_bind, Option.bind_eq_some_iff] at hs
    obtain ⟨w, _, hs⟩ := hs
    cases hs; rfl
  | strand x y =>
    simp only [Ux.step, Ux.strand] at hs
    (repeat' split at hs) <;> cases hs <;> rfl
  | send _ _ _ | loadReady | loadFlag | runPosted | timerCC | resumeCheck =>
    simp only [Ux.step] at hs
    (repeat' split at hs) <;> cases hs <;> rfl
  | _ => simp [UAct.steady] at ha

/-- A socket with something to send. -/
structure Ux.Busy (s : Ux) : Prop extends s.Up where
  some : s.cur.toList ++ s.q.items ≠ []

theorem Ux.step_busy {conn : Bool} {s s' : Ux} {a : UAct} {es : List UEv} (h : s.Busy) (ha : a.steady = true) (hh : a.isHandler = false) (hs : s.step conn a = some (s', es)) : s'.Busy := by
  have h1 := Ux.step_up h.toUp ha hs
  refine ⟨h1.1, ?_⟩
  have h2 := uMonitor_all h1.2.1 h1.2.2
  rw [Ux.steady_silent ha hh hs] at h2
  simp only [Ux.ideal, List.map_nil, List.nil_append] at h2
  intro hc
  rw [hc] at h2
  exact h.some (List.append_eq_nil_iff.mp h2).1

section
variable {conn : Bool} {s : Nat → Ux} {a : Nat → Option UAct} {e : Nat → List UEv}

/-- What is assumed of the scheduler, the kernel and congestion control. -/
structure Ux.FairAll (conn : Bool) (s : Nat → Ux) (a : Nat → Option UAct) : Prop where
  load : Fair (Ux.step conn) s a (· == .loadReady)
  flag : Fair (Ux.step conn) s a (· == .loadFlag)
  posted : Fair (Ux.step conn) s a (· == .runPosted)
  strand : Fair (Ux.step conn) s a UAct.isStrand
  timer : Fair (Ux.step conn) s a (· == .timerCC)
  resume : Fair (Ux.step conn) s a (· == .resumeCheck)
  kernel : Fair (Ux.step conn) s a UAct.isComplete
  handler : Fair (Ux.step conn) s a UAct.isHandler
  /-- congestion control, asked again and again, lets a message pass again and again -/
  cc : Often (fun n => (s n).pc = .cc ∧ ∃ x y, a n = some (.strand x y)) → Often (fun n => (s n).pc = .cc ∧ ∃ y, a n = some (.strand true y))

/-- Nothing but send_handler is awaited while a send is finished or outstanding. -/
theorem Ux.none_flying (he : Exec (Ux.step conn) s a e) (hf : Ux.FairAll conn s a) {n0 : Nat} (hok : ∀ n x, n0 ≤ n → a n = some x → x.steady = true ∧ x.isHandler = false) (hI : ∀ n, n0 ≤ n → (s n).Busy) :
    ∀ n, n0 ≤ n → (s n).writes = [] ∧ (s n).dones = [] := by
  -- a finished send stays
  have hown : ∀ t : Ux, t.Busy → t.dones ≠ [] → t.pc.owner = 0 ∧ t.sending = true := by
    intro t hb hd
    have h1 := hb.inv.owner
    have h2 := List.length_pos_iff.mpr hd
    have h3 : t.sending.toNat ≤ 1 := Bool.toNat_le _
    refine ⟨by omega, ?_⟩
    cases hc : t.sending
    · rw [hc, Bool.toNat_false] at h1; omega
    · rfl
  have hkeep : ∀ t t' : Ux, ∀ x es, t.Busy → t.dones ≠ [] → x.steady = true ∧ x.isHandler = false → t.step conn x = some (t', es) → t'.dones ≠ [] := by
    intro t t' x es hb hd hx hs
    by_cases hst : x.isStrand = true
    · cases x <;> simp [UAct.isStrand] at hst
      have := hown t hb hd
      simp only [Ux.step, Ux.strand] at hs
      (repeat' split at hs) <;> cases hs <;> first | exact hd | (rename_i hp _ _ _ _; simp [hp, UPc.owner] at this) | simp
    · have h1 := (Ux.step_frame hx.1 (by simpa using hst) hx.2 hs).dones
      have h2 := List.length_pos_iff.mpr hd
      exact List.length_pos_iff.mp (by omega)
  have hnd : ∀ n, n0 ≤ n → (s n).dones = [] := by
    intro n hn
    apply Classical.byContradiction
    intro hd
    have hall := he.stays (ok := fun _ x => x.steady = true ∧ x.isHandler = false) (n0 := n) (fun m x hm => hok m x (by omega)) (J := Ux.Busy) (fun m hm => hI m (by omega)) (fun t => t.dones ≠ []) hd
      (fun t t' x es hb _ hd hx hs => hkeep t t' x es hb hd hx hs)
    have hok' : ∀ m x, n ≤ m → a m = some x → x.steady = true ∧ x.isHandler = false := fun m x hm => hok m x (by omega)
    have hI' : ∀ m, n ≤ m → (s m).Busy ∧ (s m).dones ≠ [] := fun m hm => ⟨hI m (by omega), hall m hm⟩
    have hstep : ∀ t t' : Ux, ∀ x es, t.Busy ∧ t.dones ≠ [] → t.pc ≠ .idle → x.steady = true ∧ x.isHandler = false → x.isStrand = false → t.step conn x = some (t', es) → t'.pc = t.pc :=
      fun t t' x es hb hp hx hst hs => (Ux.step_frame hx.1 hst hx.2 hs).pc (.inr hp)
    have e1 := he.leads (ok := fun _ x => x.steady = true ∧ x.isHandler = false) hok' (I := fun t => t.Busy ∧ t.dones ≠ []) hI' hf.strand (fun t => t.pc = .test) (fun t => t.pc = .idle)
      (fun t t' x es hb _ hp hx hs => by
        by_cases hst : x.isStrand = true
        · cases x <;> simp [UAct.isStrand] at hst
          have := hown t hb.1 hb.2
          simp [Ux.step, Ux.strand, hp, this.2] at hs
          exact .inr (by rw [← hs.1])
        · exact .inl ((hstep t t' x es hb (by rw [hp]; decide) hx (by simpa using hst) hs).trans hp))
      (fun t t' x es hb _ hp hx hst hs => by
        cases x <;> simp [UAct.isStrand] at hst
        have := hown t hb.1 hb.2
        simp [Ux.step, Ux.strand, hp, this.2] at hs
        rw [← hs.1])
      (fun t hb hp => ⟨.strand true true, rfl, by have := hown t hb.1 hb.2; simp [Ux.step, Ux.strand, hp, this.2]⟩)
    have e2 := he.leads (ok := fun _ x => x.steady = true ∧ x.isHandler = false) hok' (I := fun t => t.Busy ∧ t.dones ≠ []) hI' hf.strand (fun t => t.pc = .check) (fun t => t.pc = .idle ∨ t.pc = .test)
      (fun t t' x es hb _ hp hx hs => by
        by_cases hst : x.isStrand = true
        · cases x <;> simp [UAct.isStrand] at hst
          simp [Ux.step, Ux.strand, hp] at hs
          refine .inr ?_
          rw [← hs.1]
          cases t.q.items <;> simp
        · exact .inl ((hstep t t' x es hb (by rw [hp]; decide) hx (by simpa using hst) hs).trans hp))
      (fun t t' x es hb _ hp hx hst hs => by
        cases x <;> simp [UAct.isStrand] at hst
        simp [Ux.step, Ux.strand, hp] at hs
        rw [← hs.1]
        cases t.q.items <;> simp)
      (fun t hb hp => ⟨.strand true true, rfl, by simp [Ux.step, Ux.strand, hp]⟩)
    have hfree : ∀ m, n ≤ m → ∃ k, m ≤ k ∧ (s k).pc = .idle := by
      intro m hm
      have h1 := (hown (s m) (hI' m hm).1 (hI' m hm).2).1
      cases hp : (s m).pc with
      | idle => exact ⟨m, Nat.le_refl _, hp⟩
      | test => exact e1 m hm hp
      | check =>
        obtain ⟨k, h2, h3⟩ := e2 m hm hp
        rcases h3 with h3 | h3
        · exact ⟨k, h2, h3⟩
        · obtain ⟨k', h4, h5⟩ := e1 k (by omega) h3
          exact ⟨k', by omega, h5⟩
      | _ => rw [hp] at h1; simp [UPc.owner] at h1
    obtain ⟨m, h1, x, h2, h3⟩ := hf.handler (fun k => by
      obtain ⟨m, h1, h2⟩ := hfree (n + k) (by omega)
      refine ⟨m, by omega, .handler 0, rfl, ?_⟩
      have := List.length_pos_iff.mpr (hall m (by omega))
      simp [Ux.step, h2, List.getElem?_eq_getElem this]) n
    rw [(hok m x (by omega) h3).2] at h2
    cases h2
  intro n hn
  refine ⟨?_, hnd n hn⟩
  apply Classical.byContradiction
  intro hw
  obtain ⟨m, h1, h2⟩ := he.leads (ok := fun _ x => x.steady = true ∧ x.isHandler = false) hok hI hf.kernel (fun t => t.writes ≠ []) (fun t => t.dones ≠ [])
    (fun t t' x es hb _ hp hx hs => by
      by_cases hst : x.isStrand = true
      · refine .inl ?_
        cases x <;> simp [UAct.isStrand] at hst
        simp only [Ux.step, Ux.strand] at hs
        (repeat' split at hs) <;> cases hs <;> first | exact hp | simp
      · by_cases hc : x.isComplete = true
        · refine .inr ?_
          cases x <;> simp [UAct.isComplete] at hc
          simp only [Ux.step, Option.bind_eq_bind, Option.bind_eq_some_iff] at hs
          obtain ⟨w, _, hs⟩ := hs
          cases hs; simp
        · exact .inl (by rw [(Ux.step_frame hx.1 (by simpa using hst) hx.2 hs).writes (by simpa using hc)]; exact hp))
    (fun t t' x es hb _ hp hx hc hs => by
      cases x <;> simp [UAct.isComplete] at hc
      simp only [Ux.step, Option.bind_eq_bind, Option.bind_eq_some_iff] at hs
      obtain ⟨w, _, hs⟩ := hs
      cases hs; simp)
    (fun t hb hp => ⟨.complete 0 true false, rfl, by
      have := List.length_pos_iff.mpr hp
      simp [Ux.step, List.getElem?_eq_getElem this]⟩) n hn hw
  exact h2 (hnd m (by omega))

/-- If no send is outstanding or finished, messages cannot wait for ever. -/
theorem Ux.none_waiting (he : Exec (Ux.step conn) s a e) (hf : Ux.FairAll conn s a) {n0 : Nat} (hok : ∀ n x, n0 ≤ n → a n = some x → x.steady = true ∧ x.isHandler = false)
    (hI : ∀ n, n0 ≤ n → (s n).Busy ∧ (s n).writes = [] ∧ (s n).dones = []) : False := by
  let ok : Ux → UAct → Prop := fun _ x => x.steady = true ∧ x.isHandler = false
  have hok : ∀ n x, n0 ≤ n → a n = some x → ok (s n) x := hok
  have hq : ∀ t : Ux, t.Busy ∧ t.writes = [] ∧ t.dones = [] → t.q.items ≠ [] := by
    intro t ht hc
    have := ht.1.some
    rw [ht.1.inv.none ht.2.1 ht.2.2, hc] at this
    exact this rfl
  have hfr : ∀ t t' : Ux, ∀ x es, ok t x → x.isStrand = false → t.step conn x = some (t', es) → Ux.Frame t x t' := fun t t' x es hx hst hs => Ux.step_frame hx.1 hst hx.2 hs
  have can : ∀ t : Ux, t.pc ≠ .idle → ∃ x, UAct.isStrand x = true ∧ (t.step conn x).isSome = true := by
    intro t hp
    refine ⟨.strand true true, rfl, ?_⟩
    simp only [Ux.step, Ux.strand]
    (repeat' split) <;> simp_all
  have n1 := he.never hok (I := fun t => t.Busy ∧ t.writes = [] ∧ t.dones = []) hI hf.strand (fun t => t.pc = .move)
    (fun t t' x es _ _ hp hx hst hs => ((hfr t t' x es hx hst hs).pc (.inr (by rw [hp]; decide))).trans hp)
    (fun t t' x es h h' hp hx hst hs => by
      cases x <;> simp [UAct.isStrand] at hst
      have h1 := hq t h
      cases hc : t.q.items with
      | nil => exact h1 hc
      | cons m l =>
        simp only [Ux.step, Ux.strand, hp, Q.tryDequeue, hc] at hs
        split at hs <;> cases hs
        · have := h'.2.2; simp at this
        · have := h'.2.1; simp at this)
    (fun t _ hp => can t (by rw [hp]; decide))
  have hN : ∃ N, n0 ≤ N ∧ ∀ m, N ≤ m → ¬ ((s m).pc = .cc ∧ ∃ x y, a m = some (.strand x y)) := by
    apply Classical.byContradiction
    intro hno
    have hoft : Often (fun n => (s n).pc = .cc ∧ ∃ x y, a n = some (.strand x y)) := by
      intro k
      apply Classical.byContradiction
      intro hk
      exact hno ⟨max n0 k, by omega, fun m hm hc => hk ⟨m, by omega, hc⟩⟩
    obtain ⟨m, h1, h2, y, h3⟩ := hf.cc hoft n0
    obtain ⟨es, hs, _⟩ := he.next m _ h3
    simp [Ux.step, Ux.strand, h2] at hs
    exact n1 (m + 1) (by omega) (by rw [← hs.1])
  obtain ⟨N, hN0, hN⟩ := hN
  have n2 := he.never (ok := fun t x => ok t x ∧ ¬ (t.pc = .cc ∧ x.isStrand = true)) (n0 := N) (fun n x hn hx => ⟨hok n x (by omega) hx, fun hc => hN n hn ⟨hc.1, by
      cases x <;> simp [UAct.isStrand] at hc
      exact ⟨_, _, hx⟩⟩⟩) (I := fun t => t.Busy ∧ t.writes = [] ∧ t.dones = []) (fun n hn => hI n (by omega)) hf.strand (fun t => t.pc = .cc)
    (fun t t' x es _ _ hp hx hst hs => ((hfr t t' x es hx.1 hst hs).pc (.inr (by rw [hp]; decide))).trans hp)
    (fun t t' x es _ _ hp hx hst _ => hx.2 ⟨hp, hst⟩) (fun t _ hp => can t (by rw [hp]; decide))
  have hI3 : ∀ n, N ≤ n → ((s n).Busy ∧ (s n).writes = [] ∧ (s n).dones = []) ∧ (s n).pc ≠ .move ∧ (s n).pc ≠ .cc := fun n hn => ⟨hI n (by omega), n1 n (by omega), n2 n hn⟩
  have hokN : ∀ n x, N ≤ n → a n = some x → ok (s n) x := fun n x hn => hok n x (by omega)
  -- the flag is cleared
  have e1 := he.leads hokN (I := fun t => (t.Busy ∧ t.writes = [] ∧ t.dones = []) ∧ t.pc ≠ .move ∧ t.pc ≠ .cc) hI3 hf.timer (fun t => t.ccTimer = true) (fun t => t.sending = false)
    (fun t t' x es _ _ hp hx hs => by
      by_cases hst : x.isStrand = true
      · refine .inl ?_
        cases x <;> simp [UAct.isStrand] at hst
        simp only [Ux.step, Ux.strand] at hs
        (repeat' split at hs) <;> cases hs <;> first | exact hp | rfl
      · by_cases hc : x = .timerCC
        · subst hc
          simp only [Ux.step] at hs
          rw [if_pos hp] at hs
          cases hs
          exact .inr rfl
        · exact .inl (((hfr t t' x es hx (by simpa using hst) hs).timer hc).trans hp))
    (fun t t' x es _ _ hp _ hc hs => by
      have hc : x = .timerCC := by simpa using hc
      subst hc
      simp only [Ux.step] at hs
      rw [if_pos hp] at hs
      cases hs
      rfl)
    (fun t _ hp => ⟨.timerCC, rfl, by simp [Ux.step, hp]⟩)
  have e2 := he.leads hokN (I := fun t => (t.Busy ∧ t.writes = [] ∧ t.dones = []) ∧ t.pc ≠ .move ∧ t.pc ≠ .cc) hI3 hf.strand (fun t => t.pc = .clear) (fun t => t.sending = false)
    (fun t t' x es _ _ hp hx hs => by
      by_cases hst : x.isStrand = true
      · refine .inr ?_
        cases x <;> simp [UAct.isStrand] at hst
        simp [Ux.step, Ux.strand, hp] at hs
        rw [← hs.1]
      · exact .inl (((hfr t t' x es hx (by simpa using hst) hs).pc (.inr (by rw [hp]; decide))).trans hp))
    (fun t t' x es _ _ hp _ hst hs => by
      cases x <;> simp [UAct.isStrand] at hst
      simp [Ux.step, Ux.strand, hp] at hs
      rw [← hs.1])
    (fun t _ hp => can t (by rw [hp]; decide))
  have hM : ∃ M, N ≤ M ∧ (s M).sending = false := by
    cases hse : (s N).sending with
    | false => exact ⟨N, Nat.le_refl _, hse⟩
    | true =>
      obtain ⟨⟨h1, h2, h3⟩, h4, h5⟩ := hI3 N (Nat.le_refl _)
      have h6 := h1.inv.owner
      rw [h2, h3, hse, h1.stopped] at h6
      cases hcc : (s N).ccTimer with
      | true => exact e1 N (Nat.le_refl _) hcc
      | false =>
        rw [hcc] at h6
        refine e2 N (Nat.le_refl _) ?_
        have h7 := h1.live.pc rfl
        cases hp : (s N).pc <;> simp_all [UPc.owner]
  obtain ⟨M, hM0, hM⟩ := hM
  have hsend := he.stays (n0 := M) (fun n x hn => hok n x (by omega)) (J := fun t => (t.Busy ∧ t.writes = [] ∧ t.dones = []) ∧ t.pc ≠ .move ∧ t.pc ≠ .cc) (fun n hn => hI3 n (by omega)) (fun t => t.sending = false) hM
    (fun t t' x es _ hj' hp hx hs => by
      by_cases hst : x.isStrand = true
      · cases x <;> simp [UAct.isStrand] at hst
        simp only [Ux.step, Ux.strand] at hs
        (repeat' split at hs) <;> cases hs <;> first | exact hp | rfl | exact absurd rfl hj'.2.2
      · by_cases hc : x = .timerCC
        · subst hc
          simp only [Ux.step] at hs
          split at hs <;> cases hs
          rfl
        · exact ((hfr t t' x es hx (by simpa using hst) hs).sending hc).trans hp)
  have hokM : ∀ n x, M ≤ n → a n = some x → ok (s n) x := fun n x hn => hok n x (by omega)
  let I4 : Ux → Prop := fun t => ((t.Busy ∧ t.writes = [] ∧ t.dones = []) ∧ t.pc ≠ .move ∧ t.pc ≠ .cc) ∧ t.sending = false
  have hI4 : ∀ n, M ≤ n → I4 (s n) := fun n hn => ⟨hI3 n (by omega), hsend n hn⟩
  have n3 := he.never hokM hI4 hf.strand (fun t => t.pc = .test)
    (fun t t' x es _ _ hp hx hst hs => ((hfr t t' x es hx hst hs).pc (.inr (by rw [hp]; decide))).trans hp)
    (fun t t' x es h h' hp hx hst hs => by
      cases x <;> simp [UAct.isStrand] at hst
      simp [Ux.step, Ux.strand, hp, h.2] at hs
      exact h'.1.2.2 (by rw [← hs.1]))
    (fun t _ hp => can t (by rw [hp]; decide))
  have n4 := he.never hokM (I := fun t => I4 t ∧ t.pc ≠ .test) (fun n hn => ⟨hI4 n hn, n3 n hn⟩) hf.strand (fun t => t.pc = .check)
    (fun t t' x es _ _ hp hx hst hs => ((hfr t t' x es hx hst hs).pc (.inr (by rw [hp]; decide))).trans hp)
    (fun t t' x es h h' hp hx hst hs => by
      cases x <;> simp [UAct.isStrand] at hst
      have h1 := hq t h.1.1.1
      simp [Ux.step, Ux.strand, hp, h1] at hs
      exact h'.2 (by rw [← hs.1]))
    (fun t _ hp => can t (by rw [hp]; decide))
  let I5 : Ux → Prop := fun t => I4 t ∧ t.pc = .idle
  have hI5 : ∀ n, M ≤ n → I5 (s n) := by
    intro n hn
    refine ⟨hI4 n hn, ?_⟩
    have h1 := (hI4 n hn).1.1.1.inv.owner
    rw [(hI4 n hn).2, Bool.toNat_false] at h1
    have h2 := n3 n hn
    have h3 := n4 n hn
    cases hp : (s n).pc <;> simp_all [UPc.owner]
  have n5 := he.never hokM hI5 hf.posted (fun t => 0 < t.posted)
    (fun t t' x es h _ hp hx hc hs => by
      by_cases hst : x.isStrand = true
      · cases x <;> simp [UAct.isStrand] at hst
        simp [Ux.step, Ux.strand, h.2] at hs
      · exact Nat.lt_of_lt_of_le hp ((hfr t t' x es hx (by simpa using hst) hs).posted (by simpa using hc)))
    (fun t t' x es h h' hp hx hc hs => by
      have hc : x = .runPosted := by simpa using hc
      subst hc
      simp only [Ux.step] at hs
      split at hs <;> cases hs
      exact absurd h'.2 (by simp))
    (fun t h hp => ⟨.runPosted, rfl, by simp [Ux.step, h.2, Nat.ne_of_gt hp]⟩)
  have n6 := he.never hokM (I := fun t => I5 t ∧ ¬ 0 < t.posted) (fun n hn => ⟨hI5 n hn, n5 n hn⟩) hf.flag (fun t => 0 < t.atFlag)
    (fun t t' x es h _ hp hx hc hs => by
      by_cases hst : x.isStrand = true
      · cases x <;> simp [UAct.isStrand] at hst
        simp [Ux.step, Ux.strand, h.1.2] at hs
      · exact Nat.lt_of_lt_of_le hp ((hfr t t' x es hx (by simpa using hst) hs).atFlag (by simpa using hc)))
    (fun t t' x es h h' hp hx hc hs => by
      have hc : x = .loadFlag := by simpa using hc
      subst hc
      simp only [Ux.step] at hs
      split at hs <;> cases hs
      exact h'.2 (by simp [h.1.1.2]))
    (fun t h hp => ⟨.loadFlag, rfl, by simp [Ux.step, Nat.ne_of_gt hp]⟩)
  have n7 := he.never hokM (I := fun t => I5 t ∧ ¬ 0 < t.atFlag) (fun n hn => ⟨hI5 n hn, n6 n hn⟩) hf.load (fun t => 0 < t.atReady)
    (fun t t' x es h _ hp hx hc hs => by
      by_cases hst : x.isStrand = true
      · cases x <;> simp [UAct.isStrand] at hst
        simp [Ux.step, Ux.strand, h.1.2] at hs
      · exact Nat.lt_of_lt_of_le hp ((hfr t t' x es hx (by simpa using hst) hs).atReady (by simpa using hc)))
    (fun t t' x es h h' hp hx hc hs => by
      have hc : x = .loadReady := by simpa using hc
      subst hc
      simp only [Ux.step] at hs
      split at hs <;> cases hs
      exact h'.2 (by simp [h.1.1.1.1.1.ready]))
    (fun t h hp => ⟨.loadReady, rfl, by simp [Ux.step, Nat.ne_of_gt hp]⟩)
  have n8 := he.never hokM (I := fun t => I5 t ∧ ¬ 0 < t.atReady) (fun n hn => ⟨hI5 n hn, n7 n hn⟩) hf.resume (fun t => 0 < t.atEmpty)
    (fun t t' x es h _ hp hx hc hs => by
      by_cases hst : x.isStrand = true
      · cases x <;> simp [UAct.isStrand] at hst
        simp [Ux.step, Ux.strand, h.1.2] at hs
      · exact Nat.lt_of_lt_of_le hp ((hfr t t' x es hx (by simpa using hst) hs).atEmpty (by simpa using hc)))
    (fun t t' x es h h' hp hx hc hs => by
      have hc : x = .resumeCheck := by simpa using hc
      subst hc
      have h1 := hq t h.1.1.1.1
      simp only [Ux.step] at hs
      split at hs <;> cases hs
      exact h'.2 (by simp [h1]))
    (fun t h hp => ⟨.resumeCheck, rfl, by simp [Ux.step, Nat.ne_of_gt hp]⟩)
  have hM5 := hI5 M (Nat.le_refl _)
  have hb := hM5.1.1.1
  rcases hb.1.live.wake rfl hb.1.ready (hq _ hb) with h1 | h1 | h1 | h1 | h1 | h1 | h1
  · exact absurd (hM5.1.2.symm.trans h1) (by decide)
  · exact n5 M (Nat.le_refl _) h1
  · exact absurd (hM5.2.symm.trans h1) (by decide)
  · exact absurd (hM5.2.symm.trans h1) (by decide)
  · exact n7 M (Nat.le_refl _) h1
  · exact n6 M (Nat.le_refl _) h1
  · exact n8 M (Nat.le_refl _) h1

theorem Ux.fair_order (he : Exec (Ux.step conn) s a e) (h0 : (s 0).Up) (ha : ∀ n x, a n = some x → x.steady = true) (n : Nat) :
    (s n).Up ∧ (∀ ev ∈ e n, UPlainEv ev) ∧ (s 0).ideal.monitor (e n) = some (s n).ideal := by
  induction n with
  | zero => rw [he.start]; exact ⟨h0, by simp, rfl⟩
  | succ n ih =>
    cases hx : a n with
    | none => rw [(he.idle n hx).1, (he.idle n hx).2]; exact ih
    | some x =>
      obtain ⟨es, hs, h1⟩ := he.next n x hx
      have h2 := Ux.step_up ih.1 (ha n x hx) hs
      refine ⟨h2.1, ?_, ?_⟩
      · rw [h1]
        intro ev hev
        rcases List.mem_append.mp hev with hev | hev
        · exact ih.2.1 ev hev
        · exact h2.2.2 ev hev
      · rw [h1, uMonitor_append, ih.2.2]; exact h2.2.1

end

theorem Ux.handler_outcome {conn : Bool} {s s' : Ux} {a : UAct} {es : List UEv} (h : s.Inv) (ha : a.isHandler = true) (hs : s.step conn a = some (s', es)) : (uOutcomes es).length = 1 := by
  have hp : ∀ (m : UMsg) (r : SyncRes), uOutcomes (uPromise m r) = [] := by
    intro m r
    cases hm : m.p <;> simp [uPromise, hm, uOutcomes]
  cases a <;> simp [UAct.isHandler] at ha
  simp only [Ux.step, Option.bind_eq_bind, Option.bind_eq_some_iff] at hs
  obtain ⟨d, hd, hs⟩ := hs
  split at hs
  · cases hs
  · have hc := h.dcur d (List.mem_of_getElem? hd)
    simp only [Ux.handler, hc, Option.some.injEq] at hs
    cases hk : d.ok <;> simp only [hk, if_true, if_false, Bool.false_eq_true, Prod.mk.injEq] at hs <;> rw [← hs.2, uOutcomes_append, hp] <;> rfl

/-- C24, for ever: threads may go on sending (without priority) and single sends may fail. If none of the activities involved is put off for ever -- a thread inside of send_msg, a posted do_send_msg,
do_send_msg, the timer of congestion control and the thread that resumes after it, the kernel, send_handler -- and congestion control, asked again and again, lets a message pass again and again, then every
accepted message is handed over, and its outcome reported, at some time, in the order of acceptance. -/
theorem C24_no_starvation (conn : Bool) (as0 : List UAct) (es0 : List UEv) (s : Nat → Ux) (a : Nat → Option UAct) (e : Nat → List UEv)
    (h0 : Ux.Run conn Ux.init as0 (s 0) es0) (hr : (s 0).ready = true) (hfat : uFatalSinceUp as0 = false) (hst : (s 0).stopped = false)
    (he : Exec (Ux.step conn) s a e) (ha : ∀ n x, a n = some x → x.steady = true)
    (f1 : Fair (Ux.step conn) s a (· == .loadReady)) (f2 : Fair (Ux.step conn) s a (· == .loadFlag)) (f3 : Fair (Ux.step conn) s a (· == .runPosted)) (f4 : Fair (Ux.step conn) s a UAct.isStrand)
    (f5 : Fair (Ux.step conn) s a (· == .timerCC)) (f6 : Fair (Ux.step conn) s a (· == .resumeCheck)) (f7 : Fair (Ux.step conn) s a UAct.isComplete) (f8 : Fair (Ux.step conn) s a UAct.isHandler)
    (f9 : Often (fun n => (s n).pc = .cc ∧ ∃ x y, a n = some (.strand x y)) → Often (fun n => (s n).pc = .cc ∧ ∃ y, a n = some (.strand true y))) (n : Nat) :
    ∃ m, (s 0).cur.toList ++ (s 0).q.items ++ uAccepted (e n) <+: (uOutcomes (e m)).map (·.1) := by
  have hf : Ux.FairAll conn s a := ⟨f1, f2, f3, f4, f5, f6, f7, f8, f9⟩
  have hok0 := Ux.run_ok h0
  have hord := Ux.fair_order he ⟨hok0.1, by rw [← hfat]; exact hok0.2.1, hr, hst⟩ ha
  have hlist : ∀ n, (s 0).cur.toList ++ (s 0).q.items ++ uAccepted (e n) = (uOutcomes (e n)).map (·.1) ++ (s n).cur.toList ++ (s n).q.items :=
    fun n => uMonitor_all (hord n).2.2 (hord n).2.1
  have hgrow : ∀ n m, n ≤ m → uAccepted (e n) <+: uAccepted (e m) ∧ uOutcomes (e n) <+: uOutcomes (e m) := by
    intro n m hm
    obtain ⟨es, h⟩ := he.grow_le hm
    rw [h, uAccepted_append, uOutcomes_append]
    exact ⟨List.prefix_append _ _, List.prefix_append _ _⟩
  -- as long as a message is there, send_handler will be called
  have hacc : ∀ n, (s n).cur.toList ++ (s n).q.items ≠ [] → ∃ m x, n ≤ m ∧ a m = some x ∧ x.isHandler = true := by
    intro n hn
    apply Classical.byContradiction
    intro hno
    have hok : ∀ m x, n ≤ m → a m = some x → x.steady = true ∧ x.isHandler = false := fun m x hm hx => ⟨ha m x hx, by
      cases hc : x.isHandler with
      | false => rfl
      | true => exact absurd ⟨m, x, hm, hx, hc⟩ hno⟩
    have hI := he.stays (ok := fun _ x => x.steady = true ∧ x.isHandler = false) hok (J := fun _ => True) (fun _ _ => trivial) Ux.Busy ⟨(hord n).1, hn⟩ (fun t t' x es _ _ hb hx hs => Ux.step_busy hb hx.1 hx.2 hs)
    have hfly := Ux.none_flying he hf hok hI
    exact Ux.none_waiting he hf hok (fun m hm => ⟨hI m hm, hfly m hm⟩)
  obtain ⟨m, h1, h2⟩ := reaches (f := fun m => ((uOutcomes (e m)).map (·.1)).length) (t := ((s 0).cur.toList ++ (s 0).q.items ++ uAccepted (e n)).length) (fun m hm => by
    by_cases hmn : (s (max m n)).cur.toList ++ (s (max m n)).q.items = []
    · -- the outcome of everything accepted by then was reported
      refine ⟨max m n, by omega, ?_⟩
      have h3 := hlist (max m n)
      rw [List.append_assoc ((uOutcomes _).map _), hmn, List.append_nil] at h3
      have h4 := (hgrow n (max m n) (by omega)).1.length_le
      rw [← h3]
      simp only [List.length_append] at hm ⊢
      omega
    · obtain ⟨k, x, h3, h4, h8⟩ := hacc _ hmn
      refine ⟨k + 1, by omega, ?_⟩
      obtain ⟨es, hs, h5⟩ := he.next k _ h4
      have h6 := (hgrow m k (by omega)).2.length_le
      have h7 := Ux.handler_outcome (hord k).1.inv h8 hs
      rw [h5, uOutcomes_append, List.length_map, List.length_map, List.length_append]
      omega) n
  refine ⟨m, List.prefix_of_prefix_length_le (l₃ := (s 0).cur.toList ++ (s 0).q.items ++ uAccepted (e m)) ?_ ?_ h2⟩
  · exact (List.prefix_append_right_inj _).mpr (hgrow n m h1).1
  · rw [hlist m, List.append_assoc]; exact List.prefix_append _ _

/-- Two messages; congestion control suspends sending, later the first send fails and the second message is taken over by KCP. -/
def uFairCycle : List UAct := [.send ⟨7, [1], none⟩ false true, .send ⟨7, [2], none⟩ false true, .loadReady, .loadReady, .loadFlag, .loadFlag, .runPosted, .strand true true, .strand false true, .runPosted, .strand true true,
  .timerCC, .resumeCheck, .loadReady, .loadFlag, .runPosted, .strand true true, .strand true true, .strand true false, .complete 0 false false, .handler 0, .strand true true, .strand true true, .handler 0,
  .strand true true, .strand true true, .strand true true, .strand true true]

def uFairState (r : Nat) (w : List UMsg) : Ux := match Ux.exec true Ux.init (.linkUp :: uFairCycle.take r) with
  | some (s, _) => { s with wire := w }
  | none => Ux.init

def uFairEvents (r : Nat) : List UEv := match uFairCycle[r]? with
  | some x => match (uFairState r []).step true x with
    | some (_, es) => es
    | none => []
  | none => []

def uFairTrace : Nat → List UEv
  | 0 => []
  | n + 1 => uFairTrace n ++ uFairEvents (n % 28)

theorem uFairCycle_step (r : Nat) (hr : r < 28) (w : List UMsg) : ∃ x, uFairCycle[r]? = some x ∧ x.steady = true ∧
    (uFairState r w).step true x = some (uFairState ((r + 1) % 28) (if r = 22 then w ++ [⟨7, [2], none⟩] else w), uFairEvents r) := by
  have : r = 0 ∨ r = 1 ∨ r = 2 ∨ r = 3 ∨ r = 4 ∨ r = 5 ∨ r = 6 ∨ r = 7 ∨ r = 8 ∨ r = 9 ∨ r = 10 ∨ r = 11 ∨ r = 12 ∨ r = 13 ∨ r = 14 ∨ r = 15 ∨ r = 16 ∨ r = 17 ∨ r = 18 ∨ r = 19 ∨ r = 20 ∨ r = 21 ∨ r = 22 ∨ r = 23 ∨
    r = 24 ∨ r = 25 ∨ r = 26 ∨ r = 27 := by omega
  rcases this with rfl | rfl | rfl | rfl | rfl | rfl | rfl | rfl | rfl | rfl | rfl | rfl | rfl | rfl | rfl | rfl | rfl | rfl | rfl | rfl | rfl | rfl | rfl | rfl | rfl | rfl | rfl | rfl <;> exact ⟨_, rfl, rfl, rfl⟩

/-- Non-vacuity: two messages, again and again, with congestion, failures and messages taken over by KCP. -/
theorem C24_no_starvation_demo : ∃ (s : Nat → Ux) (a : Nat → Option UAct) (e : Nat → List UEv), Ux.Run true Ux.init [.linkUp] (s 0) [] ∧ (s 0).ready = true ∧ uFatalSinceUp [.linkUp] = false ∧ (s 0).stopped = false ∧
    Exec (Ux.step true) s a e ∧ (∀ n x, a n = some x → x.steady = true) ∧
    (Fair (Ux.step true) s a (· == .loadReady) ∧ Fair (Ux.step true) s a (· == .loadFlag) ∧ Fair (Ux.step true) s a (· == .runPosted) ∧ Fair (Ux.step true) s a UAct.isStrand ∧
    Fair (Ux.step true) s a (· == .timerCC) ∧ Fair (Ux.step true) s a (· == .resumeCheck) ∧ Fair (Ux.step true) s a UAct.isComplete ∧ Fair (Ux.step true) s a UAct.isHandler) ∧
    Often (fun n => (s n).pc = .cc ∧ ∃ y, a n = some (.strand true y)) ∧ Often (fun n => (s n).pc = .cc ∧ ∃ y, a n = some (.strand false y)) ∧
    (∀ k, (uAccepted (e (28 * k))).length = 2 * k) ∧ ∀ k, ∃ m, 2 * k ≤ (uOutcomes (e m)).length := by
  let s : Nat → Ux := fun n => uFairState (n % 28) (List.replicate ((n + 5) / 28) ⟨7, [2], none⟩)
  let a : Nat → Option UAct := fun n => uFairCycle[n % 28]?
  have hrec : ∀ k, (uAccepted (uFairTrace (28 * k))).length = 2 * k := by
    intro k
    induction k with
    | zero => rfl
    | succ k ih =>
      show (uAccepted (uFairTrace (28 * k + 28))).length = 2 * k + 2
      have hm : ∀ i, i < 28 → (28 * k + i) % 28 = i := fun i hi => by omega
      simp only [uFairTrace, uAccepted_append, List.length_append]
      simp only [hm 27 (by omega), hm 26 (by omega), hm 25 (by omega), hm 24 (by omega), hm 23 (by omega), hm 22 (by omega), hm 21 (by omega), hm 20 (by omega), hm 19 (by omega), hm 18 (by omega), hm 17 (by omega),
        hm 16 (by omega), hm 15 (by omega), hm 14 (by omega), hm 13 (by omega), hm 12 (by omega), hm 11 (by omega), hm 10 (by omega), hm 9 (by omega), hm 8 (by omega), hm 7 (by omega), hm 6 (by omega), hm 5 (by omega),
        hm 4 (by omega), hm 3 (by omega), hm 2 (by omega), hm 1 (by omega), show (28 * k) % 28 = 0 by omega]
      rw [ih]
      rfl
  have hex : Exec (Ux.step true) s a uFairTrace := by
    refine ⟨rfl, fun n hn => ?_, fun n x hx => ?_⟩
    · obtain ⟨x, hx, _⟩ := uFairCycle_step (n % 28) (Nat.mod_lt _ (by decide)) []
      exact absurd (hx.symm.trans hn) (by simp)
    · obtain ⟨y, hy, _, hs⟩ := uFairCycle_step (n % 28) (Nat.mod_lt _ (by decide)) (List.replicate ((n + 5) / 28) ⟨7, [2], none⟩)
      cases hy.symm.trans hx
      refine ⟨_, ?_, rfl⟩
      show (uFairState (n % 28) (List.replicate ((n + 5) / 28) ⟨7, [2], none⟩)).step true x = some (uFairState ((n + 1) % 28) (List.replicate ((n + 1 + 5) / 28) ⟨7, [2], none⟩), _)
      rw [hs, show (n % 28 + 1) % 28 = (n + 1) % 28 by omega]
      split
      · rw [show (n + 1 + 5) / 28 = (n + 5) / 28 + 1 by omega, List.replicate_succ']
      · rw [show (n + 1 + 5) / 28 = (n + 5) / 28 by omega]
  have hst : ∀ n x, a n = some x → x.steady = true := by
    intro n x hx
    obtain ⟨y, hy, h1, _⟩ := uFairCycle_step (n % 28) (Nat.mod_lt _ (by decide)) []
    cases hy.symm.trans hx
    exact h1
  have hat : ∀ r k, r < 28 → a (28 * k + r) = uFairCycle[r]? := by
    intro r k hr
    show uFairCycle[(28 * k + r) % 28]? = _
    rw [show (28 * k + r) % 28 = r by omega]
  have hpc : ∀ r k, r < 28 → (s (28 * k + r)).pc = (uFairState r (List.replicate ((28 * k + r + 5) / 28) ⟨7, [2], none⟩)).pc := by
    intro r k hr
    show (uFairState ((28 * k + r) % 28) _).pc = _
    rw [show (28 * k + r) % 28 = r by omega]
  have hrun : Ux.Run true Ux.init [.linkUp] (s 0) [] := Ux.exec_run rfl
  have f1 : Fair (Ux.step true) s a (· == .loadReady) := fair_periodic 28 2 .loadReady (by decide) rfl (fun k => hat 2 k (by decide))
  have f2 : Fair (Ux.step true) s a (· == .loadFlag) := fair_periodic 28 4 .loadFlag (by decide) rfl (fun k => hat 4 k (by decide))
  have f3 : Fair (Ux.step true) s a (· == .runPosted) := fair_periodic 28 6 .runPosted (by decide) rfl (fun k => hat 6 k (by decide))
  have f4 : Fair (Ux.step true) s a UAct.isStrand := fair_periodic 28 7 (.strand true true) (by decide) rfl (fun k => hat 7 k (by decide))
  have f5 : Fair (Ux.step true) s a (· == .timerCC) := fair_periodic 28 11 .timerCC (by decide) rfl (fun k => hat 11 k (by decide))
  have f6 : Fair (Ux.step true) s a (· == .resumeCheck) := fair_periodic 28 12 .resumeCheck (by decide) rfl (fun k => hat 12 k (by decide))
  have f7 : Fair (Ux.step true) s a UAct.isComplete := fair_periodic 28 19 (.complete 0 false false) (by decide) rfl (fun k => hat 19 k (by decide))
  have f8 : Fair (Ux.step true) s a UAct.isHandler := fair_periodic 28 20 (.handler 0) (by decide) rfl (fun k => hat 20 k (by decide))
  have f9 : Often (fun n => (s n).pc = .cc ∧ ∃ y, a n = some (.strand true y)) := fun k => ⟨28 * k + 17, by omega, (hpc 17 k (by decide)).trans rfl, true, hat 17 k (by decide)⟩
  refine ⟨s, a, uFairTrace, hrun, rfl, rfl, rfl, hex, hst, ⟨f1, f2, f3, f4, f5, f6, f7, f8⟩, f9, fun k => ⟨28 * k + 8, by omega, (hpc 8 k (by decide)).trans rfl, true, hat 8 k (by decide)⟩, hrec, fun k => ?_⟩
  obtain ⟨m, hm⟩ := C24_no_starvation true _ _ s a uFairTrace hrun rfl rfl rfl hex hst f1 f2 f3 f4 f5 f6 f7 f8 (fun _ => f9) (28 * k)
  refine ⟨m, ?_⟩
  have := hm.length_le
  rw [List.length_append, hrec k, List.length_map] at this
  omega

end StAsio
