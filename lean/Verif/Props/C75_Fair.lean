import Verif.Props.C24_Fair
import Verif.Props.C56_Fair
import Verif.Props.C75_KcpPipe
/-!
C75 for ever: a KCP socket that never stops sending, another one that never stops receiving.
-/
set_option autoImplicit false
namespace StAsio

/-- The sending socket does something of class `c`. -/
def KpAct.isK (c : KAct → Bool) : KpAct → Bool
  | .k a => c a
  | _ => false

/-- The receiver does something of class `c`. -/
def KpAct.isRx (c : RAct → Bool) : KpAct → Bool
  | .rx a => c a
  | _ => false

/-- A datagram arrives that completes a message. -/
def KpAct.isNet : KpAct → Bool
  | .net n => n != 0
  | _ => false

/-- do_send_msg goes on. -/
def KAct.isStrand : KAct → Bool
  | .strand _ => true
  | _ => false

/-- send_handler is called. -/
def KAct.isHandler : KAct → Bool
  | .u (.handler _) => true
  | _ => false

/-- What an action means for the sending half of the sending socket. -/
def KPipe.uAct (s : KPipe) : KpAct → Option UAct
  | .k (.u a) => some a
  | .k (.strand _) => some (.strand s.kc.ccOk s.kc.kcp.isSome)
  | .k .timerCC => some .timerCC
  | _ => none

/-- What an action means for the receiving socket. -/
def KPipe.rxAct (nd : Bool) (buf : Nat) (s : KPipe) : KpAct → Option RAct
  | .rx a => some a
  | .net n => (kcpRecv nd buf ((s.kc.took.take (s.arrived + n)).drop s.taken)).map .read
  | _ => none

theorem KPipe.step_ux {nd : Bool} {buf limit : Nat} {s s' : KPipe} {a : KpAct} {es : List KpEv} (hs : s.step nd buf limit a = some (s', es)) :
    match KPipe.uAct s a with
      | none => s'.kc.ux = s.kc.ux ∧ kpSent es = []
      | some y => y.steady = true ∧ ∃ fs, s.kc.ux.step true y = some (s'.kc.ux, fs) ∧ kpSent es = (uAccepted fs).map UMsg.data := by
  cases a with
  | k a =>
    simp only [KPipe.step] at hs
    split at hs
    · next hp =>
      obtain ⟨⟨k', fs⟩, h1, h2⟩ := Option.map_eq_some_iff.mp hs
      cases h2
      cases a with
      | u b =>
        have h3 : s.kc.ux.step true b = some (k'.ux, fs) := by
          cases b <;> simp only [Kc.step] at h1 <;> first
            | (cases h1; done)
            | (rw [Option.map_eq_some_iff] at h1; obtain ⟨⟨u, e⟩, h4, h5⟩ := h1; cases h5; exact h4)
        refine ⟨?_, fs, h3, (kpTxEv_view fs).1⟩
        cases b with
        | send m p f => cases p <;> simp_all [KAct.plain, UAct.steady]
        | _ => first | rfl | simp [KAct.plain] at hp
      | strand segs =>
        refine ⟨rfl, fs, ?_, (kpTxEv_view fs).1⟩
        simp only [Kc.step] at h1
        rw [Option.map_eq_some_iff] at h1
        obtain ⟨⟨u, e⟩, h4, h5⟩ := h1
        split at h5 <;> cases h5 <;> exact h4
      | timerCC =>
        refine ⟨rfl, fs, ?_, (kpTxEv_view fs).1⟩
        simp only [Kc.step] at h1
        split at h1
        · cases h1
        · split at h1
          · cases h1
          · rw [Option.map_eq_some_iff] at h1
            obtain ⟨⟨u, e⟩, h4, h5⟩ := h1
            cases h5
            exact h4
      | update n =>
        simp only [Kc.step] at h1
        split at h1 <;> cases h1
        exact ⟨rfl, rfl⟩
      | poll =>
        simp only [Kc.step] at h1
        (repeat' split at h1) <;> cases h1
        exact ⟨rfl, rfl⟩
      | create => simp [KAct.plain] at hp
      | close => simp [KAct.plain] at hp
      | setMax n => simp only [Kc.step] at h1; cases h1; exact ⟨rfl, rfl⟩
    · cases hs
  | net n =>
    simp only [KPipe.step] at hs
    simp only [KPipe.uAct]
    (repeat' split at hs) <;> first | (cases hs; done) | (cases hs; exact ⟨rfl, rfl⟩) | (obtain ⟨r, h1, h2⟩ := Option.map_eq_some_iff.mp hs; cases h2; exact ⟨rfl, (kpRxEv_view _).2⟩)
  | rx a =>
    simp only [KPipe.step] at hs
    simp only [KPipe.uAct]
    split at hs
    · obtain ⟨r, h1, h2⟩ := Option.map_eq_some_iff.mp hs; cases h2; exact ⟨rfl, (kpRxEv_view _).2⟩
    · cases hs

theorem KPipe.step_rx {nd : Bool} {buf limit : Nat} {s s' : KPipe} {a : KpAct} {es : List KpEv} (hs : s.step nd buf limit a = some (s', es)) :
    match KPipe.rxAct nd buf s a with
      | none => s'.rx = s.rx ∧ kpHandled es = []
      | some y => (y.healthy = true ∨ ∃ ms, y = .read ms ∧ s.rx.rd = .reading) ∧ ∃ fs, s.rx.step limit y = some (s'.rx, fs) ∧ kpHandled es = rAccepted fs := by
  cases a with
  | k a =>
    simp only [KPipe.step] at hs
    simp only [KPipe.rxAct]
    split at hs
    · obtain ⟨r, h1, h2⟩ := Option.map_eq_some_iff.mp hs; cases h2; exact ⟨rfl, (kpTxEv_view _).2⟩
    · cases hs
  | net n =>
    simp only [KPipe.step] at hs
    simp only [KPipe.rxAct]
    split at hs
    · cases hs
    · next hc =>
      split at hs
      · next hk => rw [hk]; cases hs; exact ⟨rfl, rfl⟩
      · next ms hk =>
        rw [hk]
        obtain ⟨r, h1, h2⟩ := Option.map_eq_some_iff.mp hs
        cases h2
        refine ⟨.inr ⟨ms, rfl, ?_⟩, r.2, h1, (kpRxEv_view _).1⟩
        grind
  | rx a =>
    simp only [KPipe.step] at hs
    simp only [KPipe.rxAct]
    split at hs
    · next hh =>
      obtain ⟨r, h1, h2⟩ := Option.map_eq_some_iff.mp hs
      cases h2
      exact ⟨.inl hh.2, r.2, h1, (kpRxEv_view _).1⟩
    · cases hs

/-- Messages that arrived stay there; only the network lets them arrive. -/
theorem KPipe.step_arrived {nd : Bool} {buf limit : Nat} {s s' : KPipe} {a : KpAct} {es : List KpEv} (hs : s.step nd buf limit a = some (s', es)) :
    (if a.isNet then s.arrived < s'.arrived else s'.arrived = s.arrived) ∧ s.kc.took <+: s'.kc.took := by
  cases a with
  | k a =>
    simp only [KPipe.step] at hs
    split at hs
    · obtain ⟨r, h1, h2⟩ := Option.map_eq_some_iff.mp hs
      cases h2
      refine ⟨by simp [KpAct.isNet], ?_⟩
      obtain ⟨w, hw, _⟩ := Kc.step_took h1
      simp only [hw]
      exact List.prefix_append _ _
    · cases hs
  | net n =>
    simp only [KPipe.step] at hs
    (repeat' split at hs) <;> first | (cases hs; done) | (cases hs; refine ⟨?_, List.prefix_refl _⟩; by_cases h : n = 0 <;> simp [KpAct.isNet, h]; omega) |
      (obtain ⟨r, h1, h2⟩ := Option.map_eq_some_iff.mp hs; cases h2; refine ⟨?_, List.prefix_refl _⟩; by_cases h : n = 0 <;> simp [KpAct.isNet, h]; omega)
  | rx a =>
    simp only [KPipe.step] at hs
    split at hs
    · obtain ⟨r, h1, h2⟩ := Option.map_eq_some_iff.mp hs; cases h2; exact ⟨by simp [KpAct.isNet], List.prefix_refl _⟩
    · cases hs

/-- While the receiver waits for a datagram and KCP has messages on the way, one may arrive. -/
theorem KPipe.net_can {max : Nat} (nd : Bool) {buf limit : Nat} {s : KPipe} {es : List KpEv} (h : s.Good max buf limit es) (hrd : s.rx.rd = .reading) (h3 : s.arrived < s.kc.took.length) :
    (s.step nd buf limit (.net 1)).isSome = true := by
  simp only [KPipe.step]
  rw [if_neg (by rw [h.bad, hrd]; simp; omega)]
  rw [kcpRecv_eq nd buf _ (fun m hm => h.took_full m (List.mem_of_mem_take (List.mem_of_mem_drop hm)))]
  simp only [Rx.step, hrd, ne_eq, not_true_eq_false, if_false, Option.isSome_map]
  split
  · rfl
  · split <;> rfl

/-- None of the activities of two working KCP sockets is put off for ever, the receiving application, called again and again, accepts again and again, and the peer's acknowledgements bring KCP's backlog within the limit again and again. -/
structure KPipe.FairRun (nd : Bool) (buf limit : Nat) (s : Nat → KPipe) (a : Nat → Option KpAct) : Prop where
  /-- a thread inside a send function, or the one that resumes sending, goes on -/
  loadReady : Fair (KPipe.step nd buf limit) s a (KpAct.isK (· == .u .loadReady))
  loadFlag : Fair (KPipe.step nd buf limit) s a (KpAct.isK (· == .u .loadFlag))
  resumeCheck : Fair (KPipe.step nd buf limit) s a (KpAct.isK (· == .u .resumeCheck))
  /-- the sender's strand goes on: a posted do_send_msg, do_send_msg itself, send_handler -/
  runPosted : Fair (KPipe.step nd buf limit) s a (KpAct.isK (· == .u .runPosted))
  strand : Fair (KPipe.step nd buf limit) s a (KpAct.isK KAct.isStrand)
  handler : Fair (KPipe.step nd buf limit) s a (KpAct.isK KAct.isHandler)
  /-- the timer of congestion control looks at KCP's backlog when it is within the limit -/
  timerCC : Fair (KPipe.step nd buf limit) s a (KpAct.isK (· == .timerCC))
  /-- the network delivers, KCP gets messages across -/
  net : Fair (KPipe.step nd buf limit) s a KpAct.isNet
  /-- KCP's backlog comes down -/
  acks : Often (fun n => (s n).kc.ccOk = true)
  /-- the receiving chain goes on: after messages were stored, before the next read, when it polls a full receive buffer -/
  loadDisp : Fair (KPipe.step nd buf limit) s a (KpAct.isRx (· == .loadDisp))
  handled : Fair (KPipe.step nd buf limit) s a (KpAct.isRx (· == .handled))
  checkTimer : Fair (KPipe.step nd buf limit) s a (KpAct.isRx (· == .checkTimer))
  resume : Fair (KPipe.step nd buf limit) s a (KpAct.isRx (· == .resume))
  /-- the receiver's dispatching goes on: a posted do_dispatch_msg, do_dispatch_msg itself, the retry timer -/
  run : Fair (KPipe.step nd buf limit) s a (KpAct.isRx (· == .run))
  begin : Fair (KPipe.step nd buf limit) s a (KpAct.isRx (· == .begin))
  dis : Fair (KPipe.step nd buf limit) s a (KpAct.isRx (· == .dis))
  dtimer : Fair (KPipe.step nd buf limit) s a (KpAct.isRx (· == .dtimer))
  /-- the receiving application accepts messages -/
  accepts : Fair (KPipe.step nd buf limit) s a (KpAct.isRx (· == .ret true))

section
variable {nd : Bool} {buf limit : Nat} {s : Nat → KPipe} {a : Nat → Option KpAct} {e : Nat → List KpEv}

theorem KPipe.exec_ux (he : Exec (KPipe.step nd buf limit) s a e) :
    Exec (Ux.step true) (fun n => (s n).kc.ux) (fun n => (a n).bind (KPipe.uAct (s n))) (partTrace (Ux.step true) (fun n => (s n).kc.ux) (fun n => (a n).bind (KPipe.uAct (s n)))) := by
  refine Exec.project (proj := fun t : KPipe => t.kc.ux) he (fun n x es _ hs => ?_)
  have := KPipe.step_ux hs
  cases h : KPipe.uAct (s n) x with
  | none => rw [h] at this; exact this.1
  | some y =>
    rw [h] at this
    obtain ⟨_, fs, h, _⟩ := this
    exact ⟨fs, h⟩

theorem KPipe.exec_rx (he : Exec (KPipe.step nd buf limit) s a e) :
    Exec (Rx.step limit) (fun n => (s n).rx) (fun n => (a n).bind (KPipe.rxAct nd buf (s n))) (partTrace (Rx.step limit) (fun n => (s n).rx) (fun n => (a n).bind (KPipe.rxAct nd buf (s n)))) := by
  refine Exec.project (proj := KPipe.rx) he (fun n x es _ hs => ?_)
  have := KPipe.step_rx hs
  cases h : KPipe.rxAct nd buf (s n) x with
  | none => rw [h] at this; exact this.1
  | some y =>
    rw [h] at this
    obtain ⟨_, fs, h, _⟩ := this
    exact ⟨fs, h⟩

theorem KPipe.trace_rx (he : Exec (KPipe.step nd buf limit) s a e) (n : Nat) :
    rAccepted (partTrace (Rx.step limit) (fun n => (s n).rx) (fun n => (a n).bind (KPipe.rxAct nd buf (s n))) n) = kpHandled (e n) := by
  induction n with
  | zero => rw [he.start]; rfl
  | succ n ih =>
    cases ha : a n with
    | none => simp only [partTrace, ha, Option.bind_none]; rw [ih, (he.idle n ha).2]
    | some x =>
      obtain ⟨es, hs, h1⟩ := he.next n x ha
      have h2 := KPipe.step_rx hs
      rw [h1, kpHandled_append, ← ih]
      simp only [partTrace, ha, Option.bind_some]
      split at h2
      · next h3 => simp only [h3]; rw [h2.2, List.append_nil]
      · next y h3 =>
        obtain ⟨_, fs, h4, h5⟩ := h2
        simp only [h3, h4]
        rw [rAccepted_append, h5]

theorem KPipe.trace_ux (he : Exec (KPipe.step nd buf limit) s a e) (n : Nat) :
    (uAccepted (partTrace (Ux.step true) (fun n => (s n).kc.ux) (fun n => (a n).bind (KPipe.uAct (s n))) n)).map UMsg.data = kpSent (e n) := by
  induction n with
  | zero => rw [he.start]; rfl
  | succ n ih =>
    cases ha : a n with
    | none => simp only [partTrace, ha, Option.bind_none]; rw [ih, (he.idle n ha).2]
    | some x =>
      obtain ⟨es, hs, h1⟩ := he.next n x ha
      have h2 := KPipe.step_ux hs
      rw [h1, kpSent_append, ← ih]
      simp only [partTrace, ha, Option.bind_some]
      split at h2
      · next h3 => simp only [h3]; rw [h2.2, List.append_nil]
      · next y h3 =>
        obtain ⟨_, fs, h4, h5⟩ := h2
        simp only [h3, h4]
        rw [uAccepted_append, List.map_append, h5]

theorem KPipe.fair_rx (hb : ∀ n, (s n).bad = false) (c' : RAct → Bool) (hh : ∀ y, c' y = true → y.healthy = true) (hf : Fair (KPipe.step nd buf limit) s a (KpAct.isRx c')) :
    Fair (Rx.step limit) (fun n => (s n).rx) (fun n => (a n).bind (KPipe.rxAct nd buf (s n))) c' := by
  refine Fair.project (proj := KPipe.rx) hf c' (fun n y hy hs => ⟨.rx y, hy, ?_⟩) (fun n x hx _ => ?_)
  · simp only [KPipe.step, hh y hy, hb n, and_self, if_true, Option.isSome_map]
    exact hs
  · cases x with
    | rx y => exact ⟨y, hx, rfl⟩
    | _ => simp [KpAct.isRx] at hx

/-- Fairness of a single action of the sending half. -/
theorem KPipe.fair_u (b : UAct) (hb : b = .loadReady ∨ b = .loadFlag ∨ b = .runPosted ∨ b = .resumeCheck) (hf : Fair (KPipe.step nd buf limit) s a (KpAct.isK (· == .u b))) :
    Fair (Ux.step true) (fun n => (s n).kc.ux) (fun n => (a n).bind (KPipe.uAct (s n))) (· == b) := by
  refine Fair.project (proj := fun t : KPipe => t.kc.ux) hf _ (fun n y hy hs => ⟨.k (.u b), by simp [KpAct.isK], ?_⟩) (fun n x hx _ => ?_)
  · cases eq_of_beq hy
    rcases hb with rfl | rfl | rfl | rfl <;> simpa [KPipe.step, KAct.plain, Kc.step] using hs
  · cases x with
    | k y => simp only [KpAct.isK] at hx; cases eq_of_beq hx; exact ⟨b, by simp, rfl⟩
    | _ => simp [KpAct.isK] at hx

theorem KPipe.fair_handler (hf : Fair (KPipe.step nd buf limit) s a (KpAct.isK KAct.isHandler)) :
    Fair (Ux.step true) (fun n => (s n).kc.ux) (fun n => (a n).bind (KPipe.uAct (s n))) UAct.isHandler := by
  refine Fair.project (proj := fun t : KPipe => t.kc.ux) hf _ (fun n y hy hs => ⟨.k (.u y), by cases y <;> first | rfl | simp [UAct.isHandler] at hy, ?_⟩) (fun n x hx _ => ?_)
  · cases y with
    | handler i =>
      simp only [KPipe.step, KAct.plain, if_true, Option.isSome_map, Kc.step]
      exact hs
    | _ => simp [UAct.isHandler] at hy
  · cases x with
    | k y => cases y with
      | u b => cases b with
        | handler i => exact ⟨_, rfl, rfl⟩
        | _ => simp [KpAct.isK, KAct.isHandler] at hx
      | _ => simp [KpAct.isK, KAct.isHandler] at hx
    | _ => simp [KpAct.isK] at hx

theorem Ux.strand_some {u : Ux} {x y x' y' : Bool} (h : (u.step true (.strand x y)).isSome = true) : (u.step true (.strand x' y')).isSome = true := by
  simp only [Ux.step, Ux.strand] at h ⊢
  cases hp : u.pc <;> simp only [hp] at h ⊢ <;> (repeat' split) <;> simp_all

theorem KPipe.fair_strand (hf : Fair (KPipe.step nd buf limit) s a (KpAct.isK KAct.isStrand)) :
    Fair (Ux.step true) (fun n => (s n).kc.ux) (fun n => (a n).bind (KPipe.uAct (s n))) UAct.isStrand := by
  refine Fair.project (proj := fun t : KPipe => t.kc.ux) hf _ (fun n y hy hs => ⟨.k (.strand (some 0)), rfl, ?_⟩) (fun n x hx _ => ?_)
  · cases y with
    | strand x y =>
      simp only [KPipe.step, KAct.plain, if_true, Option.isSome_map, Kc.step]
      exact Ux.strand_some hs
    | _ => simp [UAct.isStrand] at hy
  · cases x with
    | k y => cases y with
      | strand segs => exact ⟨_, rfl, rfl⟩
      | _ => simp [KpAct.isK, KAct.isStrand] at hx
    | _ => simp [KpAct.isK] at hx

/-- The timer of congestion control, once set, stays set until it resumes sending. -/
theorem KPipe.step_timer {t t' : KPipe} {x : KpAct} {es : List KpEv} (hs : t.step nd buf limit x = some (t', es)) (h : t.kc.ux.ccTimer = true) (hx : x ≠ .k .timerCC) : t'.kc.ux.ccTimer = true := by
  have h1 := KPipe.step_ux hs
  cases hu : KPipe.uAct t x with
  | none => rw [hu] at h1; rw [h1.1]; exact h
  | some y =>
    rw [hu] at h1
    obtain ⟨h2, fs, h3, _⟩ := h1
    have hy : y ≠ .timerCC := by
      rintro rfl
      cases x with
      | k b => cases b with
        | u c =>
          simp only [KPipe.uAct, Option.some.injEq] at hu
          subst hu
          simp [KPipe.step, KAct.plain] at hs
        | timerCC => exact hx rfl
        | _ => simp [KPipe.uAct] at hu
      | _ => simp [KPipe.uAct] at hu
    cases y <;> simp only [Ux.step, Ux.strand, Ux.handler] at h3 <;> simp only [UAct.steady] at h2 <;> grind

theorem KPipe.fair_timer (he : Exec (KPipe.step nd buf limit) s a e) (hk : ∀ n, (s n).kc.kcp.isSome = true) (hacks : Often (fun n => (s n).kc.ccOk = true)) (hf : Fair (KPipe.step nd buf limit) s a (KpAct.isK (· == .timerCC))) :
    Fair (Ux.step true) (fun n => (s n).kc.ux) (fun n => (a n).bind (KPipe.uAct (s n))) (· == .timerCC) := by
  intro ho N
  apply Classical.byContradiction
  intro hno
  have hnot : ∀ n x, N ≤ n → a n = some x → x ≠ .k .timerCC := by
    rintro n x hn hx rfl
    exact hno ⟨n, hn, .timerCC, rfl, by simp only [hx, Option.bind_some, KPipe.uAct]⟩
  obtain ⟨m, hm, y, hy, hs⟩ := ho N
  cases eq_of_beq hy
  have h0 : (s m).kc.ux.ccTimer = true := by
    simp only [Ux.step] at hs
    split at hs
    · assumption
    · cases hs
  have hstay := he.stays (ok := fun _ x => x ≠ .k .timerCC) (n0 := m) (fun n x hn hx => hnot n x (by omega) hx) (J := fun _ => True) (fun _ _ => trivial) (fun t => t.kc.ux.ccTimer = true) h0
    (fun t t' x es _ _ hp hx hs => KPipe.step_timer hs hp hx)
  obtain ⟨n, hn, x, hx, hax⟩ := hf (fun k => by
    obtain ⟨n, hn, hc⟩ := hacks (max k m)
    refine ⟨n, by omega, .k .timerCC, rfl, ?_⟩
    have h1 := hk n
    simp only [Kc.ccOk] at hc
    simp only [KPipe.step, KAct.plain, if_true, Option.isSome_map, Kc.step]
    cases hkn : (s n).kc.kcp with
    | none => rw [hkn] at h1; cases h1
    | some b =>
      rw [hkn] at hc
      simp only [decide_eq_true_eq] at hc
      simp only [if_neg (show ¬ b > (s n).kc.max by omega), Option.isSome_map, Ux.step, hstay n (by omega), if_true, Option.isSome_some]) N
  cases x with
  | k b => simp only [KpAct.isK] at hx; cases eq_of_beq hx; exact hnot n _ hn hax rfl
  | _ => simp [KpAct.isK] at hx

/-- Unless do_send_msg passed the check, KCP's backlog does not grow and the next message is not fetched. -/
theorem KPipe.step_within {t t' : KPipe} {x : KpAct} {es : List KpEv} (hs : t.step nd buf limit x = some (t', es)) (hk : t.kc.kcp.isSome = true) (hx : ∀ n, x ≠ .k (.setMax n)) (hpc : t.kc.ux.pc ≠ .move)
    (hno : t.kc.ux.pc = .cc → x.isK KAct.isStrand = true → t.kc.ccOk = false) : t'.kc.ux.pc ≠ .move ∧ (t.kc.ccOk = true → t'.kc.ccOk = true) := by
  cases x with
  | rx b =>
    simp only [KPipe.step] at hs
    split at hs
    · obtain ⟨r, h1, h2⟩ := Option.map_eq_some_iff.mp hs; cases h2; exact ⟨hpc, id⟩
    · cases hs
  | net n =>
    simp only [KPipe.step] at hs
    (repeat' split at hs) <;> first | (cases hs; done) | (cases hs; exact ⟨hpc, id⟩) | (obtain ⟨r, h1, h2⟩ := Option.map_eq_some_iff.mp hs; cases h2; exact ⟨hpc, id⟩)
  | k b =>
    simp only [KPipe.step] at hs
    split at hs
    · next hp =>
      obtain ⟨⟨k', fs⟩, h1, h2⟩ := Option.map_eq_some_iff.mp hs
      cases h2
      obtain ⟨n, hn⟩ := Option.isSome_iff_exists.mp hk
      have hmax := Kc.step_max h1
      cases b with
      | u c =>
        have h3 : t.kc.ux.step true c = some (k'.ux, fs) ∧ k'.kcp = t.kc.kcp ∧ k'.max = t.kc.max := by
          cases c <;> simp only [Kc.step] at h1 <;> first
            | (cases h1; done)
            | (rw [Option.map_eq_some_iff] at h1; obtain ⟨⟨u, e⟩, h4, h5⟩ := h1; cases h5; exact ⟨h4, rfl, rfl⟩)
        obtain ⟨h3, h4, h5⟩ := h3
        refine ⟨?_, by simp only [Kc.ccOk, h4, h5]; exact id⟩
        intro hm
        by_cases hc : ∃ x y, c = .strand x y
        · obtain ⟨x, y, rfl⟩ := hc
          simp [Kc.step] at h1
        · exact hpc (Ux.pc_move h3 hm (fun x y h => hc ⟨x, y, h⟩))
      | strand segs =>
        have hg := Kc.step_given h1
        rcases hg with ⟨hg, _⟩ | ⟨_, _, _, _, _, h6, _⟩
        · simp only [Kc.step] at h1
          rw [Option.map_eq_some_iff] at h1
          obtain ⟨⟨u, ev⟩, h4, h5⟩ := h1
          have hu : k'.ux = u ∧ k'.kcp = t.kc.kcp ∧ k'.max = t.kc.max := by
            split at h5
            · cases h5; simp at hg
            · cases h5; exact ⟨rfl, rfl, rfl⟩
          refine ⟨?_, by simp only [Kc.ccOk, hu.2.1, hu.2.2]; exact id⟩
          simp only [hu.1]
          simp only [Ux.step, Ux.strand] at h4
          cases hpc' : t.kc.ux.pc with
          | cc =>
            have := hno hpc' rfl
            simp only [hpc', this] at h4
            cases h4
            simp
          | _ => simp only [hpc'] at h4 hpc <;> grind
        · exact absurd h6 hpc
      | update j =>
        simp only [Kc.step, hn] at h1
        cases h1
        refine ⟨hpc, ?_⟩
        simp only [Kc.ccOk, hn, decide_eq_true_eq]
        omega
      | timerCC =>
        simp only [Kc.step, hn] at h1
        split at h1
        · cases h1
        · rw [Option.map_eq_some_iff] at h1
          obtain ⟨⟨u, ev⟩, h4, h5⟩ := h1
          cases h5
          refine ⟨?_, by simp only [Kc.ccOk, hn]; exact id⟩
          simp only [Ux.step] at h4
          split at h4 <;> cases h4
          exact hpc
      | poll =>
        simp only [Kc.step, hn] at h1
        split at h1 <;> cases h1
        exact ⟨hpc, id⟩
      | create => simp [KAct.plain] at hp
      | close => simp [KAct.plain] at hp
      | setMax j => exact absurd rfl (hx j)
    · cases hs

/-- Congestion control, asked again and again, lets a message pass again and again. -/
theorem KPipe.passes (he : Exec (KPipe.step nd buf limit) s a e) (hk : ∀ n, (s n).kc.kcp.isSome = true) (hm : ∀ n j, a n ≠ some (.k (.setMax j))) (hacks : Often (fun n => (s n).kc.ccOk = true)) :
    Often (fun n => (s n).kc.ux.pc = .cc ∧ ∃ x y, (a n).bind (KPipe.uAct (s n)) = some (.strand x y)) →
    Often (fun n => (s n).kc.ux.pc = .cc ∧ ∃ y, (a n).bind (KPipe.uAct (s n)) = some (.strand true y)) := by
  intro ho N
  apply Classical.byContradiction
  intro hno
  -- do_send_msg is executed by the strand only
  have hst : ∀ n x y, (a n).bind (KPipe.uAct (s n)) = some (.strand x y) → (∃ z, a n = some z ∧ z.isK KAct.isStrand = true) ∧ x = (s n).kc.ccOk := by
    intro n x y h
    cases ha : a n with
    | none => simp [ha] at h
    | some z =>
      simp only [ha, Option.bind_some] at h
      obtain ⟨es, hs, _⟩ := he.next n z ha
      cases z with
      | k b => cases b with
        | u c =>
          simp only [KPipe.uAct, Option.some.injEq] at h
          subst h
          simp [KPipe.step, KAct.plain] at hs
        | strand segs =>
          simp only [KPipe.uAct, Option.some.injEq, UAct.strand.injEq] at h
          exact ⟨⟨_, rfl, rfl⟩, h.1.symm⟩
        | _ => simp [KPipe.uAct] at h
      | _ => simp [KPipe.uAct] at h
  have hfalse : ∀ n, N ≤ n → (s n).kc.ux.pc = .cc → ∀ x, a n = some x → x.isK KAct.isStrand = true → (s n).kc.ccOk = false := by
    intro n hn hpc x hx hs
    cases hc : (s n).kc.ccOk with
    | false => rfl
    | true =>
      refine absurd ⟨n, hn, hpc, (s n).kc.kcp.isSome, ?_⟩ hno
      cases x with
      | k b => cases b with
        | strand segs => simp only [hx, Option.bind_some, KPipe.uAct, hc]
        | _ => simp [KpAct.isK, KAct.isStrand] at hs
      | _ => simp [KpAct.isK] at hs
  obtain ⟨m1, hm1, hpc, _⟩ := ho N
  have hI : ∀ k, (s (m1 + k)).kc.ux.pc ≠ .move ∧ ∀ j, j ≤ k → (s (m1 + j)).kc.ccOk = true → (s (m1 + k)).kc.ccOk = true := by
    intro k
    induction k with
    | zero =>
      refine ⟨by simp [hpc], fun j hj h => ?_⟩
      cases Nat.le_zero.mp hj
      exact h
    | succ k ih =>
      rw [← Nat.add_assoc]
      have hone : (s (m1 + k + 1)).kc.ux.pc ≠ .move ∧ ((s (m1 + k)).kc.ccOk = true → (s (m1 + k + 1)).kc.ccOk = true) := by
        cases ha : a (m1 + k) with
        | none => rw [(he.idle _ ha).1]; exact ⟨ih.1, id⟩
        | some x =>
          obtain ⟨es, hs, _⟩ := he.next _ x ha
          exact KPipe.step_within hs (hk _) (fun j h => hm _ j (h ▸ ha)) ih.1 (fun h1 h2 => hfalse _ (by omega) h1 x ha h2)
      refine ⟨hone.1, fun j hj h => ?_⟩
      by_cases hjk : j ≤ k
      · exact hone.2 (ih.2 j hjk h)
      · have : j = k + 1 := by omega
        subst this
        rw [← Nat.add_assoc] at h
        exact h
  obtain ⟨m2, hm2, hok⟩ := hacks m1
  obtain ⟨m3, hm3, hpc3, x, y, hst3⟩ := ho m2
  obtain ⟨⟨z, hz, hzs⟩, rfl⟩ := hst m3 x y hst3
  obtain ⟨j, rfl⟩ := Nat.exists_eq_add_of_le hm2
  obtain ⟨k, rfl⟩ := Nat.exists_eq_add_of_le hm3
  have h1 := (hI (j + k)).2 j (by omega) hok
  rw [← Nat.add_assoc] at h1
  rw [hfalse _ (by omega) hpc3 z hz hzs] at h1
  cases h1

/-- C75, for ever: two KCP sockets, threads of the sender that go on sending for ever, a network that loses, delays and repeats datagrams, a receiver that may refuse messages for a while and whose receive
buffer may be full for a while. If none of the activities involved is put off for ever, and acknowledgements bring KCP's backlog within the limit again and again, then every message sent is accepted by the
receiver's on_msg_handle at some time, after all those sent before it, with the same content - up to the first message that does not fit into the receiver's buffer. Congestion control never stops sending
for good.

Missing: messages ikcp_send refuses (`C75_fails_refused`), those behind a message that is too long (`C75_fails_big`); the limit is not changed for ever. -/
theorem C75_no_starvation_partial (max : Nat) (nd : Bool) (buf limit : Nat) (hlim : 0 < limit) (as0 : List KpAct) (es0 : List KpEv) (s : Nat → KPipe) (a : Nat → Option KpAct) (e : Nat → List KpEv)
    (h0 : KPipe.Run nd buf limit (KPipe.init max) as0 (s 0) es0) (hn0 : ∀ x ∈ as0, x.NoRefusal) (he : Exec (KPipe.step nd buf limit) s a e) (hn : ∀ n x, a n = some x → x.NoRefusal)
    (hm : ∀ n j, a n ≠ some (.k (.setMax j))) (hf : KPipe.FairRun nd buf limit s a) (n : Nat) :
    ∃ m, (kpSent (es0 ++ e n)).takeWhile (kpFits buf) <+: kpHandled (es0 ++ e m) := by
  have hg0 := KPipe.run_good h0
  have hall : ∀ n, (s n).Good max buf limit (es0 ++ e n) ∧ ∀ g ∈ (s n).kc.given, g.2 = true :=
    he.holds (fun t es => t.Good max buf limit (es0 ++ es) ∧ ∀ g ∈ t.kc.given, g.2 = true) ⟨by simpa using hg0, KPipe.run_given h0 (by simp [KPipe.init, Kc.init]) hn0⟩ (fun n x es hx h hs =>
      ⟨by rw [← List.append_assoc]; exact KPipe.step_good h.1 hs, KPipe.run_given (KPipe.run_one hs) h.2 (by simpa using hn n x hx)⟩)
  have hg := fun n => (hall n).1
  have hgiven := fun n => (hall n).2
  have hmono : ∀ n m, n ≤ m → (s n).kc.took <+: (s m).kc.took ∧ (s n).arrived ≤ (s m).arrived := by
    intro n m hm
    obtain ⟨k, rfl⟩ := Nat.exists_eq_add_of_le hm
    clear hm
    induction k with
    | zero => exact ⟨List.prefix_refl _, Nat.le_refl _⟩
    | succ k ih =>
      cases hx : a (n + k) with
      | none => rw [← Nat.add_assoc, (he.idle _ hx).1]; exact ih
      | some x =>
        obtain ⟨es, hs, _⟩ := he.next _ x hx
        have h1 := KPipe.step_arrived hs
        rw [← Nat.add_assoc]
        exact ⟨ih.1.trans h1.2, by have := h1.1; split at this <;> omega⟩
  -- the sender: everything accepted is given to KCP
  have hux := KPipe.exec_ux he
  have husteady : ∀ n y, (a n).bind (KPipe.uAct (s n)) = some y → y.steady = true := by
    intro n y hy
    cases hx : a n with
    | none => simp [hx] at hy
    | some x =>
      simp only [hx, Option.bind_some] at hy
      obtain ⟨es, hs, _⟩ := he.next n x hx
      have := KPipe.step_ux hs
      rw [hy] at this
      exact this.1
  have hutrace := KPipe.trace_ux he
  have hk := fun n => (hg n).order.2
  have hgives : ∀ n, ∃ m, kpSent (es0 ++ e n) <+: (s m).kc.took := by
    intro n
    obtain ⟨kas, kes, hr, hp, _, _⟩ := hg0.kc
    obtain ⟨bs, hur, hfat⟩ := Kc.run_ux hr
    have hf0 : uFatalSinceUp bs = false := by
      unfold uFatalSinceUp
      rw [hfat]
      have : ∀ l : List KAct, (∀ a ∈ l, a.plain = true) → l.foldl kFatal false = false := by
        intro l
        induction l with
        | nil => intro _; rfl
        | cons a l ih =>
          intro hl
          rw [List.foldl_cons, KAct.plain_fatal (hl a (by simp))]
          exact ih (fun x hx => hl x (by simp [hx]))
      exact this kas hp
    have f7 : Fair (Ux.step true) (fun n => (s n).kc.ux) (fun n => (a n).bind (KPipe.uAct (s n))) UAct.isComplete := by
      intro ho
      obtain ⟨m, _, y, hy, hs⟩ := ho 0
      cases y with
      | complete i ok fatal => simp [Ux.step, (hg m).writes] at hs
      | _ => simp [UAct.isComplete] at hy
    obtain ⟨m, hpre⟩ := C24_no_starvation true bs kes (fun n => (s n).kc.ux) _ _ hur hg0.ready hf0 hg0.stopped hux husteady (KPipe.fair_u _ (.inl rfl) hf.loadReady) (KPipe.fair_u _ (.inr (.inl rfl)) hf.loadFlag)
      (KPipe.fair_u _ (.inr (.inr (.inl rfl))) hf.runPosted) (KPipe.fair_strand hf.strand) (KPipe.fair_timer he hk hf.acks hf.timerCC) (KPipe.fair_u _ (.inr (.inr (.inr rfl))) hf.resumeCheck) f7
      (KPipe.fair_handler hf.handler) (KPipe.passes he hk hm hf.acks) n
    have hok0 := Ux.run_ok hur
    have hord := Ux.fair_order hux ⟨hok0.1, by rw [← hf0]; exact hok0.2.1, hg0.ready, hg0.stopped⟩ husteady
    have hlist := uMonitor_all (hord (n + m)).2.2 (hord (n + m)).2.1
    have hgrow := hux.grow_le (show m ≤ n + m by omega)
    have hlen := hpre.length_le
    obtain ⟨l, hl⟩ := hgrow
    have t1 := congrArg List.length (hutrace n)
    have t2 := congrArg List.length (hutrace (n + m))
    simp only [List.length_map] at t1 t2
    have o0 := congrArg List.length (hg 0).order.1
    have o2 := (hg (n + m)).order.1
    refine ⟨n + m, ?_⟩
    rw [Kc.took_all (hgiven _)]
    have hsn : kpSent (es0 ++ e n) <+: kpSent (es0 ++ e (n + m)) := by
      obtain ⟨w, hw⟩ := he.grow n m
      rw [hw, ← List.append_assoc, kpSent_append (es0 ++ e n)]
      exact List.prefix_append _ _
    refine List.prefix_of_prefix_length_le hsn (by rw [← o2]; exact List.prefix_append _ _) ?_
    have o2' := congrArg List.length o2
    have hlist' := congrArg List.length hlist
    rw [hl] at hlist'
    simp only [Ux.ideal, kpSent_append, he.start, List.append_nil, uOutcomes_append, List.length_append, List.length_map] at hlist' o0 o2' hlen ⊢
    rw [← hl] at hlist'
    omega
  -- the receiver
  have hrx := KPipe.exec_rx he
  have hacc := KPipe.trace_rx he
  have hrok : ∀ n y, (a n).bind (KPipe.rxAct nd buf (s n)) = some y → y.healthy = true ∨ ∃ ms, y = .read ms ∧ (s n).rx.rd = .reading := by
    intro n y hy
    cases hx : a n with
    | none => simp [hx] at hy
    | some x =>
      simp only [hx, Option.bind_some] at hy
      obtain ⟨es, hs, _⟩ := he.next n x hx
      have := KPipe.step_rx hs
      rw [hy] at this
      exact this.1
  have hrok' : ∀ n y, (a n).bind (KPipe.rxAct nd buf (s n)) = some y → y ≠ .loseDispatch ∧ y ≠ .pop ∧ y ≠ .popAll ∧ y ≠ .reset := by
    intro n y hy
    rcases hrok n y hy with h | ⟨ms, rfl, _⟩
    · cases y <;> simp_all [RAct.healthy]
    · simp
  have hord := Rx.fair_order hrx ⟨(hg 0).rx_inv, (hg 0).dlost⟩ (by
    intro n y hy
    have := hrok' n y hy
    cases y <;> simp_all [RAct.steady])
  have hb := fun n => (hg n).bad
  generalize hre : partTrace (Rx.step limit) (fun n => (s n).rx) (fun n => (a n).bind (KPipe.rxAct nd buf (s n))) = re at hrx hacc hord
  have hlist : ∀ n, (s 0).rx.cur.toList ++ (s 0).rx.buf.items ++ rReceived (re n) = kpHandled (e n) ++ (s n).rx.cur.toList ++ (s n).rx.buf.items := by
    intro n
    have := rMonitor_plain (hord n).2.2 (hord n).2.1
    rw [hacc] at this
    simpa [Rx.ideal] using this
  have harr : ∀ n, kpHandled es0 ++ ((s 0).rx.cur.toList ++ (s 0).rx.buf.items ++ rReceived (re n)) = ((s n).kc.took.take (s n).arrived).takeWhile (kpFits buf) := by
    intro n
    obtain ⟨ras, res, r1, r2, r3, r4⟩ := (hg n).rx
    have h1 := C25_order limit ras (s n).rx res r1 r2
    rw [r3, r4, kpHandled_append] at h1
    rw [hlist, ← h1]
    simp
  obtain ⟨ras0, res0, hr0, _⟩ := (hg 0).rx
  have hhandled : ∀ n, ∃ m, (s 0).rx.cur.toList ++ (s 0).rx.buf.items ++ rReceived (re n) <+: kpHandled (e m) := by
    intro n
    have f1 := KPipe.fair_rx hb _ (by intro y hy; cases eq_of_beq hy; rfl) hf.loadDisp
    have f2 := KPipe.fair_rx hb _ (by intro y hy; cases eq_of_beq hy; rfl) hf.run
    have f3 := KPipe.fair_rx hb _ (by intro y hy; cases eq_of_beq hy; rfl) hf.begin
    have f4 := KPipe.fair_rx hb _ (by intro y hy; cases eq_of_beq hy; rfl) hf.dis
    have f5 := KPipe.fair_rx hb _ (by intro y hy; cases eq_of_beq hy; rfl) hf.dtimer
    have f6 := KPipe.fair_rx hb _ (by intro y hy; cases eq_of_beq hy; rfl) hf.accepts
    obtain ⟨m, hm⟩ := C26_no_starvation_partial limit ras0 res0 _ _ _ hr0 (hg 0).dlost hrx hrok' f1 f2 f3 f4 f5 f6 n
    exact ⟨m, by rw [← hacc m]; exact hm⟩
  -- it waits for the next datagram again and again
  have hreads : Often (fun n => (s n).rx.rd = .reading) := by
    intro N
    apply Classical.byContradiction
    intro hc
    have hnr : ∀ m, N ≤ m → (s m).rx.rd ≠ .reading := fun m hm h => hc ⟨m, hm, h⟩
    have hok : ∀ m y, N ≤ m → (a m).bind (KPipe.rxAct nd buf (s m)) = some y → y.healthy = true := by
      intro m y hm hy
      rcases hrok m y hy with h | ⟨ms, _, h⟩
      · exact h
      · exact absurd h (hnr m hm)
    have hstill : ∀ m, N ≤ m → rReceived (re m) = rReceived (re N) := by
      intro m hm
      obtain ⟨k, rfl⟩ := Nat.exists_eq_add_of_le hm
      clear hm
      induction k with
      | zero => rfl
      | succ k ih =>
        rw [← ih, ← Nat.add_assoc]
        cases hy : (a (N + k)).bind (KPipe.rxAct nd buf (s (N + k))) with
        | none => rw [(hrx.idle _ hy).2]
        | some y =>
          obtain ⟨fs, h1, h2⟩ := hrx.next _ y hy
          rw [h2, rReceived_append, Rx.no_received (hok _ y (by omega) hy) h1, List.append_nil]
    obtain ⟨m0, hm0⟩ := hhandled N
    have hempty : ∀ m, N + m0 ≤ m → (s m).rx.rd ≠ .off ∧ (s m).rx.available limit = true := by
      intro m hm
      refine ⟨(hg m).rd, ?_⟩
      have h1 := hm0.length_le
      obtain ⟨w, hw⟩ := he.grow_le (show m0 ≤ m by omega)
      have h3 := congrArg List.length (hlist m)
      rw [hstill m (by omega), hw, kpHandled_append] at h3
      simp only [List.length_append] at h1 h3
      have h4 : (s m).rx.buf.items = [] := List.length_eq_zero_iff.mp (by omega)
      have h5 := (hg m).rx_inv.exact
      rw [Q.Exact, h4] at h5
      simp only [sumSize, List.map_nil, List.sum_nil] at h5
      simp only [Rx.available, decide_eq_true_eq]
      omega
    have g1 := KPipe.fair_rx hb _ (by intro y hy; cases eq_of_beq hy; rfl) hf.loadDisp
    have g2 := KPipe.fair_rx hb _ (by intro y hy; cases eq_of_beq hy; rfl) hf.handled
    have g3 := KPipe.fair_rx hb _ (by intro y hy; cases eq_of_beq hy; rfl) hf.checkTimer
    have g4 := KPipe.fair_rx hb _ (by intro y hy; cases eq_of_beq hy; rfl) hf.resume
    obtain ⟨m1, hm1, hrd⟩ := Rx.reads hrx (fun m y hm => hok m y (by omega)) hempty g1 g2 g3 g4
    exact hnr m1 (by omega) hrd
  have hmore : ∀ n, (s n).arrived < (s n).kc.took.length → ∃ m, n ≤ m ∧ (s n).arrived < (s m).arrived := by
    intro n hlt
    apply Classical.byContradiction
    intro hc
    have hsame : ∀ m, n ≤ m → (s m).arrived = (s n).arrived := by
      intro m hm
      have h1 := (hmono n m hm).2
      have h2 : ¬ (s n).arrived < (s m).arrived := fun h => hc ⟨m, hm, h⟩
      omega
    obtain ⟨m2, hm2, x, hx, hax⟩ := hf.net (fun k => by
      obtain ⟨m, hm, hrd⟩ := hreads (Nat.max k n)
      have h1 : k ≤ Nat.max k n := Nat.le_max_left _ _
      have h2 : n ≤ Nat.max k n := Nat.le_max_right _ _
      refine ⟨m, by omega, .net 1, rfl, KPipe.net_can nd (hg m) hrd ?_⟩
      rw [hsame m (by omega)]
      exact Nat.lt_of_lt_of_le hlt (hmono n m (by omega)).1.length_le) n
    obtain ⟨es, hs, _⟩ := he.next m2 x hax
    have h1 := (KPipe.step_arrived hs).1
    rw [if_pos hx, hsame m2 hm2, hsame (m2 + 1) (by omega)] at h1
    omega
  obtain ⟨m1, hm1⟩ := hgives n
  obtain ⟨m2, hm2, ha2⟩ := reaches (f := fun k => (s (m1 + k)).arrived) (t := (s m1).kc.took.length) (by
    intro k hlt
    obtain ⟨m, h1, h2⟩ := hmore (m1 + k) (Nat.lt_of_lt_of_le hlt (hmono m1 _ (by omega)).1.length_le)
    exact ⟨m - m1, by omega, by rw [show m1 + (m - m1) = m by omega]; exact h2⟩) 0
  obtain ⟨m3, hm3⟩ := hhandled (m1 + m2)
  refine ⟨m3, ?_⟩
  have h1 : kpSent (es0 ++ e n) <+: (s (m1 + m2)).kc.took.take (s (m1 + m2)).arrived := by
    refine hm1.trans (List.prefix_of_prefix_length_le (hmono m1 (m1 + m2) (by omega)).1 (List.take_prefix _ _) ?_)
    rw [List.length_take]
    have := (hmono m1 (m1 + m2) (by omega)).1.length_le
    exact Nat.le_min.mpr ⟨ha2, this⟩
  refine (takeWhile_mono _ _ _ h1).trans ?_
  rw [← harr, kpHandled_append]
  exact (List.prefix_append_right_inj _).mpr hm3

end

/-! ### such executions exist -/

/-- Two messages, a limit of 0 segments: KCP's backlog stops sending after each message; the receive buffer is full after each message; on_msg_handle refuses the first one once. -/
def kpFairDemo : List KpAct :=
  [.k (.u (.send ⟨7, [1], none⟩ false true)), .k (.u (.send ⟨7, [2], none⟩ false true)), .k (.u .loadReady), .k (.u .loadReady), .k (.u .loadReady), .k (.u .loadFlag), .k (.u .loadFlag), .k (.u .loadFlag),
   .k (.u .runPosted), .k (.strand (some 1)), .k (.strand (some 1)), .k (.strand (some 1)), .k (.u (.handler 0)), .k (.strand (some 1)), .k .poll, .k (.u .runPosted), .k (.strand (some 1)), .k (.u .runPosted), .k (.strand (some 1)),
   .net 0, .rx .handled, .net 1, .rx .loadDisp, .rx .handled, .rx .checkTimer, .rx .run, .rx .begin, .rx (.ret false), .rx .dis, .rx .dtimer, .rx .checkTimer, .rx .resume, .rx .run, .rx .begin, .rx (.ret true), .rx .dis, .rx .dis, .rx .run,
   .k (.update 1), .k .timerCC, .k (.u .resumeCheck), .k (.u .loadReady), .k (.u .loadFlag), .k (.u .runPosted), .k (.strand (some 1)), .k (.strand (some 1)), .k (.strand (some 1)), .k (.u (.handler 0)), .k (.strand (some 1)),
   .net 1, .rx .loadDisp, .rx .handled, .rx .run, .rx .checkTimer, .rx .resume, .rx .begin, .rx (.ret true), .rx .dis, .rx .dis, .rx .run, .k (.update 1), .k .timerCC, .k (.u .resumeCheck)]

/-- What happens in it: the receiver gets both messages, and congestion control had to wait. -/
theorem kpFairDemo_trace : (play (KPipe.step false 3 1) (KPipe.init 0) kpFairDemo 63).2 = [.sent [1], .sent [2], .handled [1] false, .handled [1] true, .handled [2] true] := by decide +kernel

/-- Everything was delivered, nothing is left to do. -/
def kpFairEnd : KPipe :=
  { kc := { ux := { Ux.init with ready := true, wire := [⟨7, [1], none⟩, ⟨7, [2], none⟩] }, kcp := some 0, max := 0, given := [(⟨7, [1], none⟩, true), (⟨7, [2], none⟩, true)] },
    arrived := 2, taken := 2, rx := { Rx.init with rd := .reading }, bad := false }

theorem kpFairDemo_end : (play (KPipe.step false 3 1) (KPipe.init 0) kpFairDemo kpFairDemo.length).1 = kpFairEnd := by decide +kernel

theorem kpFairEnd_rx (y : RAct) (h : y.healthy = true) : kpFairEnd.step false 3 1 (.rx y) = none := by
  cases y <;> first | rfl | simp [RAct.healthy] at h

theorem kpFairEnd_k (y : KAct) (h : y == .u .loadReady ∨ y == .u .loadFlag ∨ y == .u .resumeCheck ∨ y == .u .runPosted ∨ y.isStrand = true ∨ y.isHandler = true ∨ y == .timerCC) : kpFairEnd.step false 3 1 (.k y) = none := by
  rcases h with h | h | h | h | h | h | h
  · cases eq_of_beq h; rfl
  · cases eq_of_beq h; rfl
  · cases eq_of_beq h; rfl
  · cases eq_of_beq h; rfl
  · cases y <;> first | rfl | simp [KAct.isStrand] at h
  · cases y with
    | u b => cases b <;> first | rfl | simp [KAct.isHandler] at h
    | _ => simp [KAct.isHandler] at h
  · cases eq_of_beq h; rfl

theorem kpFairEnd_net (n : Nat) (h : n ≠ 0) : kpFairEnd.step false 3 1 (.net n) = none := by
  simp only [KPipe.step]
  rw [if_pos]
  right; right
  show 2 < 2 + n
  omega

/-- The premises of `C75_no_starvation_partial` are met by `kpFairDemo`, followed by nothing; and the theorem gives the delivery of both messages. -/
theorem C75_fair_exists : ∃ (s : Nat → KPipe) (a : Nat → Option KpAct) (e : Nat → List KpEv), s 0 = KPipe.init 0 ∧ Exec (KPipe.step false 3 1) s a e ∧ (∀ n x, a n = some x → x.NoRefusal) ∧ (∀ n j, a n ≠ some (.k (.setMax j))) ∧
    KPipe.FairRun false 3 1 s a ∧ kpSent (e 2) = [[1], [2]] ∧ (∃ n, (s n).kc.ccOk = false) ∧ ∃ m, [[1], [2]] <+: kpHandled (e m) := by
  have hex := play_exec (step := KPipe.step false 3 1) (KPipe.init 0) kpFairDemo (by decide +kernel)
  have hfair : ∀ c : KpAct → Bool, (∀ x, c x = true → kpFairEnd.step false 3 1 x = none) →
      Fair (KPipe.step false 3 1) (fun n => (play (KPipe.step false 3 1) (KPipe.init 0) kpFairDemo n).1) (fun n => kpFairDemo[n]?) c :=
    fun c h => play_fair _ _ c (by rw [kpFairDemo_end]; exact h)
  have hk : ∀ c : KAct → Bool, (∀ y, c y = true → kpFairEnd.step false 3 1 (.k y) = none) → ∀ x, KpAct.isK c x = true → kpFairEnd.step false 3 1 x = none := by
    intro c h x hx
    cases x with
    | k y => exact h y hx
    | _ => simp [KpAct.isK] at hx
  have hr : ∀ c : RAct → Bool, (∀ y, c y = true → y.healthy = true) → ∀ x, KpAct.isRx c x = true → kpFairEnd.step false 3 1 x = none := by
    intro c h x hx
    cases x with
    | rx y => exact kpFairEnd_rx y (h y hx)
    | _ => simp [KpAct.isRx] at hx
  have hb : ∀ b : RAct, b.healthy = true → ∀ y, (y == b) = true → y.healthy = true := by
    intro b hb y hy
    cases eq_of_beq hy
    exact hb
  have hn : ∀ (n : Nat) (x : KpAct), kpFairDemo[n]? = some x → x.NoRefusal := by
    intro n x hx
    have h1 : ∀ x ∈ kpFairDemo, x ≠ .k (.strand none) := by decide
    have h2 := h1 x (List.mem_of_getElem? hx)
    cases x with
    | k y => cases y with
      | strand segs => cases segs with
        | none => exact absurd rfl h2
        | some n => trivial
      | _ => trivial
    | _ => trivial
  have hm : ∀ n j : Nat, kpFairDemo[n]? ≠ some (.k (.setMax j)) := by
    intro n j hx
    have h1 : ∀ x ∈ kpFairDemo, (match x with | .k (.setMax _) => false | _ => true) = true := by decide
    have h2 := h1 _ (List.mem_of_getElem? hx)
    cases h2
  have hf : KPipe.FairRun false 3 1 (fun n => (play (KPipe.step false 3 1) (KPipe.init 0) kpFairDemo n).1) (fun n => kpFairDemo[n]?) := {
    loadReady := hfair _ (hk _ (fun y hy => kpFairEnd_k y (.inl hy)))
    loadFlag := hfair _ (hk _ (fun y hy => kpFairEnd_k y (.inr (.inl hy))))
    resumeCheck := hfair _ (hk _ (fun y hy => kpFairEnd_k y (.inr (.inr (.inl hy)))))
    runPosted := hfair _ (hk _ (fun y hy => kpFairEnd_k y (.inr (.inr (.inr (.inl hy))))))
    strand := hfair _ (hk _ (fun y hy => kpFairEnd_k y (.inr (.inr (.inr (.inr (.inl hy)))))))
    handler := hfair _ (hk _ (fun y hy => kpFairEnd_k y (.inr (.inr (.inr (.inr (.inr (.inl hy))))))))
    timerCC := hfair _ (hk _ (fun y hy => kpFairEnd_k y (.inr (.inr (.inr (.inr (.inr (.inr hy))))))))
    net := hfair _ (fun x hx => by
      cases x with
      | net n => exact kpFairEnd_net n (by simpa [KpAct.isNet] using hx)
      | _ => simp [KpAct.isNet] at hx)
    acks := fun n => ⟨kpFairDemo.length + n, by omega, by
      simp only [play_end (step := KPipe.step false 3 1) (KPipe.init 0) kpFairDemo (kpFairDemo.length + n) (by omega), kpFairDemo_end]
      rfl⟩
    loadDisp := hfair _ (hr _ (hb _ rfl))
    handled := hfair _ (hr _ (hb _ rfl))
    checkTimer := hfair _ (hr _ (hb _ rfl))
    resume := hfair _ (hr _ (hb _ rfl))
    run := hfair _ (hr _ (hb _ rfl))
    begin := hfair _ (hr _ (hb _ rfl))
    dis := hfair _ (hr _ (hb _ rfl))
    dtimer := hfair _ (hr _ (hb _ rfl))
    accepts := hfair _ (hr _ (hb _ rfl)) }
  refine ⟨fun n => (play (KPipe.step false 3 1) (KPipe.init 0) kpFairDemo n).1, fun n => kpFairDemo[n]?, fun n => (play (KPipe.step false 3 1) (KPipe.init 0) kpFairDemo n).2, rfl, hex, hn, hm, hf, by decide +kernel, ⟨12, by decide +kernel⟩, ?_⟩
  obtain ⟨m, h⟩ := C75_no_starvation_partial 0 false 3 1 (by decide) [] [] (fun n => (play (KPipe.step false 3 1) (KPipe.init 0) kpFairDemo n).1) _ _ (.nil _) (by simp) hex hn hm hf 2
  refine ⟨m, ?_⟩
  have h2 : (kpSent ([] ++ (play (KPipe.step false 3 1) (KPipe.init 0) kpFairDemo 2).2)).takeWhile (kpFits 3) = [[1], [2]] := by decide
  rw [h2] at h
  simpa using h

end StAsio
