import Verif.Lemmas.UdpAddr
/-!
# C60, C61: UDP addresses

`Ua.Run c (Ua.init mode raw) as s es`: the actions `as` of user, network and kernel lead to `s`, `es` is what could be observed. `IdealUa` (Spec/UdpAddr.lean) is the ideal socket: messages come out with the addresses of their
senders, in the order in which the datagrams came in; datagrams go to the address given with the message, or to the peer the socket is connected to.
-/
set_option autoImplicit false
set_option linter.unusedSimpArgs false
namespace StAsio

/-! ### What the ideal socket guarantees -/

theorem ideal_delivered {size : Nat} {t t' : IdealUa} {es : List AEv} (h : IdealUa.monitor size t es = some t') : (aDelivered es ++ t'.expect).Sublist (t.expect ++ aGot size es) := by
  induction es generalizing t with
  | nil => simp only [IdealUa.monitor, Option.some.injEq] at h; subst h; simp [aDelivered, aGot]
  | cons e es ih =>
    simp only [IdealUa.monitor] at h
    split at h
    · cases h
    · rename_i t1 h1
      have := ih h
      cases e <;> simp only [IdealUa.event] at h1 <;> simp only [aDelivered, aGot]
      case lost keep =>
        simp only [Option.some.injEq] at h1; subst h1
        exact this.trans ((List.take_sublist _ _).append (List.Sublist.refl _))
      case delivered a m =>
        split at h1
        · cases h1
        · split at h1
          · rename_i x xs hx hxe
            simp only [Option.some.injEq] at h1; subst h1
            rw [hx, hxe]; simpa using this
          · cases h1
      case got src d gap =>
        simp only [Option.some.injEq] at h1; subst h1
        simpa using this
      all_goals
        (repeat' split at h1) <;> first
          | (cases h1; done)
          | (simp only [Option.some.injEq] at h1; subst h1; exact this)

theorem ideal_delivered_eq {size : Nat} {t t' : IdealUa} {es : List AEv} (h : IdealUa.monitor size t es = some t') (hl : ∀ n, AEv.lost n ∉ es) : aDelivered es ++ t'.expect = t.expect ++ aGot size es := by
  induction es generalizing t with
  | nil => simp only [IdealUa.monitor, Option.some.injEq] at h; subst h; simp [aDelivered, aGot]
  | cons e es ih =>
    simp only [IdealUa.monitor] at h
    split at h
    · cases h
    · rename_i t1 h1
      have := ih h (fun n hn => hl n (by simp [hn]))
      cases e <;> simp only [IdealUa.event] at h1 <;> simp only [aDelivered, aGot]
      case lost keep => exact absurd (List.mem_cons_self) (hl keep)
      case delivered a m =>
        split at h1
        · cases h1
        · split at h1
          · rename_i x xs hx hxe
            simp only [Option.some.injEq] at h1; subst h1
            rw [hx, hxe]; simpa using this
          · cases h1
      case got src d gap =>
        simp only [Option.some.injEq] at h1; subst h1
        simpa using this
      all_goals
        (repeat' split at h1) <;> first
          | (cases h1; done)
          | (simp only [Option.some.injEq] at h1; subst h1; exact this)

theorem ideal_handed {size : Nat} {t t' : IdealUa} {es : List AEv} (h : IdealUa.monitor size t es = some t') (hp : ∀ e ∈ es, APlainEv e) : aHanded es ++ t'.waiting = t.waiting ++ aAccepted es := by
  induction es generalizing t with
  | nil => simp only [IdealUa.monitor, Option.some.injEq] at h; subst h; simp [aHanded, aAccepted]
  | cons e es ih =>
    simp only [IdealUa.monitor] at h
    split at h
    · cases h
    · rename_i t1 h1
      have := ih h (fun e he => hp e (by simp [he]))
      have hpe := hp e (by simp)
      cases e <;> simp only [IdealUa.event] at h1 <;> simp only [aHanded, aAccepted] <;> simp only [APlainEv] at hpe
      case handed a m =>
        split at h1
        · split at h1
          · rename_i x xs hx _ hxe
            simp only [Option.some.injEq] at h1; subst h1
            rw [hx, hxe]; simpa using this
          · cases h1
        · cases h1
      case accepted a m prior =>
        subst hpe
        simp only [Option.some.injEq] at h1; subst h1
        simpa using this
      all_goals
        (repeat' split at h1) <;> first
          | (cases h1; done)
          | (simp only [Option.some.injEq] at h1; subst h1; exact this)

/-- The outcomes belong to the messages taken from the buffer, in order; `dst` is right if the socket was never connected. -/
def outcomesOf : List (UAddr × Bytes) → List (Option UAddr × Bytes) → Option (Option (UAddr × Bytes))
  | [], [] => some none
  | [x], [] => some (some x)
  | x :: xs, o :: os => if o.2 = x.2 ∧ (o.1 = none ∨ o.1 = some x.1) then outcomesOf xs os else none
  | _, _ => none

theorem ideal_outcomes {size : Nat} {t t' : IdealUa} {es : List AEv} (h : IdealUa.monitor size t es = some t') (ht : t.peer = none) (hn : ∀ p, AEv.started (some p) ∉ es) :
    outcomesOf (t.flight.toList ++ aHanded es) (aOutcomes es) = some t'.flight := by
  induction es generalizing t with
  | nil => simp only [IdealUa.monitor, Option.some.injEq] at h; subst h; cases hf : t.flight <;> simp [aHanded, aOutcomes, outcomesOf]
  | cons e es ih =>
    simp only [IdealUa.monitor] at h
    split at h
    · cases h
    · rename_i t1 h1
      have ih := fun hh => ih h hh (fun p hp => hn p (by simp [hp]))
      cases e <;> simp only [IdealUa.event] at h1 <;> simp only [aHanded, aOutcomes]
      case started conn =>
        simp only [Option.some.injEq] at h1; subst h1
        cases conn with
        | none => exact ih rfl
        | some p => exact absurd List.mem_cons_self (hn p)
      case handed a m =>
        split at h1
        · split at h1
          · rename_i x xs hx hf hxe
            simp only [Option.some.injEq] at h1; subst h1
            have := ih ht
            simp only [Option.toList, List.cons_append, List.nil_append] at this
            rw [hf]; simpa [hxe] using this
          · cases h1
        · cases h1
      case transmitted dst m =>
        split at h1
        · cases h1
        · split at h1
          · rename_i x hx hxe
            simp only [Option.some.injEq] at h1; subst h1
            have := ih ht
            rw [ht] at hxe
            simp only [Option.getD_none] at hxe
            simp only [hx, Option.toList, List.cons_append, List.nil_append, outcomesOf]
            rw [if_pos ⟨hxe.1, Or.inr (by rw [hxe.2])⟩]
            simpa using this
          · cases h1
      case sendFailed m =>
        split at h1
        · cases h1
        · split at h1
          · rename_i x hx hxe
            simp only [Option.some.injEq] at h1; subst h1
            have := ih ht
            simp only [hx, Option.toList, List.cons_append, List.nil_append, outcomesOf]
            rw [if_pos ⟨hxe, Or.inl trivial⟩]
            simpa using this
          · cases h1
      all_goals
        (repeat' split at h1) <;> first
          | (cases h1; done)
          | (simp only [Option.some.injEq] at h1; subst h1; exact ih ht)

/-! ### Helpers about runs -/

theorem Ua.exec_run {c : Cfg} {s s' : Ua} {as : List AAct} {es : List AEv} (h : Ua.exec c s as = some (s', es)) : Ua.Run c s as s' es := by
  suffices ∀ (s0 s : Ua) (bs : List AAct) (fs : List AEv), Ua.Run c s0 bs s fs → ∀ as es s', Ua.exec c s as = some (s', es) → Ua.Run c s0 (bs ++ as) s' (fs ++ es) from
    by simpa using this s s [] [] (Ua.Run.nil s) as es s' h
  intro s0 s bs fs hr as
  induction as generalizing s bs fs with
  | nil => intro es s' h; simp only [Ua.exec, Option.some.injEq, Prod.mk.injEq] at h; obtain ⟨rfl, rfl⟩ := h; simpa using hr
  | cons a as ih =>
    intro es s' h
    simp only [Ua.exec] at h
    cases h1 : Ua.step c s a with
    | none => simp [h1] at h
    | some r =>
      obtain ⟨s1, e1⟩ := r
      simp only [h1, Option.pure_def, Option.bind_eq_bind, Option.bind_some] at h
      cases h2 : Ua.exec c s1 as with
      | none => simp [h2] at h
      | some r2 =>
        obtain ⟨s2, e2⟩ := r2
        simp only [h2, Option.bind_some, Option.some.injEq, Prod.mk.injEq] at h
        obtain ⟨rfl, rfl⟩ := h
        have := ih s1 (bs ++ [a]) (fs ++ e1) (Ua.Run.snoc s0 s s1 bs a fs e1 hr h1) e2 s2 h2
        simpa using this

/-- Without connect mode the socket is never connected. -/
theorem Ua.no_started {c : Cfg} {mode : Bool} {raw : Bytes} {as : List AAct} {s : Ua} {es : List AEv} (hr : Ua.Run c (Ua.init mode raw) as s es) (hm : s.mode = false) (p : UAddr) : AEv.started (some p) ∉ es := by
  generalize h0 : Ua.init mode raw = s0 at hr
  induction hr with
  | nil => simp
  | snoc s1 s2 as a es es' _ hs ih =>
    have hm1 := Ua.mode_step hs hm
    have := ih hm1
    simp only [List.mem_append, not_or]
    refine ⟨this, ?_⟩
    cases a with
    | complete =>
      simp only [Ua.step] at hs
      split at hs
      · cases hs
      · split at hs
        · cases hs
        · rename_i src d kq hq
          cases hw : writeAt s1.raw 0 (d.take s1.raw.length) with
          | none => simp [hw] at hs
          | some raw' =>
            simp only [hw, Option.pure_def, Option.bind_eq_bind, Option.bind_some, Option.some.injEq, Prod.mk.injEq] at hs
            obtain ⟨rfl, rfl⟩ := hs
            simp
    | recvHandler full =>
      simp only [Ua.step] at hs
      split at hs
      · cases hs
      · simp only [Option.map_eq_some_iff, Ua.deliver] at hs
        obtain ⟨_, h1, hs⟩ := hs
        cases hs
        split at h1
        · cases h1; simp
        · simp only [Option.map_eq_some_iff] at h1
          obtain ⟨ms, _, rfl⟩ := h1
          simp
    | _ =>
      simp only [Ua.step, Ua.accept] at hs <;> (repeat' split at hs) <;> first
        | (cases hs; done)
        | (simp only [Option.some.injEq, Prod.mk.injEq] at hs
           obtain ⟨rfl, rfl⟩ := hs
           simp_all)

/-! ### C60: unconnected sockets -/

/-- C60. As long as connect mode is not switched on, whatever user, network and kernel do, what can be observed is what the ideal socket allows. -/
theorem C60_ideal {c : Cfg} {mode : Bool} {raw : Bytes} {as : List AAct} {s : Ua} {es : List AEv} (hraw : raw.length = c.bufSize) (hr : Ua.Run c (Ua.init mode raw) as s es) (hm : s.mode = false) :
    ∃ t, IdealUa.monitor c.bufSize IdealUa.empty es = some t ∧ t.waiting = s.sendq ∧ t.flight = s.cur := by
  obtain ⟨t, h1, h2⟩ := Ua.inv_run (k := true) hraw hr (fun _ => hm) (by simp)
  exact ⟨t, h1, h2.waiting, h2.flight⟩

/-- C60: every message handed over is the content of a datagram (cut off at the size of the buffer) with the address of its sender, in the order in which they came in, none of them twice. -/
theorem C60_senders {c : Cfg} {mode : Bool} {raw : Bytes} {as : List AAct} {s : Ua} {es : List AEv} (hraw : raw.length = c.bufSize) (hr : Ua.Run c (Ua.init mode raw) as s es) (hm : s.mode = false) :
    (aDelivered es).Sublist (aGot c.bufSize es) := by
  obtain ⟨t, h1, _⟩ := C60_ideal hraw hr hm
  have := ideal_delivered h1
  exact (List.sublist_append_left _ _).trans (by simpa [IdealUa.empty] using this)

/-- C60: and until the socket is closed none is left out: what was handed over, followed by what is in the buffer or still with the kernel, is what came in. -/
theorem C60_none_left_out {c : Cfg} {mode : Bool} {raw : Bytes} {as : List AAct} {s : Ua} {es : List AEv} (hraw : raw.length = c.bufSize) (hr : Ua.Run c (Ua.init mode raw) as s es) (hm : s.mode = false)
    (hc : ∀ n, AEv.lost n ∉ es) : aDelivered es ++ (s.pend ++ s.queue c) = aGot c.bufSize es := by
  obtain ⟨t, h1, h2⟩ := Ua.inv_run (k := true) hraw hr (fun _ => hm) (by simp)
  have := ideal_delivered_eq h1 hc
  rw [h2.expect] at this
  simpa [IdealUa.empty] using this

/-- C60: without priority and reset the messages are taken from the send buffer in the order in which they were accepted, with the addresses they were accepted with. -/
theorem C60_taken_in_order {c : Cfg} {mode : Bool} {raw : Bytes} {as : List AAct} {s : Ua} {es : List AEv} (hraw : raw.length = c.bufSize) (hr : Ua.Run c (Ua.init mode raw) as s es) (hm : s.mode = false)
    (hp : ∀ e ∈ es, APlainEv e) : aHanded es ++ s.sendq = aAccepted es := by
  obtain ⟨t, h1, h2, _⟩ := C60_ideal hraw hr hm
  have := ideal_handed h1 hp
  rw [h2] at this
  simpa [IdealUa.empty] using this

theorem outcomesOf_get {xs : List (UAddr × Bytes)} {os : List (Option UAddr × Bytes)} {r : Option (UAddr × Bytes)} (h : outcomesOf xs os = some r) {i : Nat} {o : Option UAddr × Bytes} (ho : os[i]? = some o) :
    ∃ a, xs[i]? = some (a, o.2) ∧ (o.1 = none ∨ o.1 = some a) := by
  induction os generalizing xs i with
  | nil => simp at ho
  | cons o' os ih =>
    cases xs with
    | nil => simp [outcomesOf] at h
    | cons x xs =>
      simp only [outcomesOf] at h
      split at h
      · rename_i hx
        cases i with
        | zero => simp only [List.getElem?_cons_zero, Option.some.injEq] at ho; subst ho; exact ⟨x.1, by simp [hx.1], hx.2⟩
        | succ i => simp only [List.getElem?_cons_succ] at ho ⊢; exact ih h ho
      · cases h

/-- C60: the i-th message taken from the send buffer is the i-th one to be sent or to fail: as one datagram with exactly its bytes, to the address given with it. -/
theorem C60_destination {c : Cfg} {mode : Bool} {raw : Bytes} {as : List AAct} {s : Ua} {es : List AEv} (hraw : raw.length = c.bufSize) (hr : Ua.Run c (Ua.init mode raw) as s es) (hm : s.mode = false)
    {i : Nat} {o : Option UAddr × Bytes} (ho : (aOutcomes es)[i]? = some o) : ∃ a, (aHanded es)[i]? = some (a, o.2) ∧ (o.1 = none ∨ o.1 = some a) := by
  obtain ⟨t, h1, _, _⟩ := C60_ideal hraw hr hm
  have := ideal_outcomes h1 rfl (Ua.no_started hr hm)
  exact outcomesOf_get (by simpa [IdealUa.empty] using this) ho

/-- What the user asked to send, in the order of the calls, with the address given or else the peer address in force (`p` at first). -/
def aRequests : UAddr → List AAct → List (UAddr × Bytes)
  | _, [] => []
  | _, .setPeer a :: as => aRequests a as
  | p, .send a m _ :: as => (if m = [] then [] else [(a, m)]) ++ aRequests p as
  | p, .sendDefault m _ :: as => (if m = [] then [] else [(p, m)]) ++ aRequests p as
  | p, _ :: as => aRequests p as

/-- The peer address in force after the calls. -/
def aPeer : UAddr → List AAct → UAddr
  | p, [] => p
  | _, .setPeer a :: as => aPeer a as
  | p, _ :: as => aPeer p as

theorem aRequests_append (p : UAddr) (as bs : List AAct) : aRequests p (as ++ bs) = aRequests p as ++ aRequests (aPeer p as) bs := by
  induction as generalizing p with
  | nil => rfl
  | cons a as ih => cases a <;> simp [aRequests, aPeer, ih]

theorem aPeer_append (p : UAddr) (as bs : List AAct) : aPeer p (as ++ bs) = aPeer (aPeer p as) bs := by
  induction as generalizing p with
  | nil => rfl
  | cons a as ih => cases a <;> simp [aPeer, ih]

theorem aAccepted_append (es fs : List AEv) : aAccepted (es ++ fs) = aAccepted es ++ aAccepted fs := by
  induction es with
  | nil => rfl
  | cons e es ih => cases e <;> simp [aAccepted, ih]

/-- C60: messages are accepted with the address the caller gave, those without one with the peer address set last (also in connect mode). -/
theorem C60_addresses {c : Cfg} {mode : Bool} {raw : Bytes} {as : List AAct} {s : Ua} {es : List AEv} (hr : Ua.Run c (Ua.init mode raw) as s es) : aAccepted es = aRequests ⟨0, 0⟩ as := by
  suffices aAccepted es = aRequests ⟨0, 0⟩ as ∧ s.peer = aPeer ⟨0, 0⟩ as from this.1
  generalize h0 : Ua.init mode raw = s0 at hr
  induction hr with
  | nil => subst h0; exact ⟨rfl, rfl⟩
  | snoc s1 s2 as a es es' _ hs ih =>
    obtain ⟨i1, i2⟩ := ih
    rw [aAccepted_append, aRequests_append, aPeer_append, i1, ← i2]
    have hd : ∀ n fs, s1.deliver c n = some fs → aAccepted fs = [] := by
      intro n fs hf
      unfold Ua.deliver at hf
      split at hf
      · cases hf; rfl
      · simp only [Option.map_eq_some_iff] at hf
        obtain ⟨ms, hms, rfl⟩ := hf
        clear hms
        induction ms with
        | nil => rfl
        | cons m ms ih => simpa [aAccepted] using ih
    cases a with
    | recvHandler full =>
      simp only [Ua.step] at hs
      split at hs
      · cases hs
      · simp only [Option.map_eq_some_iff] at hs
        obtain ⟨fs, hf, hs⟩ := hs
        cases hs
        exact ⟨by rw [hd _ _ hf]; rfl, rfl⟩
    | complete =>
      simp only [Ua.step] at hs
      split at hs
      · cases hs
      · split at hs
        · cases hs
        · simp only [Option.bind_eq_bind] at hs
          cases hw : writeAt s1.raw 0 (List.take s1.raw.length ‹Bytes›) with
          | none => simp [hw] at hs
          | some r => simp [hw] at hs; obtain ⟨rfl, rfl⟩ := hs; exact ⟨rfl, rfl⟩
    | _ =>
      simp only [Ua.step, Ua.accept] at hs
      repeat' split at hs
      all_goals first | (cases hs; done) | (cases hs; simp_all [aAccepted, aRequests, aPeer])

/-- Two datagrams of different senders, an empty one in between; three messages to different addresses, the last of them with priority, one fails. -/
def uaDemo : List AAct :=
  [.setPeer ⟨9, 9⟩, .send ⟨5, 5⟩ [1] false, .startBind true, .startRest true, .arrive ⟨1, 1⟩ [7, 7, 7, 7, 7], .arrive ⟨2, 2⟩ [], .complete, .arrive ⟨3, 3⟩ [8], .setPeer ⟨6, 6⟩, .recvHandler false, .complete, .recvHandler true, .take,
   .sendDefault [2, 2] false, .sendDone true, .resume, .complete, .recvHandler false, .send ⟨4, 4⟩ [3] true, .take, .sendDone false, .take, .sendDone true]

example : ∃ s es, Ua.Run { huge := false, bufSize := 3 } (Ua.init false [0, 0, 0]) uaDemo s es ∧ s.mode = false ∧ aDelivered es = [(⟨1, 1⟩, [7, 7, 7]), (⟨3, 3⟩, [8])] ∧
    aOutcomes es = [(some ⟨5, 5⟩, [1]), (none, [3]), (some ⟨6, 6⟩, [2, 2])] ∧ (∀ n, AEv.lost n ∉ es) :=
  ⟨_, _, Ua.exec_run rfl, by decide +kernel, by decide +kernel, by decide +kernel, by simp⟩

/-! ### Reception goes on, until a receive fails -/

/-- In every state reached: a started socket whose kernel socket is open is receiving (a receive is outstanding, was completed or is suspended because the receive buffer is full), unless a receive failed. -/
theorem C60_keeps_receiving {c : Cfg} {mode : Bool} {raw : Bytes} {as : List AAct} {s : Ua} {es : List AEv} (hr : Ua.Run c (Ua.init mode raw) as s es) (hn : AAct.recvError ∉ as) (hl : s.live = true) (ho : s.isOpen = true) :
    s.out = true ∨ s.done ≠ none ∨ s.susp = true := by
  suffices (s.starting = true → s.live = false) ∧ (s.live = true → s.isOpen = true → s.out = true ∨ s.done ≠ none ∨ s.susp = true) from this.2 hl ho
  clear hl ho
  generalize h0 : Ua.init mode raw = s0 at hr
  induction hr with
  | nil => subst h0; simp [Ua.init]
  | snoc s1 s2 as a es es' _ hs ih =>
    simp only [List.mem_append, not_or] at hn
    have ih := ih hn.1
    cases a with
    | recvError => simp at hn
    | complete =>
      simp only [Ua.step] at hs
      split at hs
      · cases hs
      · split at hs
        · cases hs
        · rename_i src d kq hq
          cases hw : writeAt s1.raw 0 (d.take s1.raw.length) with
          | none => simp [hw] at hs
          | some raw' =>
            simp only [hw, Option.pure_def, Option.bind_eq_bind, Option.bind_some, Option.some.injEq, Prod.mk.injEq] at hs
            obtain ⟨rfl, rfl⟩ := hs
            grind
    | recvHandler full =>
      simp only [Ua.step] at hs
      split at hs
      · cases hs
      · simp only [Option.map_eq_some_iff] at hs
        obtain ⟨_, h1, hs⟩ := hs
        cases hs
        cases full <;> simp_all
    | _ =>
      simp only [Ua.step, Ua.accept] at hs <;> (repeat' split at hs) <;> first
        | (cases hs; done)
        | (simp only [Option.some.injEq, Prod.mk.injEq] at hs
           obtain ⟨rfl, rfl⟩ := hs
           grind)

/-- A socket that is started, but not receiving, hands over nothing any more, whatever happens, until it is started again. -/
theorem C60_error_is_final {c : Cfg} {s s' : Ua} {as : List AAct} {es : List AEv} (h : s.out = false ∧ s.done = none ∧ s.susp = false) (hr : Ua.Run c s as s' es) (hn : ∀ ok, AAct.startRest ok ∉ as) :
    aDelivered es = [] ∧ s'.out = false ∧ s'.done = none ∧ s'.susp = false := by
  have app : ∀ es fs, aDelivered (es ++ fs) = aDelivered es ++ aDelivered fs := by
    intro es fs
    induction es with
    | nil => rfl
    | cons e es ih => cases e <;> simp [aDelivered, ih]
  induction hr with
  | nil => exact ⟨rfl, h⟩
  | snoc s1 s2 as a es es' _ hs ih =>
    simp only [List.mem_append, not_or] at hn
    obtain ⟨i1, i2, i3, i4⟩ := ih (fun ok => (hn ok).1)
    rw [app, i1]
    cases a with
    | startRest ok => exact absurd List.mem_cons_self ((hn ok).2)
    | complete => simp [Ua.step, i2] at hs
    | recvHandler full => simp [Ua.step, i3] at hs
    | _ =>
      simp only [Ua.step, Ua.accept] at hs <;> (repeat' split at hs) <;> first
        | (cases hs; done)
        | (simp only [Option.some.injEq, Prod.mk.injEq] at hs
           obtain ⟨rfl, rfl⟩ := hs
           simp_all [aDelivered])

/-- Such a state is reached by one failed receive (on Linux, for example, because the peer of a connected socket was not there and an ICMP message came back): the socket stays started, its kernel socket open, messages arrive, and none of them
is ever handed over. -/
theorem C60_fails_after_error : ∃ (as : List AAct) (s : Ua) (es : List AEv), Ua.Run { huge := false, bufSize := 3 } (Ua.init true [0, 0, 0]) as s es ∧ s.live = true ∧ s.isOpen = true ∧ s.kq ≠ [] ∧
    s.out = false ∧ s.done = none ∧ s.susp = false :=
  ⟨[.setPeer ⟨1, 1⟩, .startBind true, .startRest true, .send ⟨1, 1⟩ [1] false, .take, .sendDone true, .recvError, .arrive ⟨1, 1⟩ [2]], _, _, Ua.exec_run rfl, by decide +kernel⟩

/-! ### C61: connect mode -/

/-- C61 (partial: the peer address is not changed while the socket is started, and no datagram arrives between bind and connect). In connect mode, too, the socket behaves like the ideal one: messages come with the addresses of their senders,
and datagrams go to the peer the socket is connected to. -/
theorem C61_ideal_partial {c : Cfg} {mode : Bool} {raw : Bytes} {as : List AAct} {s : Ua} {es : List AEv} (hraw : raw.length = c.bufSize) (hr : Ua.Run c (Ua.init mode raw) as s es) (hf : ∀ e ∈ es, AFixed e) :
    ∃ t, IdealUa.monitor c.bufSize IdealUa.empty es = some t ∧ t.waiting = s.sendq ∧ t.flight = s.cur := by
  obtain ⟨t, h1, h2⟩ := Ua.inv_run (k := false) hraw hr (by simp) (fun _ => hf)
  exact ⟨t, h1, h2.waiting, h2.flight⟩

theorem C61_senders_partial {c : Cfg} {mode : Bool} {raw : Bytes} {as : List AAct} {s : Ua} {es : List AEv} (hraw : raw.length = c.bufSize) (hr : Ua.Run c (Ua.init mode raw) as s es) (hf : ∀ e ∈ es, AFixed e) :
    (aDelivered es).Sublist (aGot c.bufSize es) := by
  obtain ⟨t, h1, _⟩ := C61_ideal_partial hraw hr hf
  have := ideal_delivered h1
  exact (List.sublist_append_left _ _).trans (by simpa [IdealUa.empty] using this)

theorem peerMon_append (p : Option UAddr) (es fs : List AEv) : peerMon p (es ++ fs) = (peerMon p es).bind (fun q => peerMon q fs) := by
  induction es generalizing p with
  | nil => rfl
  | cons e es ih =>
    cases e <;> simp only [List.cons_append, peerMon, ih]
    split <;> simp

/-- C61 (partial, as above): while the socket is connected, everything handed over comes from its peer. -/
theorem C61_only_peer_partial {c : Cfg} {mode : Bool} {raw : Bytes} {as : List AAct} {s : Ua} {es : List AEv} (hraw : raw.length = c.bufSize) (hr : Ua.Run c (Ua.init mode raw) as s es) (hf : ∀ e ∈ es, AFixed e) :
    peerMon none es ≠ none := by
  suffices ∀ t, IdealUa.monitor c.bufSize IdealUa.empty es = some t → peerMon none es = some t.peer by
    obtain ⟨t, h1, _⟩ := C61_ideal_partial hraw hr hf
    simp [this t h1]
  generalize h0 : Ua.init mode raw = s0 at hr
  induction hr with
  | nil => intro t h; simp only [IdealUa.monitor, Option.some.injEq] at h; subst h; rfl
  | snoc s1 s2 as a es es' hr hs ih =>
    intro t ht
    subst h0
    have hf1 : ∀ e ∈ es, AFixed e := fun e he => hf e (by simp [he])
    obtain ⟨t1, h1, h2⟩ := Ua.inv_run (k := false) hraw hr (by simp) (fun _ => hf1)
    have ih := ih hf1 t1 h1
    rw [IdealUa.monitor_append, h1] at ht
    simp only [Option.bind_some] at ht
    rw [peerMon_append, ih]
    simp only [Option.bind_some]
    cases a with
    | complete =>
      simp only [Ua.step] at hs
      split at hs
      · cases hs
      · split at hs
        · cases hs
        · rename_i src d kq hq
          cases hw : writeAt s1.raw 0 (d.take s1.raw.length) with
          | none => simp [hw] at hs
          | some raw' =>
            simp only [hw, Option.pure_def, Option.bind_eq_bind, Option.bind_some, Option.some.injEq, Prod.mk.injEq] at hs
            obtain ⟨rfl, rfl⟩ := hs
            simp only [IdealUa.monitor, Option.some.injEq] at ht; subst ht; rfl
    | recvHandler full =>
      simp only [Ua.step] at hs
      split at hs
      · cases hs
      · rename_i n hd
        have hl := h2.doneLive (by simp [hd])
        have hp := h2.peer hl
        have hs1 := h2.same rfl hl
        have hpp : t1.peer = none ∨ t1.peer = some (if s1.connected then s1.peer else s1.temp) := by
          rw [hp]
          by_cases hc : s1.connected = true
          · simp [hc, (hs1 hc).1]
          · simp [hc]
        simp only [Option.map_eq_some_iff, Ua.deliver] at hs
        obtain ⟨_, h3, hs⟩ := hs
        cases hs
        split at h3
        · cases h3; simp only [IdealUa.monitor, Option.some.injEq] at ht; subst ht; rfl
        · simp only [Option.map_eq_some_iff] at h3
          obtain ⟨ms, hms, rfl⟩ := h3
          clear hf hr ih h1 hms
          revert ht
          have hpp2 := hp
          clear hp h2
          generalize (if s1.connected = true then s1.peer else s1.temp) = a at hpp
          clear hpp2
          induction ms generalizing t1 with
          | nil => intro ht; simp only [List.map_nil, IdealUa.monitor, Option.some.injEq] at ht; subst ht; rfl
          | cons m ms ih2 =>
            intro ht
            simp only [List.map_cons, IdealUa.monitor, IdealUa.event] at ht
            split at ht
            · cases ht
            · rename_i t2 h4
              split at h4
              · cases h4
              · split at h4
                · rename_i x xs _ _
                  simp only [Option.some.injEq] at h4; subst h4
                  simp only [List.map_cons, peerMon]
                  rw [if_pos hpp]
                  exact ih2 { t1 with expect := xs } hpp ht
                · cases h4
    | _ =>
      simp only [Ua.step, Ua.accept] at hs <;> (repeat' split at hs) <;> first
        | (cases hs; done)
        | (simp only [Option.some.injEq, Prod.mk.injEq] at hs
           obtain ⟨rfl, rfl⟩ := hs
           simp only [IdealUa.monitor, IdealUa.event] at ht
           (repeat' split at ht) <;> first
             | (cases ht; done)
             | (simp only [Option.some.injEq] at ht; subst ht; rfl)
             | grind [peerMon])

/-- The hypotheses are met: a socket in connect mode; a stranger's datagram is not let in; a message given another address goes to the peer nevertheless. -/
theorem C61_ignores_address : ∃ (as : List AAct) (s : Ua) (es : List AEv), Ua.Run { huge := false, bufSize := 3 } (Ua.init true [0, 0, 0]) as s es ∧ (∀ e ∈ es, AFixed e) ∧ aDelivered es = [(⟨1, 1⟩, [7])] ∧
    aHanded es = [(⟨2, 2⟩, [5])] ∧ aOutcomes es = [(some ⟨1, 1⟩, [5])] :=
  ⟨[.setPeer ⟨1, 1⟩, .startBind true, .startRest true, .arrive ⟨2, 2⟩ [6], .arrive ⟨1, 1⟩ [7], .complete, .recvHandler false, .send ⟨2, 2⟩ [5] false, .take, .sendDone true], _, _, Ua.exec_run rfl, by decide +kernel⟩

/-- C61 is false if the peer address is changed while the socket is started: the messages of the old peer, to which the kernel socket is still connected, are handed over with the new address. -/
theorem C61_fails_peer_changed : ∃ (as : List AAct) (s : Ua) (es : List AEv), Ua.Run { huge := false, bufSize := 3 } (Ua.init true [0, 0, 0]) as s es ∧ aGot 3 es = [(⟨1, 1⟩, [7])] ∧ aDelivered es = [(⟨2, 2⟩, [7])] :=
  ⟨[.setPeer ⟨1, 1⟩, .startBind true, .startRest true, .setPeer ⟨2, 2⟩, .arrive ⟨1, 1⟩ [7], .complete, .recvHandler false], _, _, Ua.exec_run rfl, by decide +kernel⟩

/-- C61 is false if a datagram arrives between bind and connect: it is handed over with the address of the peer, whoever sent it. -/
theorem C61_fails_gap : ∃ (as : List AAct) (s : Ua) (es : List AEv), Ua.Run { huge := false, bufSize := 3 } (Ua.init true [0, 0, 0]) as s es ∧ aGot 3 es = [(⟨2, 2⟩, [7])] ∧ aDelivered es = [(⟨1, 1⟩, [7])] :=
  ⟨[.setPeer ⟨1, 1⟩, .startBind true, .arrive ⟨2, 2⟩ [7], .startRest true, .complete, .recvHandler false], _, _, Ua.exec_run rfl, by decide +kernel⟩

/-- If connecting fails, start() succeeds nevertheless, and the socket works unconnected: everybody's datagrams are handed over. -/
theorem C61_fails_connect : ∃ (as : List AAct) (s : Ua) (es : List AEv), Ua.Run { huge := false, bufSize := 3 } (Ua.init true [0, 0, 0]) as s es ∧ s.mode = true ∧ s.live = true ∧ s.peer = ⟨1, 1⟩ ∧ aDelivered es = [(⟨2, 2⟩, [7])] :=
  ⟨[.setPeer ⟨1, 1⟩, .startBind true, .startRest false, .arrive ⟨2, 2⟩ [7], .complete, .recvHandler false], _, _, Ua.exec_run rfl, by decide +kernel⟩

structure Ua.Con (s : Ua) : Prop where
  live : s.live = true → s.connected = s.kpeer.isSome
  starting : s.starting = true → s.kpeer = none ∧ s.live = false
  mode : s.connected = true → s.mode = true

theorem Ua.con_step {c : Cfg} {s s' : Ua} {a : AAct} {es : List AEv} (h : s.Con) (hs : s.step c a = some (s', es)) : s'.Con := by
  obtain ⟨h1, h2, h3⟩ := h
  cases a with
  | complete =>
    simp only [Ua.step] at hs
    split at hs
    · cases hs
    · split at hs
      · cases hs
      · rename_i src d kq hq
        cases hw : writeAt s.raw 0 (d.take s.raw.length) with
        | none => simp [hw] at hs
        | some raw' =>
          simp only [hw, Option.pure_def, Option.bind_eq_bind, Option.bind_some, Option.some.injEq, Prod.mk.injEq] at hs
          obtain ⟨rfl, rfl⟩ := hs
          exact ⟨h1, h2, h3⟩
  | recvHandler full =>
    simp only [Ua.step] at hs
    split at hs
    · cases hs
    · simp only [Option.map_eq_some_iff] at hs
      obtain ⟨_, _, hs⟩ := hs
      cases hs
      exact ⟨h1, h2, h3⟩
  | _ =>
    simp only [Ua.step, Ua.accept] at hs <;> (repeat' split at hs) <;> first
      | (cases hs; done)
      | (simp only [Option.some.injEq, Prod.mk.injEq] at hs
         obtain ⟨rfl, rfl⟩ := hs
         constructor <;> simp_all)

/-- C61: while the socket is in use, connected() tells whether the kernel only lets a peer's datagrams through; after reset() it says no. -/
theorem C61_connected {c : Cfg} {mode : Bool} {raw : Bytes} {as : List AAct} {s : Ua} {es : List AEv} (hr : Ua.Run c (Ua.init mode raw) as s es) :
    (s.live = true → (s.connected = true ↔ ∃ p, s.kpeer = some p)) ∧ ∀ s' fs, s.step c .reset = some (s', fs) → s'.connected = false := by
  refine ⟨fun hl => ?_, fun s' fs h => ?_⟩
  · have : s.Con := by
      clear hl
      generalize h0 : Ua.init mode raw = s0 at hr
      induction hr with
      | nil => subst h0; constructor <;> simp [Ua.init]
      | snoc s1 s2 as a es es' _ hs ih => exact Ua.con_step ih hs
    rw [this.live hl, Option.isSome_iff_exists]
  · simp only [Ua.step] at h
    split at h
    · cases h
    · cases h; rfl

/-- After closing and before reset(), connected() still says yes. -/
theorem C61_fails_connected : ∃ (as : List AAct) (s : Ua) (es : List AEv), Ua.Run { huge := false, bufSize := 3 } (Ua.init true [0, 0, 0]) as s es ∧ s.isOpen = false ∧ s.live = false ∧ s.connected = true :=
  ⟨[.setPeer ⟨1, 1⟩, .startBind true, .startRest true, .close, .recvError, .closed], _, _, Ua.exec_run rfl, by decide +kernel⟩

end StAsio
