import Verif.Lemmas.Notify
import Verif.Lemmas.UdpSend2
set_option autoImplicit false
namespace StAsio

/-- Messages given to on_send_error. -/
def uFailed : List UEv → List UMsg
  | [] => []
  | .sendError m :: es => m :: uFailed es
  | _ :: es => uFailed es

/-- Messages popped, discarded, cleared. -/
def uRemoved : List UEv → List UMsg
  | [] => []
  | .popped ms :: es => ms ++ uRemoved es
  | .discarded ms :: es => ms ++ uRemoved es
  | .cleared ms :: es => ms ++ uRemoved es
  | _ :: es => uRemoved es

theorem uFailed_append (a b : List UEv) : uFailed (a ++ b) = uFailed a ++ uFailed b := by
  induction a with
  | nil => rfl
  | cons e a ih => cases e <;> simp [uFailed, ih]

theorem uRemoved_append (a b : List UEv) : uRemoved (a ++ b) = uRemoved a ++ uRemoved b := by
  induction a with
  | nil => rfl
  | cons e a ih => cases e <;> simp [uRemoved, ih]

theorem nuUx_view (es : List UEv) : ntAccepted (es.filterMap nuUxEv) = (uAccepted es).map UMsg.data ∧ ntWritten (es.filterMap nuUxEv) = [] ∧
    ntNotified (es.filterMap nuUxEv) = [] ∧ ntFailed (es.filterMap nuUxEv) = (uFailed es).map UMsg.data ∧
    ntRemoved (es.filterMap nuUxEv) = (uRemoved es).map UMsg.data ∧ (∀ b, ntOpen b (es.filterMap nuUxEv) = b) := by
  induction es with
  | nil => simp [ntAccepted, ntWritten, ntNotified, ntFailed, ntRemoved, ntOpen, uAccepted, uFailed, uRemoved]
  | cons e es ih =>
    obtain ⟨h1, h2, h3, h4, h5, h6⟩ := ih
    cases e <;> simp [List.filterMap_cons, nuUxEv, ntAccepted, ntWritten, ntNotified, ntFailed, ntRemoved, ntOpen, uAccepted, uFailed, uRemoved, h1, h2, h3, h4, h5, h6]

theorem nuUx_not (es : List UEv) : (∀ m, NtEv.onAll m ∉ es.filterMap nuUxEv) ∧ (∀ m l, NtEv.onSend m l ∉ es.filterMap nuUxEv) := by
  constructor
  · intro m h
    obtain ⟨e, _, he⟩ := List.mem_filterMap.mp h
    cases e <;> simp [nuUxEv] at he
  · intro m l h
    obtain ⟨e, _, he⟩ := List.mem_filterMap.mp h
    cases e <;> simp [nuUxEv] at he

/-- The ideal sender loses nothing. -/
theorem uMonitor_account {t t' : IdealUx} {es : List UEv} (h : t.monitor es = some t') (x : UMsg) :
    t.waiting.count x + t.flight.toList.count x + (uAccepted es).count x =
      (uSent es).count x + (uFailed es).count x + (uRemoved es).count x + t'.waiting.count x + t'.flight.toList.count x := by
  induction es generalizing t with
  | nil => simp [IdealUx.monitor] at h; subst h; simp [uAccepted, uSent, uFailed, uRemoved]
  | cons e es ih =>
    simp only [IdealUx.monitor] at h
    cases he : t.event e with
    | none => rw [he] at h; cases h
    | some t1 =>
      rw [he] at h
      have ih := ih h
      have strip : ∀ ms, (uStrip ms t.waiting).map (fun w => { t with waiting := w }) = some t1 →
          t.waiting.count x = ms.count x + t1.waiting.count x ∧ t1.flight = t.flight := by
        intro ms hm
        cases hs : uStrip ms t.waiting with
        | none => rw [hs] at hm; cases hm
        | some w => rw [hs] at hm; cases hm; rw [uStrip_some hs]; simp
      cases e with
      | accept m prior =>
        simp only [IdealUx.event, Option.some.injEq] at he
        subst he
        simp only [uAccepted, uSent, uFailed, uRemoved, List.count_cons] at ih ⊢
        split at ih <;> simp only [List.count_append, List.count_cons, List.count_nil] at ih <;> omega
      | handOff m =>
        simp only [IdealUx.event] at he
        split at he
        · next hc =>
          cases hs : uStrip [m] t.waiting with
          | none => rw [hs] at he; cases he
          | some w =>
            rw [hs] at he; cases he
            rw [uStrip_some hs, hc]
            simp only [uAccepted, uSent, uFailed, uRemoved, List.count_append, Option.toList_none, Option.toList_some, List.count_nil] at ih ⊢
            omega
        · cases he
      | sent m =>
        simp only [IdealUx.event] at he
        split at he
        · next hc =>
          cases he
          rw [hc]
          simp only [uAccepted, uSent, uFailed, uRemoved, List.count_cons, Option.toList_none, Option.toList_some, List.count_nil] at ih ⊢
          omega
        · cases he
      | sendError m =>
        simp only [IdealUx.event] at he
        split at he
        · next hc =>
          cases he
          rw [hc]
          simp only [uAccepted, uSent, uFailed, uRemoved, List.count_cons, Option.toList_none, Option.toList_some, List.count_nil] at ih ⊢
          omega
        · cases he
      | popped ms =>
        obtain ⟨h1, h2⟩ := strip ms he
        rw [h2] at ih
        simp only [uAccepted, uSent, uFailed, uRemoved, List.count_append] at ih ⊢
        omega
      | discarded ms =>
        obtain ⟨h1, h2⟩ := strip ms he
        rw [h2] at ih
        simp only [uAccepted, uSent, uFailed, uRemoved, List.count_append] at ih ⊢
        omega
      | cleared ms =>
        obtain ⟨h1, h2⟩ := strip ms he
        rw [h2] at ih
        simp only [uAccepted, uSent, uFailed, uRemoved, List.count_append] at ih ⊢
        omega
      | resolved p r =>
        simp only [IdealUx.event, Option.some.injEq] at he
        subst he
        simpa only [uAccepted, uSent, uFailed, uRemoved] using ih

/-- If nothing is reported or removed, the messages stay with the sender. -/
theorem uMonitor_busy {t t' : IdealUx} {es : List UEv} (h : t.monitor es = some t') (hs : uSent es = []) (hf : uFailed es = []) (hr : uRemoved es = [])
    (hb : t.waiting ≠ [] ∨ t.flight ≠ none) : t'.waiting ≠ [] ∨ t'.flight ≠ none := by
  obtain ⟨x, hx⟩ : ∃ x, 0 < t.waiting.count x + t.flight.toList.count x := by
    rcases hb with hb | hb
    · obtain ⟨x, hx⟩ := List.exists_mem_of_ne_nil _ hb
      exact ⟨x, by have := List.count_pos_iff.mpr hx; omega⟩
    · cases hfl : t.flight with
      | none => exact absurd hfl hb
      | some x => exact ⟨x, by simp⟩
  have ha := uMonitor_account h x
  rw [hs, hf, hr] at ha
  simp only [List.count_nil] at ha
  rcases Classical.em (t'.waiting = []) with h1 | h1
  · rcases Classical.em (t'.flight = none) with h2 | h2
    · rw [h1, h2] at ha; simp only [List.count_nil, Option.toList_none] at ha; omega
    · exact .inr h2
  · exact .inl h1

theorem uPromise_view (m : UMsg) (r : SyncRes) : uFailed (uPromise m r) = [] ∧ uRemoved (uPromise m r) = [] := by
  rcases uPromise_cases m r with ⟨h, _⟩ | ⟨p, _, h⟩ <;> rw [h] <;> exact ⟨rfl, rfl⟩

theorem uPromises_view (ms : List UMsg) (r : SyncRes) : uFailed (uPromises ms r) = [] ∧ uRemoved (uPromises ms r) = [] := by
  unfold uPromises
  induction ms with
  | nil => exact ⟨rfl, rfl⟩
  | cons m ms ih =>
    have := uPromise_view m r
    simp [uFailed_append, uRemoved_append, this, ih]

/-- Actions of other threads, while send_handler runs. -/
theorem Ux.step_other {conn : Bool} {s s' : Ux} {a : UAct} {es : List UEv} (hs : s.step conn a = some (s', es)) (ha : a.inStrand = false)
    (hpc : s.pc = .idle) {i : Nat} {d : UDone} (hd : s.dones[i]? = some d) :
    s'.pc = .idle ∧ s'.dones[i]? = some d ∧ s'.cur = s.cur := by
  have hna : s.noAsync = false := by
    unfold Ux.noAsync
    cases hd' : s.dones with
    | nil => rw [hd'] at hd; simp at hd
    | cons => simp
  cases a with
  | send m prior fits =>
    simp only [Ux.step] at hs
    split at hs
    · cases hs; exact ⟨hpc, hd, rfl⟩
    · split at hs <;> split at hs <;> cases hs <;> exact ⟨hpc, hd, rfl⟩
  | loadReady => simp only [Ux.step] at hs; split at hs <;> cases hs; exact ⟨hpc, hd, rfl⟩
  | loadFlag => simp only [Ux.step] at hs; split at hs <;> cases hs; exact ⟨hpc, hd, rfl⟩
  | runPosted => cases ha
  | strand => cases ha
  | handler i => cases ha
  | timerCC => simp only [Ux.step] at hs; split at hs <;> cases hs; exact ⟨hpc, hd, rfl⟩
  | timerLost => simp only [Ux.step] at hs; split at hs <;> cases hs; exact ⟨hpc, hd, rfl⟩
  | resumeCheck => simp only [Ux.step] at hs; split at hs <;> cases hs; exact ⟨hpc, hd, rfl⟩
  | complete j ok fatal =>
    simp only [Ux.step, Option.bind_eq_bind] at hs
    cases hw : s.writes[j]? with
    | none => rw [hw] at hs; cases hs
    | some w =>
      rw [hw] at hs; simp only [Option.bind_some] at hs
      cases hs
      refine ⟨hpc, ?_, rfl⟩
      have hl : i < s.dones.length := by
        rcases Nat.lt_or_ge i s.dones.length with h | h
        · exact h
        · rw [List.getElem?_eq_none h] at hd; cases hd
      simp only [List.getElem?_append_left hl]; exact hd
  | pop => simp only [Ux.step] at hs; split at hs <;> cases hs <;> exact ⟨hpc, hd, rfl⟩
  | popAll => simp only [Ux.step, Option.some.injEq] at hs; cases hs; exact ⟨hpc, hd, rfl⟩
  | shrink n => simp only [Ux.step, Option.some.injEq] at hs; cases hs; exact ⟨hpc, hd, rfl⟩
  | linkUp => simp only [Ux.step, hna, if_true] at hs; cases hs
  | onClose => simp only [Ux.step, hna, if_true] at hs; cases hs
  | reset => simp only [Ux.step, hna, true_or, if_true] at hs; cases hs

/-- Only send_handler reports. -/
theorem Ux.step_silent {conn : Bool} {s s' : Ux} {a : UAct} {es : List UEv} (hs : s.step conn a = some (s', es)) (ha : ∀ i, a ≠ .handler i) :
    uSent es = [] ∧ uFailed es = [] := by
  have keep : ∀ ms r f, uSent (uPromises ms r ++ [f]) = uSent [f] ∧ uFailed (uPromises ms r ++ [f]) = uFailed [f] := by
    intro ms r f; rw [uSent_append, uFailed_append, uSent_promises, (uPromises_view ms r).1]; exact ⟨rfl, rfl⟩
  cases a with
  | send m prior fits =>
    simp only [Ux.step] at hs
    split at hs
    · cases hs; exact ⟨rfl, rfl⟩
    · split at hs <;> split at hs <;> cases hs <;> exact ⟨rfl, rfl⟩
  | loadReady => simp only [Ux.step] at hs; split at hs <;> cases hs; exact ⟨rfl, rfl⟩
  | loadFlag => simp only [Ux.step] at hs; split at hs <;> cases hs; exact ⟨rfl, rfl⟩
  | runPosted => simp only [Ux.step] at hs; split at hs <;> cases hs; exact ⟨rfl, rfl⟩
  | strand c k =>
    simp only [Ux.step] at hs
    unfold Ux.strand at hs
    split at hs
    · cases hs
    · split at hs <;> cases hs <;> exact ⟨rfl, rfl⟩
    · split at hs <;> cases hs <;> exact ⟨rfl, rfl⟩
    · split at hs
      · cases hs; exact ⟨rfl, rfl⟩
      · split at hs <;> cases hs <;> exact ⟨rfl, rfl⟩
    · cases hs; exact ⟨rfl, rfl⟩
    · cases hs; exact ⟨rfl, rfl⟩
    · cases hs; exact ⟨rfl, rfl⟩
  | handler i => exact absurd rfl (ha i)
  | timerCC => simp only [Ux.step] at hs; split at hs <;> cases hs; exact ⟨rfl, rfl⟩
  | timerLost => simp only [Ux.step] at hs; split at hs <;> cases hs; exact ⟨rfl, rfl⟩
  | resumeCheck => simp only [Ux.step] at hs; split at hs <;> cases hs; exact ⟨rfl, rfl⟩
  | complete j ok fatal =>
    simp only [Ux.step, Option.bind_eq_bind] at hs
    cases hw : s.writes[j]? with
    | none => rw [hw] at hs; cases hs
    | some w =>
      rw [hw] at hs; simp only [Option.bind_some] at hs
      cases hs
      exact ⟨rfl, rfl⟩
  | pop =>
    simp only [Ux.step] at hs
    split at hs <;> cases hs
    · exact ⟨rfl, rfl⟩
    · exact keep _ _ _
  | popAll => simp only [Ux.step, Option.some.injEq] at hs; cases hs; exact keep _ _ _
  | shrink n => simp only [Ux.step, Option.some.injEq] at hs; cases hs; exact ⟨rfl, rfl⟩
  | linkUp => simp only [Ux.step] at hs; split at hs <;> cases hs; exact ⟨rfl, rfl⟩
  | onClose =>
    simp only [Ux.step] at hs
    split at hs <;> cases hs
    cases s.cur with
    | none => exact ⟨rfl, rfl⟩
    | some m => simp [uSent_promise, (uPromise_view m _).1]
  | reset => simp only [Ux.step] at hs; split at hs <;> cases hs; exact ⟨rfl, rfl⟩

/-- What send_handler does after a successful send. -/
theorem Ux.handler_ok {conn : Bool} {s s' : Ux} {es : List UEv} {i : Nat} {d : UDone} {m : UMsg} (hd : s.dones[i]? = some d) (hok : d.ok = true) (hm : s.cur = some m)
    (hs : s.step conn (.handler i) = some (s', es)) :
    uSent es = [m] ∧ uFailed es = [] ∧ uRemoved es = [] ∧ uAccepted es = [] ∧ s'.cur = none ∧ s'.q = s.q := by
  simp only [Ux.step, Option.bind_eq_bind, hd, Option.bind_some] at hs
  split at hs
  · cases hs
  · unfold Ux.handler at hs
    simp only [hm] at hs
    rw [if_pos hok] at hs
    cases hs
    refine ⟨?_, ?_, ?_, ?_, rfl, rfl⟩
    · rw [uSent_append, uSent_promise]; rfl
    · rw [uFailed_append, (uPromise_view m _).1]; rfl
    · rw [uRemoved_append, (uPromise_view m _).2]; rfl
    · rw [uAccepted_append, (uOther_promise m _).2.1]; rfl

/-- What it does after a failed one. -/
theorem Ux.handler_err {conn : Bool} {s s' : Ux} {es : List UEv} {i : Nat} {d : UDone} (hd : s.dones[i]? = some d) (hok : d.ok = false)
    (hs : s.step conn (.handler i) = some (s', es)) : uSent es = [] := by
  simp only [Ux.step, Option.bind_eq_bind, hd, Option.bind_some] at hs
  split at hs
  · cases hs
  · unfold Ux.handler at hs
    cases hm : s.cur with
    | none => simp only [hm] at hs; cases hs; rfl
    | some m =>
      simp only [hm] at hs
      rw [if_neg (by simp [hok])] at hs
      cases hs
      rw [uSent_append, uSent_promise]; rfl

/-! the machine with the notifications -/

/-- The message already reported whose send_handler still runs. -/
def Nu.current (s : Nu) : List Bytes := if s.ph = .idle then [] else s.ux.cur.toList.map UMsg.data

structure Nu.Sim (conn notify : Bool) (as : List NuAct) (s : Nu) (es : List NtEv) (bs : List UAct) (ues : List UEv) : Prop where
  run : Ux.Run conn Ux.init bs s.ux ues
  accepted : ntAccepted es = (uAccepted ues).map UMsg.data
  written : ntWritten es = (uSent ues).map UMsg.data ++ s.current
  failed : ntFailed es = (uFailed ues).map UMsg.data
  removed : ntRemoved es = (uRemoved ues).map UMsg.data
  ph : ∀ i, s.ph.idx = some i → s.ux.pc = .idle ∧ ∃ d m, s.ux.dones[i]? = some d ∧ d.ok = true ∧ s.ux.cur = some m
  left : ∀ i left, s.ph = .notified i left → ∃ l, left = [l]
  same : (∀ ms l, NtEv.onSend ms l ∈ es → l = ms) → ∀ i left, s.ph = .notified i left → left = s.ux.cur.toList.map UMsg.data
  notified : notify = true → ntNotified es = ntWritten es
  prior : ∀ m, UEv.accept m true ∈ ues → ∃ l, NtEv.accepted l true ∈ es
  acts : ∀ i f, UAct.complete i false f ∈ bs → NuAct.ux (.complete i false f) ∈ as
  isOpen : ntRemoved es = [] → ntFailed es = [] → ntOpen false es = true → match s.ph with
    | .notified _ _ => True
    | .rest _ => s.ux.q.items ≠ []
    | .idle => s.ux.q.items ≠ [] ∨ s.ux.cur ≠ none

theorem Nu.init_sim (conn notify : Bool) : Nu.Sim conn notify [] Nu.init [] [] [] where
  run := Ux.Run.nil _
  accepted := rfl
  written := rfl
  failed := rfl
  removed := rfl
  ph := by intro i h; cases h
  left := by intro i l h; cases h
  same := by intro _ i l h; cases h
  notified := fun _ => rfl
  prior := by intro m h; cases h
  acts := by intro i f h; cases h
  isOpen := by intro _ _ h; cases h

theorem Nu.step_sim {conn notify : Bool} {as : List NuAct} {s s' : Nu} {es fs : List NtEv} {bs : List UAct} {tes : List UEv} {a : NuAct}
    (h : Nu.Sim conn notify as s es bs tes) (hs : Nu.step conn notify s a = some (s', fs)) :
    ∃ bs' tes', Nu.Sim conn notify (as ++ [a]) s' (es ++ fs) bs' tes' := by
  have hok := Ux.run_ok h.run
  have hi := hok.1
  cases a with
  | ux a =>
    simp only [Nu.step] at hs
    split at hs
    · cases hs
    · next hc1 =>
      split at hs
      · cases hs
      · next hc2 =>
        cases ht : s.ux.step conn a with
        | none => rw [ht] at hs; cases hs
        | some r =>
          obtain ⟨t, ues⟩ := r
          rw [ht] at hs
          simp only [Option.map_some, Option.some.injEq, Prod.mk.injEq] at hs
          obtain ⟨hs1, hs2⟩ := hs
          subst hs1; subst hs2
          obtain ⟨v1, v2, v3, v4, v5, v6⟩ := nuUx_view ues
          have hmon := (Ux.step_ok hi hok.2.1 ht).mon
          have hsilent : uSent ues = [] := by
            by_cases hh : ∃ i, a = .handler i
            · obtain ⟨i, rfl⟩ := hh
              cases hd : s.ux.dones[i]? with
              | none => simp only [Ux.step, Option.bind_eq_bind, hd] at ht; cases ht
              | some d =>
                simp only [UAct.succeeds, hd, Option.map_some, Option.getD_some] at hc2
                exact Ux.handler_err hd (by simpa using hc2) ht
            · exact (Ux.step_silent ht (fun i hi => hh ⟨i, hi⟩)).1
          have hother : ∀ i, s.ph.idx = some i → ∃ d m, s.ux.dones[i]? = some d ∧ d.ok = true ∧ t.pc = .idle ∧ t.dones[i]? = some d ∧ t.cur = s.ux.cur ∧ s.ux.cur = some m := by
            intro i hph
            obtain ⟨h1, d, m, h2, h3, h4⟩ := h.ph i hph
            have hin : a.inStrand = false := by
              cases hin : a.inStrand with
              | false => rfl
              | true => exact absurd ⟨hin, by intro hc; rw [hc] at hph; cases hph⟩ hc1
            obtain ⟨k1, k2, k3⟩ := Ux.step_other ht hin h1 h2
            exact ⟨d, m, h2, h3, k1, k2, k3, h4⟩
          have hcur : (Nu.mk t s.ph).current = s.current := by
            unfold Nu.current
            by_cases hp : s.ph = .idle
            · simp [hp]
            · obtain ⟨i, hix⟩ := NtPh.idx_none hp
              obtain ⟨d, m, _, _, _, _, k, _⟩ := hother i hix
              simp only [if_neg hp, k]
          refine ⟨bs ++ [a], tes ++ ues, ?_⟩
          refine { run := Ux.Run.snoc _ _ _ _ _ _ _ h.run ht, accepted := ?_, written := ?_, failed := ?_, removed := ?_, ph := ?_, left := h.left, same := ?_,
                   notified := ?_, prior := ?_, acts := ?_, isOpen := ?_ }
          · rw [ntAccepted_append, v1, h.accepted, uAccepted_append, List.map_append]
          · rw [ntWritten_append, v2, h.written, uSent_append, hsilent, List.append_nil, List.append_nil, hcur]
          · rw [ntFailed_append, v4, h.failed, uFailed_append, List.map_append]
          · rw [ntRemoved_append, v5, h.removed, uRemoved_append, List.map_append]
          · intro i hix
            obtain ⟨d, m, _, k2, k3, k4, k5, k6⟩ := hother i hix
            exact ⟨k3, d, m, k4, k2, k5.trans k6⟩
          · intro hun i left hp
            have hp' : s.ph = .notified i left := hp
            have := h.same (fun ms l hm => hun ms l (List.mem_append_left _ hm)) i left hp
            obtain ⟨d, m, _, _, _, _, k, _⟩ := hother i (by rw [hp']; rfl)
            rw [this, k]
          · intro hm
            rw [ntNotified_append, ntWritten_append, v2, v3, h.notified hm]
          · intro m hm
            rcases List.mem_append.mp hm with hm | hm
            · obtain ⟨l, hl⟩ := h.prior m hm; exact ⟨l, List.mem_append_left _ hl⟩
            · exact ⟨_, List.mem_append_right _ (List.mem_filterMap.mpr ⟨_, hm, rfl⟩)⟩
          · intro i f hm
            rcases List.mem_append.mp hm with hm | hm
            · exact List.mem_append_left _ (h.acts i f hm)
            · simp only [List.mem_singleton] at hm
              rw [← hm]; simp
          · intro hrm hfl hop
            rw [ntRemoved_append] at hrm
            rw [ntFailed_append] at hfl
            rw [ntOpen_append, v6] at hop
            have hold := h.isOpen (append_nil_left hrm) (append_nil_left hfl) hop
            have hr0 : uRemoved ues = [] := by
              have := (List.append_eq_nil_iff.mp hrm).2; rw [v5] at this; simpa using this
            have hf0 : uFailed ues = [] := by
              have := (List.append_eq_nil_iff.mp hfl).2; rw [v4] at this; simpa using this
            cases hp : s.ph with
            | notified i l => trivial
            | rest i =>
              rw [hp] at hold
              simp only at hold ⊢
              obtain ⟨d, m, _, _, _, _, k, _⟩ := hother i (by rw [hp]; rfl)
              intro hc
              obtain ⟨x, hx⟩ := List.exists_mem_of_ne_nil _ hold
              have hcnt := uMonitor_account hmon x
              have hx2 := List.count_pos_iff.mpr hx
              simp only [Ux.ideal, hc, hsilent, hf0, hr0, k, List.count_nil] at hcnt
              omega
            | idle =>
              rw [hp] at hold
              simp only at hold ⊢
              exact uMonitor_busy hmon hsilent hf0 hr0 hold
  | begin i left =>
    simp only [Nu.step] at hs
    cases hd : s.ux.dones[i]? with
    | none => rw [hd] at hs; cases hs
    | some d =>
      cases hm : s.ux.cur with
      | none => rw [hd, hm] at hs; cases hs
      | some m =>
        rw [hd, hm] at hs
        simp only at hs
        by_cases hc : s.ph ≠ .idle ∨ s.ux.pc ≠ .idle ∨ d.ok = false ∨ (notify = false ∧ left ≠ m.data)
        · rw [if_pos hc] at hs; cases hs
        · rw [if_neg hc] at hs
          simp only [not_or, Decidable.not_not, Bool.not_eq_false] at hc
          obtain ⟨c1, c2, c3, c4⟩ := hc
          simp only [Option.some.injEq, Prod.mk.injEq] at hs
          obtain ⟨hs1, hs2⟩ := hs
          subst hs1; subst hs2
          have hcur : s.current = [] := by simp [Nu.current, c1]
          refine ⟨bs, tes, ?_⟩
          refine { run := h.run, accepted := ?_, written := ?_, failed := ?_, removed := ?_, ph := ?_, left := ?_, same := ?_,
                   notified := ?_, prior := ?_, acts := ?_, isOpen := ?_ }
          · rw [ntAccepted_append, h.accepted]; cases notify <;> simp [ntAccepted]
          · rw [ntWritten_append, h.written, hcur]; cases notify <;> simp [ntWritten, Nu.current, hm]
          · rw [ntFailed_append, h.failed]; cases notify <;> simp [ntFailed]
          · rw [ntRemoved_append, h.removed]; cases notify <;> simp [ntRemoved]
          · intro j hj
            cases hj
            exact ⟨c2, d, m, hd, c3, hm⟩
          · intro j l hj; cases hj; exact ⟨left, rfl⟩
          · intro hun j l hj
            cases hj
            simp only [hm, Option.toList_some, List.map_cons, List.map_nil]
            cases notify with
            | false =>
              simp only [true_and, Decidable.not_not] at c4
              rw [c4]
            | true => exact hun _ _ (List.mem_append_right _ (by simp))
          · intro hn
            rw [ntNotified_append, ntWritten_append, h.notified hn]
            simp [ntNotified, ntWritten, hn]
          · intro m hm; obtain ⟨l, hl⟩ := h.prior m hm; exact ⟨l, List.mem_append_left _ hl⟩
          · intro j f hj; exact List.mem_append_left _ (h.acts j f hj)
          · intro _ _ _; trivial
  | check =>
    simp only [Nu.step] at hs
    cases hp : s.ph with
    | idle => rw [hp] at hs; cases hs
    | rest i => rw [hp] at hs; cases hs
    | notified i left =>
      rw [hp] at hs
      simp only [Option.some.injEq, Prod.mk.injEq] at hs
      obtain ⟨hs1, hs2⟩ := hs
      subst hs1; subst hs2
      have hphc := h.ph i (by rw [hp]; rfl)
      obtain ⟨l, hl⟩ := h.left i left hp
      subst hl
      have hcur : Nu.current { s with ph := .rest i } = s.current := by
        simp [Nu.current, hp]
      refine ⟨bs, tes, ?_⟩
      refine { run := h.run, accepted := ?_, written := ?_, failed := ?_, removed := ?_, ph := ?_, left := ?_, same := ?_,
               notified := ?_, prior := ?_, acts := ?_, isOpen := ?_ }
      · rw [ntAccepted_append, h.accepted]; split <;> simp [ntAccepted]
      · rw [ntWritten_append, h.written, hcur]; split <;> simp [ntWritten]
      · rw [ntFailed_append, h.failed]; split <;> simp [ntFailed]
      · rw [ntRemoved_append, h.removed]; split <;> simp [ntRemoved]
      · intro j hj; cases hj; exact hphc
      · intro j l hj; cases hj
      · intro _ j l hj; cases hj
      · intro hm; rw [ntNotified_append, ntWritten_append, h.notified hm]; split <;> simp [ntNotified, ntWritten]
      · intro m hm; obtain ⟨l, hl⟩ := h.prior m hm; exact ⟨l, List.mem_append_left _ hl⟩
      · intro j f hj; exact List.mem_append_left _ (h.acts j f hj)
      · intro _ _ hop
        rw [ntOpen_append] at hop
        by_cases hem : s.ux.q.items.isEmpty = true
        · rw [if_pos hem] at hop; cases hop
        · intro hc; exact hem (by simpa using hc)
  | finish =>
    simp only [Nu.step] at hs
    cases hp : s.ph with
    | idle => rw [hp] at hs; cases hs
    | notified i l => rw [hp] at hs; cases hs
    | rest i =>
      rw [hp] at hs
      simp only at hs
      obtain ⟨hpc, d, m, hd, hok, hm⟩ := h.ph i (by rw [hp]; rfl)
      cases ht : s.ux.step conn (.handler i) with
      | none => rw [ht] at hs; cases hs
      | some r =>
        obtain ⟨t, ues⟩ := r
        rw [ht] at hs
        simp only [Option.map_some, Option.some.injEq, Prod.mk.injEq] at hs
        obtain ⟨hs1, hs2⟩ := hs
        subst hs1; subst hs2
        obtain ⟨v1, v2, v3, v4, v5, v6⟩ := nuUx_view ues
        obtain ⟨k1, k2, k3, k4, k5, k6⟩ := Ux.handler_ok hd hok hm ht
        refine ⟨bs ++ [.handler i], tes ++ ues, ?_⟩
        refine { run := Ux.Run.snoc _ _ _ _ _ _ _ h.run ht, accepted := ?_, written := ?_, failed := ?_, removed := ?_, ph := ?_, left := ?_, same := ?_,
                 notified := ?_, prior := ?_, acts := ?_, isOpen := ?_ }
        · rw [ntAccepted_append, v1, h.accepted, uAccepted_append, List.map_append]
        · rw [ntWritten_append, v2, h.written, uSent_append, k1]
          simp [Nu.current, hp, hm]
        · rw [ntFailed_append, v4, h.failed, uFailed_append, List.map_append]
        · rw [ntRemoved_append, v5, h.removed, uRemoved_append, List.map_append]
        · intro j hj; cases hj
        · intro j l hj; cases hj
        · intro _ j l hj; cases hj
        · intro hm; rw [ntNotified_append, ntWritten_append, v2, v3, h.notified hm]
        · intro m hm
          rcases List.mem_append.mp hm with hm | hm
          · obtain ⟨l, hl⟩ := h.prior m hm; exact ⟨l, List.mem_append_left _ hl⟩
          · exact ⟨_, List.mem_append_right _ (List.mem_filterMap.mpr ⟨_, hm, rfl⟩)⟩
        · intro j f hj
          rcases List.mem_append.mp hj with hj | hj
          · exact List.mem_append_left _ (h.acts j f hj)
          · simp at hj
        · intro hrm hfl hop
          rw [ntRemoved_append] at hrm
          rw [ntFailed_append] at hfl
          rw [ntOpen_append, v6] at hop
          have hold := h.isOpen (append_nil_left hrm) (append_nil_left hfl) hop
          rw [hp] at hold
          simp only at hold ⊢
          left
          rw [k6]; exact hold

theorem Nu.run_sim {conn notify : Bool} {as : List NuAct} {s : Nu} {es : List NtEv} (h : Nu.Run conn notify Nu.init as s es) :
    ∃ bs ues, Nu.Sim conn notify as s es bs ues := by
  generalize h0 : Nu.init = s0 at h
  induction h with
  | nil => subst h0; exact ⟨[], [], Nu.init_sim conn notify⟩
  | snoc s1 s2 as a es fs hr hs ih =>
    subst h0
    obtain ⟨bs, tes, hsim⟩ := ih
    exact Nu.step_sim hsim hs

/-- Order. -/
theorem uMonitor_order {t t' : IdealUx} {es : List UEv} (h : t.monitor es = some t') (hp : ∀ m, UEv.accept m true ∉ es) (hf : uFailed es = []) (hr : uRemoved es = []) :
    t.flight.toList ++ t.waiting ++ uAccepted es = uSent es ++ (t'.flight.toList ++ t'.waiting) := by
  induction es generalizing t with
  | nil => simp [IdealUx.monitor] at h; subst h; simp [uAccepted, uSent]
  | cons e es ih =>
    simp only [IdealUx.monitor] at h
    cases he : t.event e with
    | none => rw [he] at h; cases h
    | some t1 =>
      rw [he] at h
      have hp' : ∀ m, UEv.accept m true ∉ es := fun m hm => hp m (List.mem_cons_of_mem _ hm)
      have strip : ∀ ms, ms = [] → (uStrip ms t.waiting).map (fun w => { t with waiting := w }) = some t1 → t1 = t := by
        intro ms hms hm; subst hms; simp only [uStrip, Option.map_some, Option.some.injEq] at hm; rw [← hm]
      cases e with
      | accept m prior =>
        have ih := ih h hp' hf hr
        simp only [IdealUx.event, Option.some.injEq] at he
        subst he
        have : prior = false := by
          cases prior with
          | false => rfl
          | true => exact absurd List.mem_cons_self (hp m)
        subst this
        simp only [uAccepted, uSent, Bool.false_eq_true, if_false] at ih ⊢
        rw [← ih]; simp
      | handOff m =>
        have ih := ih h hp' hf hr
        simp only [IdealUx.event] at he
        split at he
        · next hc =>
          cases hs : uStrip [m] t.waiting with
          | none => rw [hs] at he; cases he
          | some w =>
            rw [hs] at he; cases he
            rw [uStrip_some hs, hc]
            simp only [uAccepted, uSent] at ih ⊢
            rw [← ih]; simp
        · cases he
      | sent m =>
        have ih := ih h hp' hf hr
        simp only [IdealUx.event] at he
        split at he
        · next hc =>
          cases he
          rw [hc]
          simp only [uAccepted, uSent] at ih ⊢
          rw [List.cons_append, ← ih]; simp
        · cases he
      | sendError m => cases hf
      | popped ms =>
        have hr' := List.append_eq_nil_iff.mp hr
        rw [strip ms hr'.1 he] at h
        exact ih h hp' hf hr'.2
      | discarded ms =>
        have hr' := List.append_eq_nil_iff.mp hr
        rw [strip ms hr'.1 he] at h
        exact ih h hp' hf hr'.2
      | cleared ms =>
        have hr' := List.append_eq_nil_iff.mp hr
        rw [strip ms hr'.1 he] at h
        exact ih h hp' hf hr'.2
      | resolved p r =>
        simp only [IdealUx.event, Option.some.injEq] at he
        subst he
        exact ih h hp' hf hr

/-- Without failing sends nothing fails. -/
theorem Ux.run_nofail {conn : Bool} {as : List UAct} {s : Ux} {es : List UEv} (h : Ux.Run conn Ux.init as s es) (hn : ∀ i f, UAct.complete i false f ∉ as) :
    (∀ d ∈ s.dones, d.ok = true) ∧ uFailed es = [] := by
  generalize h0 : Ux.init = s0 at h
  induction h with
  | nil => subst h0; exact ⟨by simp [Ux.init], rfl⟩
  | snoc s1 s2 as a es fs hr hs ih =>
    subst h0
    obtain ⟨ih1, ih2⟩ := ih (fun i f hm => hn i f (List.mem_append_left _ hm))
    have ha : ∀ i f, a ≠ .complete i false f := fun i f hc => hn i f (by simp [hc])
    have hi := (Ux.run_ok hr).1
    constructor
    · cases a with
      | send m prior fits =>
        simp only [Ux.step] at hs
        split at hs
        · cases hs; exact ih1
        · split at hs <;> split at hs <;> cases hs <;> exact ih1
      | loadReady => simp only [Ux.step] at hs; split at hs <;> cases hs; exact ih1
      | loadFlag => simp only [Ux.step] at hs; split at hs <;> cases hs; exact ih1
      | runPosted => simp only [Ux.step] at hs; split at hs <;> cases hs; exact ih1
      | strand c k =>
        simp only [Ux.step] at hs
        unfold Ux.strand at hs
        split at hs
        · cases hs
        · split at hs <;> cases hs <;> exact ih1
        · split at hs <;> cases hs <;> exact ih1
        · split at hs
          · cases hs; exact ih1
          · split at hs <;> cases hs
            · intro d hd
              rcases List.mem_append.mp hd with hd | hd
              · exact ih1 d hd
              · simp only [List.mem_singleton] at hd; rw [hd]
            · exact ih1
        · cases hs; exact ih1
        · cases hs; exact ih1
        · cases hs; exact ih1
      | handler i =>
        simp only [Ux.step, Option.bind_eq_bind] at hs
        cases hd : s1.dones[i]? with
        | none => rw [hd] at hs; cases hs
        | some d =>
          rw [hd] at hs; simp only [Option.bind_some] at hs
          split at hs
          · cases hs
          · unfold Ux.handler at hs
            cases hm : s1.cur with
            | none => simp only [hm] at hs; cases hs; intro d hd; exact ih1 d (List.mem_of_mem_eraseIdx hd)
            | some m =>
              simp only [hm] at hs
              split at hs <;> cases hs <;> (intro d hd; exact ih1 d (List.mem_of_mem_eraseIdx hd))
      | timerCC => simp only [Ux.step] at hs; split at hs <;> cases hs; exact ih1
      | timerLost => simp only [Ux.step] at hs; split at hs <;> cases hs; exact ih1
      | resumeCheck => simp only [Ux.step] at hs; split at hs <;> cases hs; exact ih1
      | complete j ok fatal =>
        simp only [Ux.step, Option.bind_eq_bind] at hs
        cases hw : s1.writes[j]? with
        | none => rw [hw] at hs; cases hs
        | some w =>
          rw [hw] at hs; simp only [Option.bind_some] at hs
          cases hs
          intro d hd
          rcases List.mem_append.mp hd with hd | hd
          · exact ih1 d hd
          · simp only [List.mem_singleton] at hd
            rw [hd]
            cases ok with
            | true => rfl
            | false => exact absurd rfl (ha j fatal)
      | pop => simp only [Ux.step] at hs; split at hs <;> cases hs <;> exact ih1
      | popAll => simp only [Ux.step, Option.some.injEq] at hs; cases hs; exact ih1
      | shrink n => simp only [Ux.step, Option.some.injEq] at hs; cases hs; exact ih1
      | linkUp => simp only [Ux.step] at hs; split at hs <;> cases hs; exact ih1
      | onClose => simp only [Ux.step] at hs; split at hs <;> cases hs; exact ih1
      | reset => simp only [Ux.step] at hs; split at hs <;> cases hs; exact ih1
    · rw [uFailed_append, ih2, List.nil_append]
      by_cases hh : ∃ i, a = .handler i
      · obtain ⟨i, rfl⟩ := hh
        cases hd : s1.dones[i]? with
        | none => simp only [Ux.step, Option.bind_eq_bind, hd] at hs; cases hs
        | some d =>
          have hmem := List.mem_of_getElem? hd
          exact (Ux.handler_ok hd (ih1 d hmem) (hi.dcur d hmem) hs).2.1
      · exact (Ux.step_silent hs (fun i hi => hh ⟨i, hi⟩)).2

theorem uFatal_none {as : List UAct} (hn : ∀ i f, UAct.complete i false f ∉ as) : uFatalSinceUp as = false := by
  have key : ∀ (as : List UAct), (∀ i f, UAct.complete i false f ∉ as) → as.foldl uFatal false = false := by
    intro as
    induction as with
    | nil => intro _; rfl
    | cons a as ih =>
      intro hn
      have h1 : uFatal false a = false := by
        cases a with
        | complete i ok f =>
          cases ok with
          | true => rfl
          | false => exact absurd List.mem_cons_self (hn i f)
        | _ => rfl
      simp only [List.foldl_cons, h1]
      exact ih (fun i f hm => hn i f (List.mem_cons_of_mem _ hm))
  exact key as hn

end StAsio
