import Verif.Spec.KcpPipe
import Verif.Lemmas.EndToEnd2
import Verif.Props.C49_ReliableUdp
set_option autoImplicit false
namespace StAsio

theorem kpSent_append (a b : List KpEv) : kpSent (a ++ b) = kpSent a ++ kpSent b := by
  induction a with
  | nil => rfl
  | cons e a ih => cases e <;> simp [kpSent, ih]

theorem kpHandled_append (a b : List KpEv) : kpHandled (a ++ b) = kpHandled a ++ kpHandled b := by
  induction a with
  | nil => rfl
  | cons e a ih => cases e with
    | sent _ => simp [kpHandled, ih]
    | handled m ok => cases ok <;> simp [kpHandled, ih]

theorem kpRxEv_view (es : List REv) : kpHandled (es.filterMap kpRxEv) = rAccepted es ∧ kpSent (es.filterMap kpRxEv) = [] := by
  induction es with
  | nil => exact ⟨rfl, rfl⟩
  | cons e es ih => cases e with
    | ret m ok => cases ok <;> simp [kpRxEv, kpHandled, kpSent, rAccepted, ih]
    | _ => rw [List.filterMap_cons_none (by rfl)]; exact ih

theorem kpTxEv_view (es : List UEv) : kpSent (es.filterMap kpTxEv) = (uAccepted es).map UMsg.data ∧ kpHandled (es.filterMap kpTxEv) = [] := by
  induction es with
  | nil => exact ⟨rfl, rfl⟩
  | cons e es ih => cases e with
    | accept m p => simp [kpTxEv, kpHandled, kpSent, uAccepted, ih]
    | _ => rw [List.filterMap_cons_none (by rfl)]; exact ih

/-! ### what KCP hands out -/

theorem kcpRecv_eq (nd : Bool) (buf : Nat) (ms : List Bytes) (h : ∀ m ∈ ms, m ≠ []) : kcpRecv nd buf ms = some (ms.takeWhile (kpFits buf)) := by
  induction ms with
  | nil => rfl
  | cons m ms ih =>
    have h1 : m.isEmpty = false := by
      have := h m (by simp)
      cases m with
      | nil => exact absurd rfl this
      | cons => rfl
    simp only [kcpRecv, List.takeWhile_cons]
    by_cases hb : buf < m.length
    · have hf : kpFits buf m = false := by simp only [kpFits, decide_eq_false_iff_not]; omega
      simp [hb, hf]
    · have hf : kpFits buf m = true := by simp only [kpFits, decide_eq_true_eq]; omega
      simp only [hb, hf, h1, if_true, if_false, Bool.false_and, Bool.false_eq_true]
      rw [ih (fun x hx => h x (by simp [hx]))]
      rfl

theorem takeWhile_append_same {α : Type} (p : α → Bool) (a b : List α) (h : a.takeWhile p = a) : (a ++ b).takeWhile p = a ++ b.takeWhile p := by
  induction a with
  | nil => rfl
  | cons x a ih =>
    rw [List.takeWhile_cons] at h
    split at h
    · next hp =>
      simp only [List.cons.injEq, true_and] at h
      simp only [List.cons_append, List.takeWhile_cons, hp, if_true, ih h]
    · cases h

theorem takeWhile_append_stop {α : Type} (p : α → Bool) (a b : List α) (h : a.takeWhile p ≠ a) : (a ++ b).takeWhile p = a.takeWhile p := by
  induction a with
  | nil => exact absurd rfl h
  | cons x a ih =>
    simp only [List.cons_append, List.takeWhile_cons] at h ⊢
    split
    · next hp =>
      simp only [hp, if_true] at h
      rw [ih (fun hc => h (by rw [hc]))]
    · rfl

theorem takeWhile_all {α : Type} (p : α → Bool) (a : List α) : ∀ x ∈ a.takeWhile p, p x = true := by
  induction a with
  | nil => simp
  | cons x a ih =>
    rw [List.takeWhile_cons]
    split
    · next hp =>
      intro y hy
      rcases List.mem_cons.mp hy with rfl | hy
      · exact hp
      · exact ih y hy
    · simp

theorem takeWhile_self {α : Type} (p : α → Bool) (a : List α) (h : ∀ x ∈ a, p x = true) : a.takeWhile p = a := by
  induction a with
  | nil => rfl
  | cons x a ih => rw [List.takeWhile_cons, if_pos (h x (by simp)), ih (fun y hy => h y (by simp [hy]))]

theorem takeWhile_take {α : Type} (p : α → Bool) (a : List α) : a.take (a.takeWhile p).length = a.takeWhile p := by
  have h : a.takeWhile p <+: a := List.takeWhile_prefix p
  exact (List.prefix_iff_eq_take.mp h).symm

theorem takeWhile_mono {α : Type} (p : α → Bool) (a b : List α) (h : a <+: b) : a.takeWhile p <+: b.takeWhile p := by
  obtain ⟨c, rfl⟩ := h
  rcases Classical.em (a.takeWhile p = a) with h | h
  · rw [takeWhile_append_same p a c h, h]; exact List.prefix_append _ _
  · rw [takeWhile_append_stop p a c h]; exact List.prefix_refl _

/-- Going on where the last call stopped. -/
theorem takeWhile_resume {α : Type} (p : α → Bool) (a b : List α) :
    a.takeWhile p ++ ((a ++ b).drop (a.takeWhile p).length).takeWhile p = (a ++ b).takeWhile p := by
  induction a with
  | nil => simp
  | cons x a ih =>
    simp only [List.cons_append, List.takeWhile_cons]
    by_cases hp : p x = true
    · simp only [hp, if_true, List.length_cons, List.drop_succ_cons, List.cons_append, ih]
    · simp [hp]

/-! ### the sender -/

theorem KAct.plain_close {a : KAct} (h : a.plain = true) : a ≠ .close := by rintro rfl; cases h

theorem KAct.plain_fatal {a : KAct} (h : a.plain = true) : kFatal false a = false := by
  cases a with
  | u a => cases a <;> first | rfl | (simp [KAct.plain] at h)
  | _ => rfl

/-- What a plain action changes. -/
structure Kc.Kept (s s' : Kc) (es : List UEv) : Prop where
  ready : s'.ux.ready = s.ux.ready
  stopped : s'.ux.stopped = s.ux.stopped
  writes : s'.ux.writes = s.ux.writes
  plain : ∀ e ∈ es, UPlainEv e
  full : ∀ m ∈ uAccepted es, m.data ≠ []

theorem uPromise_plain (m : UMsg) (r : SyncRes) : (∀ e ∈ uPromise m r, UPlainEv e) ∧ uAccepted (uPromise m r) = [] := by
  rcases uPromise_cases m r with ⟨h, _⟩ | ⟨p, _, h⟩ <;> rw [h] <;> simp [UPlainEv, uAccepted]

theorem Ux.plain_kept {s s' : Ux} {a : UAct} {es : List UEv} (ha : KAct.plain (.u a) = true) (hs : s.step true a = some (s', es)) :
    s'.ready = s.ready ∧ s'.stopped = s.stopped ∧ s'.writes = s.writes ∧ (∀ e ∈ es, UPlainEv e) ∧ ∀ m ∈ uAccepted es, m.data ≠ [] := by
  cases a with
  | send m prior fits =>
    cases prior with
    | true => simp [KAct.plain] at ha
    | false =>
      simp only [Ux.step] at hs
      split at hs
      · cases hs; exact ⟨rfl, rfl, rfl, by simp, by simp [uAccepted]⟩
      · next hm =>
        simp only [Bool.false_eq_true, if_false] at hs
        split at hs
        · cases hs; exact ⟨rfl, rfl, rfl, by simp [UPlainEv], by simpa [uAccepted] using hm⟩
        · cases hs; exact ⟨rfl, rfl, rfl, by simp, by simp [uAccepted]⟩
  | handler i =>
    simp only [Ux.step] at hs
    cases hd : s.dones[i]? with
    | none => rw [hd] at hs; cases hs
    | some d =>
      rw [hd] at hs
      simp only [Option.bind_eq_bind, Option.bind_some] at hs
      split at hs
      · cases hs
      · simp only [Ux.handler, Option.some.injEq] at hs
        split at hs
        · cases hs; exact ⟨rfl, rfl, rfl, by simp, by simp [uAccepted]⟩
        · split at hs <;>
          · cases hs
            refine ⟨rfl, rfl, rfl, ?_, ?_⟩
            · intro e he
              rw [List.mem_append] at he
              rcases he with he | he
              · exact (uPromise_plain _ _).1 e he
              · simp at he; subst he; trivial
            · rw [uAccepted_append, (uPromise_plain _ _).2]; simp [uAccepted]
  | loadReady => simp only [Ux.step] at hs; split at hs <;> cases hs; exact ⟨rfl, rfl, rfl, by simp, by simp [uAccepted]⟩
  | loadFlag => simp only [Ux.step] at hs; split at hs <;> cases hs; exact ⟨rfl, rfl, rfl, by simp, by simp [uAccepted]⟩
  | runPosted => simp only [Ux.step] at hs; split at hs <;> cases hs; exact ⟨rfl, rfl, rfl, by simp, by simp [uAccepted]⟩
  | resumeCheck => simp only [Ux.step] at hs; split at hs <;> cases hs; exact ⟨rfl, rfl, rfl, by simp, by simp [uAccepted]⟩
  | _ => simp [KAct.plain] at ha

theorem Kc.plain_kept {s s' : Kc} {a : KAct} {es : List UEv} (hk : s.kcp.isSome = true) (ha : a.plain = true) (h : s.step a = some (s', es)) : Kc.Kept s s' es := by
  cases a with
  | u a =>
    have hs : s.ux.step true a = some (s'.ux, es) := by
      cases a <;> simp only [Kc.step] at h <;> first
        | (cases h; done)
        | (rw [Option.map_eq_some_iff] at h; obtain ⟨⟨u, e⟩, h1, h2⟩ := h; cases h2; exact h1)
    obtain ⟨k1, k2, k3, k4, k5⟩ := Ux.plain_kept ha hs
    exact ⟨k1, k2, k3, k4, k5⟩
  | strand segs =>
    simp only [Kc.step] at h
    rw [Option.map_eq_some_iff] at h
    obtain ⟨⟨u, e⟩, h1, h2⟩ := h
    have hu : s'.ux = u ∧ es = e := by split at h2 <;> (cases h2; exact ⟨rfl, rfl⟩)
    obtain ⟨hu, rfl⟩ := hu
    rw [hk] at h1
    simp only [Ux.step, Ux.strand] at h1
    split at h1
    · cases h1
    · split at h1 <;> (cases h1; exact ⟨by rw [hu], by rw [hu], by rw [hu], by simp, by simp [uAccepted]⟩)
    · split at h1 <;> (cases h1; exact ⟨by rw [hu], by rw [hu], by rw [hu], by simp, by simp [uAccepted]⟩)
    · split at h1
      · cases h1; exact ⟨by rw [hu], by rw [hu], by rw [hu], by simp, by simp [uAccepted]⟩
      · simp only [Bool.and_self, if_true] at h1
        cases h1; exact ⟨by rw [hu], by rw [hu], by rw [hu], by simp [UPlainEv], by simp [uAccepted]⟩
    · cases h1; exact ⟨by rw [hu], by rw [hu], by rw [hu], by simp, by simp [uAccepted]⟩
    · cases h1; exact ⟨by rw [hu], by rw [hu], by rw [hu], by simp, by simp [uAccepted]⟩
    · cases h1; exact ⟨by rw [hu], by rw [hu], by rw [hu], by simp, by simp [uAccepted]⟩
  | update n => simp only [Kc.step] at h; split at h <;> cases h; exact ⟨rfl, rfl, rfl, by simp, by simp [uAccepted]⟩
  | timerCC =>
    simp only [Kc.step] at h
    split at h
    · cases h
    · split at h
      · cases h
      · rw [Option.map_eq_some_iff] at h; obtain ⟨⟨u, e⟩, h1, h2⟩ := h; cases h2
        simp only [Ux.step] at h1
        split at h1 <;> cases h1
        exact ⟨rfl, rfl, rfl, by simp, by simp [uAccepted]⟩
  | poll =>
    simp only [Kc.step] at h
    split at h
    · cases h
    · split at h <;> cases h
      exact ⟨rfl, rfl, rfl, by simp, by simp [uAccepted]⟩
  | setMax n => simp only [Kc.step] at h; cases h; exact ⟨rfl, rfl, rfl, by simp, by simp [uAccepted]⟩
  | _ => simp [KAct.plain] at ha

/-- Nothing is accepted unless somebody sends. -/
theorem Kc.quiet_accept {s s' : Kc} {a : KAct} {es : List UEv} (hp : a.plain = true) (hi : (KpAct.k a).Internal) (h : s.step a = some (s', es)) : uAccepted es = [] := by
  cases a with
  | u a =>
    have hs : s.ux.step true a = some (s'.ux, es) := by
      cases a <;> simp only [Kc.step] at h <;> first
        | (cases h; done)
        | (rw [Option.map_eq_some_iff] at h; obtain ⟨⟨u, e⟩, h1, h2⟩ := h; cases h2; exact h1)
    cases a with
    | send m p f => exact absurd hi (by simp [KpAct.Internal])
    | loadReady => exact (Ux.internal_step (show UAct.Internal .loadReady from trivial) hs).2.2.1
    | loadFlag => exact (Ux.internal_step (show UAct.Internal .loadFlag from trivial) hs).2.2.1
    | runPosted => exact (Ux.internal_step (show UAct.Internal .runPosted from trivial) hs).2.2.1
    | resumeCheck => exact (Ux.internal_step (show UAct.Internal .resumeCheck from trivial) hs).2.2.1
    | handler i => exact (Ux.internal_step (show UAct.Internal (.handler i) from trivial) hs).2.2.1
    | _ => simp [KAct.plain] at hp
  | strand segs =>
    simp only [Kc.step] at h
    rw [Option.map_eq_some_iff] at h
    obtain ⟨⟨u, e⟩, h1, h2⟩ := h
    have he : es = e := by split at h2 <;> (cases h2; rfl)
    subst he
    rcases Ux.strand_events h1 with rfl | ⟨m, rfl, _⟩ <;> rfl
  | update n => simp only [Kc.step] at h; split at h <;> cases h; rfl
  | timerCC =>
    simp only [Kc.step] at h
    split at h
    · cases h
    · split at h
      · cases h
      · rw [Option.map_eq_some_iff] at h; obtain ⟨⟨u, e⟩, h1, h2⟩ := h; cases h2
        exact (Ux.internal_step (show UAct.Internal .timerCC from trivial) h1).2.2.1
  | poll =>
    simp only [Kc.step] at h
    split at h
    · cases h
    · split at h <;> cases h
      rfl
  | setMax n => simp only [Kc.step] at h; cases h; rfl
  | _ => simp [KAct.plain] at hp

/-- What a step gives to KCP, as messages. -/
theorem Kc.step_took {s s' : Kc} {a : KAct} {es : List UEv} (h : s.step a = some (s', es)) :
    ∃ w, s'.took = s.took ++ w ∧ (a ≠ .strand none → (∀ g ∈ s.given, g.2 = true) → ∀ g ∈ s'.given, g.2 = true) := by
  rcases Kc.step_given h with ⟨h1, _⟩ | ⟨n, m, segs, ha, _, _, _, _, _, _, _, hg⟩
  · exact ⟨[], by simp [Kc.took, h1], fun _ h2 => by rw [h1]; exact h2⟩
  · refine ⟨if segs.isSome then [m.data] else [], ?_, ?_⟩
    · simp only [Kc.took, hg, List.filter_append, List.map_append]
      cases segs <;> simp
    · intro hne h2 g hgm
      rw [hg, List.mem_append, List.mem_singleton] at hgm
      rcases hgm with hgm | rfl
      · exact h2 g hgm
      · cases segs with
        | none => exact absurd ha hne
        | some _ => rfl

theorem Kc.took_sublist (s : Kc) : s.took.Sublist (s.given.map (fun g => g.1.data)) := by
  unfold Kc.took
  exact List.Sublist.map _ List.filter_sublist

theorem Kc.took_all {s : Kc} (h : ∀ g ∈ s.given, g.2 = true) : s.took = s.given.map (fun g => g.1.data) := by
  unfold Kc.took
  rw [List.filter_eq_self.mpr h]

/-! ### the invariant -/

structure KPipe.Good (max buf limit : Nat) (s : KPipe) (es : List KpEv) : Prop where
  kc : ∃ kas kes, Kc.Run (Kc.init max) (.create :: .u .linkUp :: kas) s.kc kes ∧ (∀ a ∈ kas, a.plain = true) ∧ (∀ e ∈ kes, UPlainEv e) ∧
    (uAccepted kes).map UMsg.data = kpSent es
  ready : s.kc.ux.ready = true
  stopped : s.kc.ux.stopped = false
  writes : s.kc.ux.writes = []
  full : ∀ m ∈ kpSent es, m ≠ []
  arrived : s.arrived ≤ s.kc.took.length
  taken : s.taken = ((s.kc.took.take s.arrived).takeWhile (kpFits buf)).length
  rx : ∃ ras res, Rx.Run limit Rx.init ras s.rx res ∧ (∀ e ∈ res, RPlainEv e) ∧ rAccepted res = kpHandled es ∧ rReceived res = (s.kc.took.take s.arrived).takeWhile (kpFits buf)
  bad : s.bad = false
  rd : s.rx.rd ≠ .off
  dlost : s.rx.dlost = false

theorem KPipe.init_good (max buf limit : Nat) : KPipe.Good max buf limit (KPipe.init max) [] := by
  have hrx : Rx.step limit Rx.init .linkUp = some ({ Rx.init with rd := .reading }, []) := by simp [Rx.step, Rx.init]
  have hk : Kc.Run (Kc.init max) [.create, .u .linkUp] (KPipe.init max).kc [] := Kc.exec_run rfl
  refine ⟨⟨[], [], hk, by simp, by simp, rfl⟩, rfl, rfl, rfl, by simp [kpSent], Nat.le_refl _, rfl, ⟨_, _, Rx.run_one hrx, by simp, rfl, rfl⟩, rfl, by simp [KPipe.init], rfl⟩

theorem KPipe.Good.rx_inv {max buf limit : Nat} {s : KPipe} {es : List KpEv} (h : s.Good max buf limit es) : s.rx.Inv := by
  obtain ⟨ras, res, hrun, _⟩ := h.rx
  exact (Rx.run_inv Rx.init_inv hrun).1

/-- What KCP was given, and what waits, are the accepted messages. -/
theorem KPipe.Good.order {max buf limit : Nat} {s : KPipe} {es : List KpEv} (h : s.Good max buf limit es) :
    s.kc.given.map (fun g => g.1.data) ++ s.kc.ux.q.items.map UMsg.data = kpSent es ∧ s.kc.kcp.isSome = true := by
  obtain ⟨kas, kes, hr, hp, hpe, hacc⟩ := h.kc
  have hc : KAct.close ∉ (.u .linkUp :: kas : List KAct) := by
    intro hx
    rcases List.mem_cons.mp hx with hx | hx
    · cases hx
    · exact absurd (hp _ hx) (by simp [KAct.plain])
  refine ⟨?_, ?_⟩
  · have := C49_order max _ s.kc kes hr hc hpe
    rw [← hacc, ← this]
    simp [Function.comp_def]
  · have : ∀ (l : List KAct) (t : Kc) (fs : List UEv), Kc.Run (Kc.init max) l t fs → ∀ as, l = .create :: as → KAct.close ∉ as → t.kcp.isSome = true := by
      intro l t fs hr
      generalize h0 : Kc.init max = s0 at hr
      induction hr with
      | nil => intro as hl; cases hl
      | snoc s1 s2 l a es es' hr hs ih =>
        subst h0
        intro as hl hno
        cases l with
        | nil =>
          simp at hl
          obtain ⟨rfl, rfl⟩ := hl
          simp only [Kc.step] at hs
          split at hs <;> cases hs
          rfl
        | cons b bs =>
          simp at hl
          obtain ⟨rfl, rfl⟩ := hl
          exact Kc.step_kcp hs (fun hx => hno (by simp [hx])) (ih bs rfl (fun hx => hno (by simp [hx])))
    exact this _ _ _ hr _ rfl hc

theorem KPipe.Good.took_full {max buf limit : Nat} {s : KPipe} {es : List KpEv} (h : s.Good max buf limit es) : ∀ m ∈ s.kc.took, m ≠ [] := by
  intro m hm
  have h1 := (Kc.took_sublist s.kc).subset hm
  refine h.full m ?_
  rw [← h.order.1]
  exact List.mem_append_left _ h1

theorem KPipe.step_good {max : Nat} {nd : Bool} {buf limit : Nat} {s s' : KPipe} {a : KpAct} {es fs : List KpEv} (h : s.Good max buf limit es)
    (hs : s.step nd buf limit a = some (s', fs)) : s'.Good max buf limit (es ++ fs) := by
  cases a with
  | k a =>
    simp only [KPipe.step] at hs
    split at hs
    · next hpl =>
      rw [Option.map_eq_some_iff] at hs
      obtain ⟨⟨t, tes⟩, h1, h2⟩ := hs
      cases h2
      have hk := Kc.plain_kept h.order.2 hpl h1
      obtain ⟨w, hw, _⟩ := Kc.step_took h1
      obtain ⟨kas, kes, hr, hp, hpe, hacc⟩ := h.kc
      obtain ⟨v1, v2⟩ := kpTxEv_view tes
      have htk : (s.kc.took ++ w).take s.arrived = s.kc.took.take s.arrived := List.take_append_of_le_length h.arrived
      obtain ⟨ras, res, r1, r2, r3, r4⟩ := h.rx
      have hfull : ∀ m ∈ kpSent (es ++ tes.filterMap kpTxEv), m ≠ [] := by
        rw [kpSent_append, v1]
        intro m hm
        rw [List.mem_append, List.mem_map] at hm
        rcases hm with hm | ⟨x, hx, rfl⟩
        · exact h.full m hm
        · exact hk.full x hx
      refine ⟨⟨kas ++ [a], kes ++ tes, ?_, ?_, ?_, ?_⟩, hk.ready.trans h.ready, hk.stopped.trans h.stopped, hk.writes.trans h.writes, hfull, ?_, ?_,
        ⟨ras, res, r1, r2, ?_, ?_⟩, h.bad, h.rd, h.dlost⟩
      · exact Kc.Run.snoc _ _ _ _ _ _ _ hr h1
      · intro b hb
        rw [List.mem_append, List.mem_singleton] at hb
        rcases hb with hb | rfl
        · exact hp b hb
        · exact hpl
      · intro e he
        rw [List.mem_append] at he
        rcases he with he | he
        · exact hpe e he
        · exact hk.plain e he
      · rw [uAccepted_append, List.map_append, hacc, kpSent_append, v1]
      · have := h.arrived; simp only [hw, List.length_append]; omega
      · simp only [hw, htk]; exact h.taken
      · rw [kpHandled_append, v2, List.append_nil]; exact r3
      · simp only [hw, htk]; exact r4
    · cases hs
  | rx a =>
    simp only [KPipe.step] at hs
    split at hs
    · next hh =>
      rw [Option.map_eq_some_iff] at hs
      obtain ⟨⟨t, tes⟩, h1, h2⟩ := hs
      cases h2
      obtain ⟨e1, e2, e3, e4⟩ := RAct.healthy_step hh.2 h1
      obtain ⟨v1, v2⟩ := kpRxEv_view tes
      obtain ⟨ras, res, r1, r2, r3, r4⟩ := h.rx
      refine ⟨?_, h.ready, h.stopped, h.writes, ?_, h.arrived, h.taken, ⟨_, _, Rx.Run.snoc _ _ _ _ _ _ _ r1 h1, ?_, ?_, ?_⟩, h.bad, e2 h.rd, e1 h.dlost⟩
      · rw [kpSent_append, v2, List.append_nil]; exact h.kc
      · rw [kpSent_append, v2, List.append_nil]; exact h.full
      · intro e he
        rw [List.mem_append] at he
        rcases he with he | he
        · exact r2 e he
        · exact e4 e he
      · rw [rAccepted_append', kpHandled_append, v1, r3]
      · rw [rReceived_append, e3, List.append_nil]; exact r4
    · cases hs
  | net n =>
    obtain ⟨ras, res, r1, r2, r3, r4⟩ := h.rx
    simp only [KPipe.step] at hs
    split at hs
    · cases hs
    · next hc =>
      simp only [not_or, ne_eq, Classical.not_not, Nat.not_lt] at hc
      obtain ⟨hb, hrd, hle⟩ := hc
      have hsplit : s.kc.took.take (s.arrived + n) = s.kc.took.take s.arrived ++ (s.kc.took.drop s.arrived).take n := by
        rw [List.take_add]
      have hk : kcpRecv nd buf ((s.kc.took.take (s.arrived + n)).drop s.taken) =
          some (((s.kc.took.take (s.arrived + n)).drop s.taken).takeWhile (kpFits buf)) :=
        kcpRecv_eq nd buf _ (fun m hm => h.took_full m (List.mem_of_mem_take (List.mem_of_mem_drop hm)))
      rw [hk] at hs
      simp only [Option.map_eq_some_iff] at hs
      obtain ⟨⟨t, tes⟩, h1, h2⟩ := hs
      have hres := takeWhile_resume (kpFits buf) (s.kc.took.take s.arrived) ((s.kc.took.drop s.arrived).take n)
      rw [← hsplit, ← h.taken] at hres
      generalize hms : ((s.kc.took.take (s.arrived + n)).drop s.taken).takeWhile (kpFits buf) = ms at h1 h2 hres
      cases h2
      have hti := Rx.step_inv (Rx.run_inv Rx.init_inv r1).1 h1
      have hg : rReceived tes = ms ∧ (∀ e ∈ tes, RPlainEv e) ∧ t.rd ≠ .off ∧ t.dlost = false := by
        simp only [Rx.step, hrd] at h1
        simp only [ne_eq, not_true_eq_false, if_false] at h1
        split at h1
        · next he =>
          cases h1
          have : ms = [] := by simpa using he
          exact ⟨by rw [this]; rfl, by simp, by simp, h.dlost⟩
        · split at h1
          · cases h1; exact absurd hti.1.bad (by simp)
          · cases h1; exact ⟨by simp [rReceived], by simp [RPlainEv], by simp, h.dlost⟩
      obtain ⟨g1, g2, g3, g4⟩ := hg
      obtain ⟨v1, v2⟩ := kpRxEv_view tes
      refine ⟨?_, h.ready, h.stopped, h.writes, ?_, hle, ?_, ⟨_, _, Rx.Run.snoc _ _ _ _ _ _ _ r1 h1, ?_, ?_, ?_⟩, h.bad, g3, g4⟩
      · rw [kpSent_append, v2, List.append_nil]; exact h.kc
      · rw [kpSent_append, v2, List.append_nil]; exact h.full
      · simp only
        rw [← hres, List.length_append, ← h.taken]
      · intro e he
        rw [List.mem_append] at he
        rcases he with he | he
        · exact r2 e he
        · exact g2 e he
      · rw [rAccepted_append', kpHandled_append, v1, r3]
      · rw [rReceived_append, g1, r4]; exact hres

theorem KPipe.run_good {max : Nat} {nd : Bool} {buf limit : Nat} {s : KPipe} {as : List KpAct} {es : List KpEv} (h : KPipe.Run nd buf limit (KPipe.init max) as s es) :
    s.Good max buf limit es := by
  generalize h0 : KPipe.init max = s0 at h
  induction h with
  | nil => subst h0; exact KPipe.init_good max buf limit
  | snoc s1 s2 as a es fs _ hs ih => subst h0; exact KPipe.step_good ih hs

/-- ikcp_send refused nothing. -/
theorem KPipe.run_given {nd : Bool} {buf limit : Nat} {s0 s : KPipe} {as : List KpAct} {es : List KpEv} (h : KPipe.Run nd buf limit s0 as s es)
    (h0 : ∀ g ∈ s0.kc.given, g.2 = true) (ha : ∀ a ∈ as, a.NoRefusal) : ∀ g ∈ s.kc.given, g.2 = true := by
  induction h with
  | nil => exact h0
  | snoc s1 s2 as a es fs _ hs ih =>
    have ih := ih (fun x hx => ha x (by simp [hx]))
    have hna := ha a (by simp)
    cases a with
    | k a =>
      simp only [KPipe.step] at hs
      split at hs
      · rw [Option.map_eq_some_iff] at hs
        obtain ⟨⟨t, tes⟩, h1, h2⟩ := hs
        cases h2
        obtain ⟨w, _, hw⟩ := Kc.step_took h1
        exact hw (by rintro rfl; exact hna) ih
      · cases hs
    | rx a =>
      simp only [KPipe.step] at hs
      split at hs
      · rw [Option.map_eq_some_iff] at hs
        obtain ⟨⟨t, tes⟩, h1, h2⟩ := hs
        cases h2
        exact ih
      · cases hs
    | net n =>
      simp only [KPipe.step] at hs
      split at hs
      · cases hs
      · split at hs
        · cases hs; exact ih
        · rw [Option.map_eq_some_iff] at hs
          obtain ⟨⟨t, tes⟩, h1, h2⟩ := hs
          cases h2
          exact ih

theorem KPipe.run_trans {nd : Bool} {buf limit : Nat} {s s1 s2 : KPipe} {as bs : List KpAct} {es fs : List KpEv} (h1 : KPipe.Run nd buf limit s as s1 es)
    (h2 : KPipe.Run nd buf limit s1 bs s2 fs) : KPipe.Run nd buf limit s (as ++ bs) s2 (es ++ fs) := by
  induction h2 with
  | nil => simpa using h1
  | snoc s2 s3 bs a fs fs' _ hs ih =>
    rw [← List.append_assoc, ← List.append_assoc]
    exact KPipe.Run.snoc _ _ _ _ _ _ _ ih hs

theorem KPipe.run_one {nd : Bool} {buf limit : Nat} {s s1 : KPipe} {a : KpAct} {es : List KpEv} (h : s.step nd buf limit a = some (s1, es)) :
    KPipe.Run nd buf limit s [a] s1 es := by
  simpa using KPipe.Run.snoc _ _ _ _ _ _ _ (KPipe.Run.nil (nd := nd) (buf := buf) (limit := limit) s) h

theorem KPipe.exec_run {nd : Bool} {buf limit : Nat} {s s' : KPipe} {as : List KpAct} {es : List KpEv} (h : KPipe.exec nd buf limit s as = some (s', es)) :
    KPipe.Run nd buf limit s as s' es := by
  induction as generalizing s es with
  | nil => simp [KPipe.exec] at h; obtain ⟨rfl, rfl⟩ := h; exact KPipe.Run.nil _
  | cons a as ih =>
    simp only [KPipe.exec, Option.bind_eq_bind] at h
    rw [Option.bind_eq_some_iff] at h
    obtain ⟨⟨s1, e1⟩, h1, h2⟩ := h
    rw [Option.bind_eq_some_iff] at h2
    obtain ⟨⟨s2, e2⟩, h2, h3⟩ := h2
    simp at h3
    obtain ⟨rfl, rfl⟩ := h3
    exact KPipe.run_trans (KPipe.run_one h1) (ih h2)

/-! ### progress -/

/-- What goes on at the sender without its user, when ikcp_send refuses nothing. -/
def KAct.auto (a : KAct) : Prop := a.plain = true ∧ (a.Internal ∨ a.Kcp) ∧ a ≠ .strand none

theorem Kc.auto_step {s s' : Kc} {a : KAct} {es : List UEv} (hw : s.ux.writes = []) (ha : a.Internal) (h : s.step a = some (s', es)) :
    ∃ b t fs, b.auto ∧ b.Internal ∧ s.step b = some (t, fs) := by
  cases a with
  | u a =>
    cases a with
    | complete i ok fatal => simp [Kc.step, Ux.step, hw] at h
    | loadReady => exact ⟨_, _, _, ⟨rfl, Or.inl ha, by simp⟩, ha, h⟩
    | loadFlag => exact ⟨_, _, _, ⟨rfl, Or.inl ha, by simp⟩, ha, h⟩
    | runPosted => exact ⟨_, _, _, ⟨rfl, Or.inl ha, by simp⟩, ha, h⟩
    | resumeCheck => exact ⟨_, _, _, ⟨rfl, Or.inl ha, by simp⟩, ha, h⟩
    | handler i => exact ⟨_, _, _, ⟨rfl, Or.inl ha, by simp⟩, ha, h⟩
    | _ => exact absurd ha (by simp [KAct.Internal])
  | strand segs =>
    have : ∃ r, s.step (.strand (some 1)) = some r := by
      simp only [Kc.step] at h ⊢
      rw [Option.map_eq_some_iff] at h
      obtain ⟨r, h1, _⟩ := h
      rw [h1]
      exact ⟨_, rfl⟩
    obtain ⟨⟨t, fs⟩, hr⟩ := this
    exact ⟨.strand (some 1), t, fs, ⟨rfl, Or.inl trivial, by simp⟩, trivial, hr⟩
  | timerCC => exact ⟨_, _, _, ⟨rfl, Or.inl ha, by simp⟩, ha, h⟩
  | _ => exact absurd ha (by simp [KAct.Internal])

theorem Kc.plain_run {s s' : Kc} {as : List KAct} {es : List UEv} (h : Kc.Run s as s' es) (hk : s.kcp.isSome = true) (ha : ∀ a ∈ as, a.plain = true) :
    s'.ux.writes = s.ux.writes ∧ s'.kcp.isSome = true := by
  induction h with
  | nil => exact ⟨rfl, hk⟩
  | snoc s1 s2 as a es es' _ hs ih =>
    obtain ⟨i1, i2⟩ := ih (fun x hx => ha x (by simp [hx]))
    have hp := ha a (by simp)
    exact ⟨(Kc.plain_kept i2 hp hs).writes.trans i1, Kc.step_kcp hs (KAct.plain_close hp) i2⟩

/-- The send buffer gets empty, without ikcp_send refusing a message. -/
theorem Kc.empties {max : Nat} : ∀ (w : Nat) (as : List KAct) (s : Kc) (es : List UEv), s.work ≤ w → Kc.Run (Kc.init max) as s es → s.ux.ready = true →
    kFatalSinceUp as = false → s.ux.stopped = false → s.kcp.isSome = true → s.ux.writes = [] →
    ∃ as' s' es', Kc.Run s as' s' es' ∧ (∀ a ∈ as', a.auto) ∧ s'.ux.q.items = [] := by
  intro w
  induction w with
  | zero =>
    intro as s es hw _ _ _ _ _ _
    exact ⟨[], s, [], .nil s, by simp, by
      have : s.ux.q.items.length = 0 := by simp only [Kc.work] at hw; omega
      exact List.eq_nil_of_length_eq_zero this⟩
  | succ w ih =>
    intro as s es hw h hr hf hst hk hwr
    have go : ∀ (cs : List KAct) (t : Kc) (fs : List UEv), Kc.Run s cs t fs → (∀ a ∈ cs, a.auto) → t.work < s.work →
        ∃ as' s' es', Kc.Run s as' s' es' ∧ (∀ a ∈ as', a.auto) ∧ s'.ux.q.items = [] := by
      intro cs t fs hrun hcs hlt
      obtain ⟨k1, k2, k3, k4⟩ := Kc.run_keep hrun (fun a ha => (hcs a ha).2.1)
      obtain ⟨k5, _⟩ := Kc.plain_run hrun hk (fun a ha => (hcs a ha).1)
      obtain ⟨as', s', es', r1, r2, r3⟩ := ih (as ++ cs) t (es ++ fs) (by omega) (Kc.run_trans h hrun) (k1.trans hr)
        (by unfold kFatalSinceUp at *; rw [List.foldl_append, hf]; exact k3) (k2.trans hst) (k4 hk) (k5.trans hwr)
      refine ⟨cs ++ as', s', fs ++ es', Kc.run_trans hrun r1, ?_, r3⟩
      intro a ha
      rcases List.mem_append.mp ha with ha | ha
      · exact hcs a ha
      · exact r2 a ha
    by_cases hex : ∃ a s' es', KAct.Internal a ∧ s.step a = some (s', es')
    · obtain ⟨a, s', es', ha, hs⟩ := hex
      obtain ⟨b, t, fs, hb, hbi, hbs⟩ := Kc.auto_step hwr ha hs
      exact go [b] t fs (Kc.run_one hbs) (by simpa using hb) (Kc.step_work (Kc.run_inv h) hbi hbs)
    · rcases C49_not_stranded_partial max as s es h hr hf hst hk (fun a s' es' ha hs => hex ⟨a, s', es', ha, hs⟩) with hq | ⟨hc, n, hkn, hn⟩
      · exact ⟨[], s, [], .nil s, by simp, hq⟩
      · have h1 : s.step (.update n) = some ({ s with kcp := some 0 }, []) := by simp [Kc.step, hkn]
        obtain ⟨t, h2, _⟩ := C49_timer_resumes { s with kcp := some 0 } 0 hc rfl (Nat.zero_le _)
        have w1 := Kc.kcp_work (show KAct.Kcp (.update n) from trivial) h1
        have w2 := Kc.step_work (s := { s with kcp := some 0 }) (show s.ux.Inv from Kc.run_inv h) (show KAct.Internal .timerCC from trivial) h2
        exact go _ t _ (Kc.run_trans (Kc.run_one h1) (Kc.run_one h2)) (by
          intro a ha
          simp at ha
          rcases ha with rfl | rfl
          · exact ⟨rfl, Or.inr trivial, by simp⟩
          · exact ⟨rfl, Or.inl trivial, by simp⟩) (by omega)

theorem KPipe.lift_kc {nd : Bool} {buf limit : Nat} {s : KPipe} {t : Kc} {as : List KAct} {es : List UEv} (h : Kc.Run s.kc as t es) (ha : ∀ a ∈ as, a.plain = true) :
    KPipe.Run nd buf limit s (as.map .k) { s with kc := t } (es.filterMap kpTxEv) := by
  generalize h0 : s.kc = k0 at h
  induction h with
  | nil => subst h0; exact KPipe.Run.nil _
  | snoc s1 s2 as a es es' _ hs ih =>
    subst h0
    rw [List.map_append, List.filterMap_append]
    refine KPipe.Run.snoc _ _ _ _ _ _ _ (ih (fun x hx => ha x (by simp [hx]))) ?_
    simp only [KPipe.step, ha a (by simp), if_true, hs, Option.map_some]

theorem KPipe.lift_rx {nd : Bool} {buf limit : Nat} {s : KPipe} {t : Rx} {as : List RAct} {es : List REv} (hb : s.bad = false) (h : Rx.Run limit s.rx as t es)
    (ha : ∀ a ∈ as, a.Internal) : KPipe.Run nd buf limit s (as.map .rx) { s with rx := t } (es.filterMap kpRxEv) := by
  generalize h0 : s.rx = k0 at h
  induction h with
  | nil => subst h0; exact KPipe.Run.nil _
  | snoc s1 s2 as a es es' _ hs ih =>
    subst h0
    rw [List.map_append, List.filterMap_append]
    refine KPipe.Run.snoc _ _ _ _ _ _ _ (ih (fun x hx => ha x (by simp [hx]))) ?_
    have := RAct.internal_healthy (ha a (by simp))
    simp only [KPipe.step, hb, this, and_self, if_true, hs, Option.map_some]

/-- The receiver handles what it has and waits for the next datagram. -/
theorem KPipe.rest {max : Nat} {nd : Bool} {buf limit : Nat} (hlim : 0 < limit) {s : KPipe} {es : List KpEv} (h : s.Good max buf limit es) :
    ∃ (as : List RAct) (t : Rx) (fs : List KpEv), KPipe.Run nd buf limit s (as.map .rx) { s with rx := t } fs ∧ (∀ a ∈ as, RAct.Internal a) ∧ t.rd = .reading ∧
      kpHandled (es ++ fs) = (s.kc.took.take s.arrived).takeWhile (kpFits buf) := by
  obtain ⟨as, t, res', hr, ha, hq, _⟩ := Rx.drain limit s.rx.work s.rx h.rx_inv (Nat.le_refl _)
  have hrun := KPipe.lift_rx (nd := nd) (buf := buf) h.bad hr ha
  obtain ⟨i1, i2, i3, i4⟩ := Rx.internal_run hr ha
  have hinv := (Rx.run_inv h.rx_inv hr).1
  obtain ⟨q1, q2⟩ := Rx.quiet_empty hinv hq (i1 h.dlost)
  refine ⟨as, t, _, hrun, ha, Rx.quiet_reading hlim hinv hq (i1 h.dlost) (i2 h.rd), ?_⟩
  obtain ⟨ras, res, r1, r2, r3, r4⟩ := h.rx
  have hfull := Rx.run_trans r1 hr
  have hmon := rMonitor_plain (Rx.run_inv Rx.init_inv hfull).2 (by
    intro e he
    rw [List.mem_append] at he
    rcases he with he | he
    · exact r2 e he
    · exact i4 e he)
  simp only [Rx.ideal, q1, q2] at hmon
  simp only [Rx.init, Q.init, Option.toList_none, List.nil_append, List.append_nil] at hmon
  rw [kpHandled_append, (kpRxEv_view res').1, ← r3, ← rAccepted_append', ← hmon, rReceived_append, i3, List.append_nil, r4]

end StAsio
