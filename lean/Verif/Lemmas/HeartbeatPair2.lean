import Verif.Lemmas.HeartbeatPair
/-!
C100: silence is noticed, and time goes on.
-/
set_option autoImplicit false
namespace StAsio

/-! ### a silent peer is noticed -/

/-- What is known of an end that is up: how long ago it heard from its peer (`d`), and that the next check comes in time. -/
def KEnd.Watches (c : HbCfg) (k : KTime) (x : KEnd) (heard : Option Nat) : Prop :=
  1000 ≤ x.hb.clock ∧ (x.hb.ready = true → x.begun = true ∧ ∃ d, heard = some d ∧ d + 1000 ≤ x.hb.clock ∧ x.hb.lastRecv = (x.hb.clock - d) / 1000 ∧ x.due ≤ x.hb.clock + 1000 * c.interval ∧ x.hb.clock ≤ x.due + k.J ∧
    x.due + d ≤ x.hb.clock + 1000 * (c.interval * c.maxAbsence) + 1000 * c.interval)

theorem heardAgo_snoc (e : KSide) (as : List KlAct) (a : KlAct) : heardAgo e (as ++ [a]) = (match a with
    | .pass d => (heardAgo e as).map (· + d)
    | .start e' _ => if e' = e then some 0 else heardAgo e as
    | .recv e' => if e' = e then some 0 else heardAgo e as
    | _ => heardAgo e as) := by
  simp only [heardAgo, List.foldl_append, List.foldl_cons, List.foldl_nil]
  cases a <;> rfl

theorem KEnd.Watches.congr {c : HbCfg} {k : KTime} {x x' : KEnd} {o : Option Nat} (h : x.Watches c k o) (h1 : x'.hb.clock = x.hb.clock) (h2 : x'.hb.ready = x.hb.ready) (h3 : x'.hb.lastRecv = x.hb.lastRecv)
    (h4 : x'.due = x.due) (h5 : x'.begun = x.begun) : x'.Watches c k o := by
  unfold KEnd.Watches
  rw [h1, h2, h3, h4, h5]
  exact h

/-- A write changes nothing that matters here. -/
theorem KLink.watches_write {c : KSide → HbCfg} {k : KTime} {s : KLink} {e e' : KSide} {o : Option Nat} (h : (s.get e').Watches (c e') k o) : ((s.write e).get e').Watches (c e') k o := by
  rcases KSide.eq_or e e' with rfl | rfl
  · rw [KLink.get_write_same]; exact h.congr rfl rfl rfl rfl rfl
  · rw [KLink.get_write_other]; exact h.congr rfl rfl rfl rfl rfl

theorem KLink.watches_set {c : KSide → HbCfg} {k : KTime} {s : KLink} {e e' : KSide} {o : Option Nat} {x : KEnd} (h : (s.get e').Watches (c e') k o) (hx : e' = e → x.Watches (c e') k o) : ((s.set e x).get e').Watches (c e') k o := by
  rcases KSide.eq_or e e' with rfl | rfl
  · rw [KLink.get_set_same]; exact hx rfl
  · rw [KLink.get_set_other]; exact h

theorem KLink.watches_send {c : KSide → HbCfg} {k : KTime} {s : KLink} {e e' : KSide} {o : Option Nat} (h : (s.get e').Watches (c e') k o) : ((s.send e).get e').Watches (c e') k o := by
  simp only [KLink.send]
  split
  · exact KLink.watches_write h
  · exact KLink.watches_set h (fun he => by subst he; exact h.congr rfl rfl rfl rfl rfl)

theorem KLink.watches_step {c : KSide → HbCfg} {k : KTime} {s s' : KLink} {a : KlAct} {es : List KEv} {as : List KlAct} (hc : ∀ e, KSettings (c e)) (h : ∀ e, (s.get e).Watches (c e) k (heardAgo e as))
    (hs : s.step c k a = some (s', es)) : ∀ e, (s'.get e).Watches (c e) k (heardAgo e (as ++ [a])) := by
  intro e
  rw [heardAgo_snoc]
  cases a with
  | cut => simp only [KLink.step, Option.some.injEq, Prod.mk.injEq] at hs; obtain ⟨rfl, rfl⟩ := hs; exact h e
  | pass d =>
    simp only [KLink.step] at hs
    split at hs
    · rename_i hp
      simp only [Bool.and_eq_true] at hp
      cases hs
      have hp' : (s.get e).canPass k s.cut d = true := by cases e; exact hp.1; exact hp.2
      obtain ⟨h0, h1⟩ := h e
      refine ⟨by show 1000 ≤ (s.get e).hb.clock + d; omega, fun hr => ?_⟩
      have hr' : (s.get e).hb.ready = true := hr
      obtain ⟨b, x, h2, h3, h4, h5, h6, h7⟩ := h1 hr'
      simp only [KEnd.canPass, b, hr'] at hp'
      simp at hp'
      refine ⟨b, x + d, by simp [h2], ?_, ?_, ?_, hp'.1, ?_⟩
      · show x + d + 1000 ≤ (s.get e).hb.clock + d; omega
      · show (s.get e).hb.lastRecv = ((s.get e).hb.clock + d - (x + d)) / 1000
        rw [h4, Nat.add_sub_add_right]
      · show (s.get e).due ≤ (s.get e).hb.clock + d + _; omega
      · show (s.get e).due + (x + d) ≤ (s.get e).hb.clock + d + _ + _; omega
    · cases hs
  | start e' d =>
    simp only [KLink.step] at hs
    split at hs
    · rename_i hp
      cases hs
      simp only
      split
      · rename_i he
        subst he
        rw [KLink.get_set_same]
        have h0 := (h e').1
        refine ⟨h0, fun _ => ⟨rfl, 0, rfl, ?_, rfl, ?_, ?_, ?_⟩⟩
        · show 0 + 1000 ≤ (s.get e').hb.clock; omega
        · show (s.get e').hb.clock + d ≤ (s.get e').hb.clock + _; omega
        · show (s.get e').hb.clock ≤ (s.get e').hb.clock + d + _; omega
        · show (s.get e').hb.clock + d + 0 ≤ (s.get e').hb.clock + _ + _; omega
      · rename_i he
        exact KLink.watches_set (h e) (fun hh => absurd hh.symm he)
    · cases hs
  | recv e' =>
    simp only [KLink.step] at hs
    split at hs
    · rename_i hp
      cases hi : (s.get e').inbox with
      | nil => rw [hi] at hs; cases hs
      | cons t rest =>
        rw [hi] at hs
        simp only [Option.some.injEq, Prod.mk.injEq] at hs
        obtain ⟨rfl, rfl⟩ := hs
        simp only
        split
        · rename_i he
          subst he
          rw [KLink.get_set_same]
          obtain ⟨h0, h1⟩ := h e'
          obtain ⟨b, x, h2, h3, h4, h5, h6, h7⟩ := h1 hp.1
          refine ⟨h0, fun _ => ⟨b, 0, rfl, ?_, rfl, h5, h6, ?_⟩⟩
          · show 0 + 1000 ≤ (s.get e').hb.clock; omega
          · show (s.get e').due + 0 ≤ (s.get e').hb.clock + _ + _; omega
        · rename_i he
          exact KLink.watches_set (h e) (fun hh => absurd hh.symm he)
    · cases hs
  | send e' =>
    simp only [KLink.step] at hs
    split at hs
    · cases hs; exact KLink.watches_send (h e)
    · cases hs
  | sent e' =>
    simp only [KLink.step] at hs
    split at hs
    · cases hs
      have base : ((s.set e' { s.get e' with wr := none, hb := { (s.get e').hb with sending := false, lastSend := (s.get e').hb.time } }).get e).Watches (c e) k (heardAgo e as) :=
        KLink.watches_set (h e) (fun he => by subst he; exact (h e).congr rfl rfl rfl rfl rfl)
      simp only [KLink.sent]
      split
      · exact KLink.watches_write base
      · exact base
    · cases hs
  | check e' =>
    simp only [KLink.step] at hs
    split at hs
    · rename_i hp
      obtain ⟨h0, h1⟩ := h e'
      obtain ⟨b, x, h2, h3, h4, h5, h6, h7⟩ := h1 hp.1
      have hl : 0 < (s.get e').hb.lastRecv := by rw [h4]; omega
      rcases Hb.check_tcp (hc e') hl hp.1 with ⟨hd, he⟩ | ⟨hd, hh⟩
      · simp only [KLink.check, he] at hs
        simp only [Bool.false_eq_true, if_false, Option.some.injEq, Prod.mk.injEq] at hs
        obtain ⟨rfl, rfl⟩ := hs
        exact KLink.watches_set (h e) (fun _ => ⟨h0, fun hh => by cases hh⟩)
      · have arm : ((s.set e' ((s.get e').arm (s.get e').hb ((s.get e').hb.clock + 1000 * (c e').interval))).get e).Watches (c e) k (heardAgo e as) := by
          refine KLink.watches_set (h e) (fun he => ?_)
          subst he
          refine ⟨h0, fun _ => ⟨b, x, h2, h3, h4, Nat.le_refl _, ?_, ?_⟩⟩
          · show (s.get e).hb.clock ≤ (s.get e).hb.clock + 1000 * (c e).interval + k.J; omega
          · show (s.get e).hb.clock + 1000 * (c e).interval + x ≤ (s.get e).hb.clock + _ + _
            generalize (c e).interval * (c e).maxAbsence = P at *
            omega
        rcases hh with ⟨he, _⟩ | ⟨he, _⟩
        · simp only [KLink.check, he, if_true, List.mem_singleton, Option.some.injEq, Prod.mk.injEq] at hs
          obtain ⟨rfl, rfl⟩ := hs
          exact KLink.watches_send arm
        · simp only [KLink.check, he, if_true, List.not_mem_nil, if_false, Option.some.injEq, Prod.mk.injEq] at hs
          obtain ⟨rfl, rfl⟩ := hs
          exact arm
    · cases hs

theorem KLink.watches_run {c : KSide → HbCfg} {k : KTime} {t : KSide → Nat} {s' : KLink} {as : List KlAct} {es : List KEv} (hc : ∀ e, KSettings (c e)) (ht : ∀ e, 1000 ≤ t e)
    (hr : KLink.Run c k (KLink.init t) as s' es) : ∀ e, (s'.get e).Watches (c e) k (heardAgo e as) := by
  generalize h0 : KLink.init t = s at hr
  induction hr with
  | nil => subst h0; exact fun e => ⟨ht e, fun h => by cases h⟩
  | snoc s1 s2 as a es es' _ hs ih => exact KLink.watches_step hc ih hs

/-! ### each end reports at most once, and then it is not up any more -/

/-- An end reported a time-out exactly if it was started and is not up. -/
def KEnd.Told (x : KEnd) (e : KSide) (heard : Option Nat) (es : List KEv) : Prop :=
  (x.begun = heard.isSome) ∧ (x.begun = false → x.hb.ready = false) ∧ es.count (.timeout e) = if x.begun = true ∧ x.hb.ready = false then 1 else 0

theorem KEnd.Told.congr {x x' : KEnd} {e : KSide} {o : Option Nat} {es : List KEv} (h : x.Told e o es) (h1 : x'.begun = x.begun) (h2 : x'.hb.ready = x.hb.ready) : x'.Told e o es := by
  unfold KEnd.Told
  rw [h1, h2]
  exact h

theorem KLink.told_write {s : KLink} {e e' : KSide} {o : Option Nat} {es : List KEv} (h : (s.get e').Told e' o es) : ((s.write e).get e').Told e' o es := by
  rcases KSide.eq_or e e' with rfl | rfl
  · rw [KLink.get_write_same]; exact h.congr rfl rfl
  · rw [KLink.get_write_other]; exact h.congr rfl rfl

theorem KLink.told_set {s : KLink} {e e' : KSide} {o : Option Nat} {es : List KEv} {x : KEnd} (h : e' ≠ e → (s.get e').Told e' o es) (hx : e' = e → x.Told e' o es) : ((s.set e x).get e').Told e' o es := by
  rcases KSide.eq_or e e' with rfl | rfl
  · rw [KLink.get_set_same]; exact hx rfl
  · rw [KLink.get_set_other]; exact h (KSide.other_ne e)

theorem KLink.told_send {s : KLink} {e e' : KSide} {o : Option Nat} {es : List KEv} (h : (s.get e').Told e' o es) : ((s.send e).get e').Told e' o es := by
  simp only [KLink.send]
  split
  · exact KLink.told_write h
  · exact KLink.told_set (fun _ => h) (fun he => by subst he; exact h.congr rfl rfl)

/-- What check_heartbeat does, whatever the settings, as far as time-outs are concerned. -/
theorem Hb.check_ends {c : HbCfg} (hk : c.kind = .tcp) {h h' : Hb} {go : Bool} {l : List HbEv} (hs : h.check c = some (h', go, l)) :
    h'.ready = h.ready ∧ (go = true → HbEv.timeout ∉ l) ∧ (go = false → l = [.timeout]) := by
  simp only [Hb.check] at hs
  split at hs
  · split at hs
    · split at hs
      · cases hs; exact ⟨rfl, fun hh => (by cases hh), fun _ => rfl⟩
      · rename_i hd
        cases hs
        have hd' : ¬ (((c.interval * c.maxAbsence : Nat) : Int) ≤ (h.time : Int) - h.lastRecv) := fun hh => hd ⟨decide_eq_true hh, hk⟩
        rw [decide_eq_false hd']
        refine ⟨rfl, fun _ => ?_, fun hh => by cases hh⟩
        simp only [Bool.false_eq_true, if_false, List.nil_append]
        split <;> simp
    · cases hs
  · cases hs; exact ⟨rfl, fun _ => by simp, fun hh => by cases hh⟩

theorem KLink.told_step {c : KSide → HbCfg} {k : KTime} {s s' : KLink} {a : KlAct} {es es' : List KEv} {as : List KlAct} (hc : ∀ e, KSettings (c e)) (h : ∀ e, (s.get e).Told e (heardAgo e as) es)
    (hs : s.step c k a = some (s', es')) : ∀ e, (s'.get e).Told e (heardAgo e (as ++ [a])) (es ++ es') := by
  intro e
  rw [heardAgo_snoc]
  cases a with
  | cut => simp only [KLink.step, Option.some.injEq, Prod.mk.injEq] at hs; obtain ⟨rfl, rfl⟩ := hs; simpa using h e
  | pass d =>
    simp only [KLink.step] at hs
    split at hs
    · cases hs
      obtain ⟨h1, h2, h3⟩ := h e
      refine ⟨?_, h2, by rw [List.append_nil]; exact h3⟩
      simp only [Option.isSome_map]; exact h1
    · cases hs
  | start e' d =>
    simp only [KLink.step] at hs
    split at hs
    · rename_i hp
      cases hs
      simp only [List.append_nil]
      split
      · rename_i he
        subst he
        rw [KLink.get_set_same]
        obtain ⟨h1, h2, h3⟩ := h e'
        rw [if_neg (fun hh => absurd (hp.1.symm.trans hh.1) (by simp))] at h3
        refine ⟨rfl, fun hh => (by cases hh), ?_⟩
        rw [h3, if_neg (fun hh => by cases hh.2)]
      · rename_i he
        exact KLink.told_set (fun _ => h e) (fun hh => absurd hh.symm he)
    · cases hs
  | recv e' =>
    simp only [KLink.step] at hs
    split at hs
    · rename_i hp
      cases hi : (s.get e').inbox with
      | nil => rw [hi] at hs; cases hs
      | cons t rest =>
        rw [hi] at hs
        simp only [Option.some.injEq, Prod.mk.injEq] at hs
        obtain ⟨rfl, rfl⟩ := hs
        simp only [List.append_nil]
        split
        · rename_i he
          subst he
          rw [KLink.get_set_same]
          obtain ⟨h1, h2, h3⟩ := h e'
          have hb : (s.get e').begun = true := by
            cases hb : (s.get e').begun with
            | true => rfl
            | false => have := h2 hb; rw [hp.1] at this; cases this
          exact ⟨hb, h2, h3⟩
        · rename_i he
          exact KLink.told_set (fun _ => h e) (fun hh => absurd hh.symm he)
    · cases hs
  | send e' =>
    simp only [KLink.step] at hs
    split at hs
    · cases hs; simp only [List.append_nil]; exact KLink.told_send (h e)
    · cases hs
  | sent e' =>
    simp only [KLink.step] at hs
    split at hs
    · cases hs
      simp only [List.append_nil]
      have base : ((s.set e' { s.get e' with wr := none, hb := { (s.get e').hb with sending := false, lastSend := (s.get e').hb.time } }).get e).Told e (heardAgo e as) es :=
        KLink.told_set (fun _ => h e) (fun he => by subst he; exact (h e).congr rfl rfl)
      simp only [KLink.sent]
      split
      · exact KLink.told_write base
      · exact base
    · cases hs
  | check e' =>
    simp only [KLink.step] at hs
    split at hs
    · rename_i hp
      simp only [KLink.check] at hs
      cases hx : (s.get e').hb.check (c e') with
      | none => rw [hx] at hs; cases hs
      | some r =>
        obtain ⟨h', go, l⟩ := r
        obtain ⟨k1, k2, k3⟩ := Hb.check_ends (hc e').tcp hx
        rw [hx] at hs
        simp only at hs
        cases go with
        | true =>
          simp only [if_true, Option.some.injEq, Prod.mk.injEq] at hs
          obtain ⟨rfl, rfl⟩ := hs
          have hn : ∀ e0 : KSide, (l.map fun | HbEv.timeout => KEv.timeout e' | HbEv.heartbeat => KEv.beat e').count (.timeout e0) = 0 := by
            intro e0
            rw [List.count_eq_zero]
            intro hm
            obtain ⟨v, hv, hv'⟩ := List.mem_map.mp hm
            cases v with
            | timeout => exact k2 rfl hv
            | heartbeat => cases hv'
          have base : ((s.set e' ((s.get e').arm h' ((s.get e').hb.clock + 1000 * (c e').interval))).get e).Told e (heardAgo e as)
              (es ++ l.map fun | HbEv.timeout => KEv.timeout e' | HbEv.heartbeat => KEv.beat e') := by
            have h0 : (s.get e).Told e (heardAgo e as) (es ++ l.map fun | HbEv.timeout => KEv.timeout e' | HbEv.heartbeat => KEv.beat e') := by
              obtain ⟨h1, h2, h3⟩ := h e
              exact ⟨h1, h2, by rw [List.count_append, hn, Nat.add_zero]; exact h3⟩
            exact KLink.told_set (fun _ => h0) (fun he => by subst he; exact h0.congr rfl k1)
          split
          · exact KLink.told_send base
          · exact base
        | false =>
          simp only [Bool.false_eq_true, if_false, Option.some.injEq, Prod.mk.injEq] at hs
          obtain ⟨rfl, rfl⟩ := hs
          rw [k3 rfl]
          refine KLink.told_set (fun he => ?_) (fun he => ?_)
          · obtain ⟨h1, h2, h3⟩ := h e
            refine ⟨h1, h2, ?_⟩
            rw [List.count_append, h3, (List.count_eq_zero (l := [HbEv.timeout].map _)).mpr, Nat.add_zero]
            simp only [List.map_cons, List.map_nil, List.mem_singleton, KEv.timeout.injEq]
            exact he
          · subst he
            obtain ⟨h1, h2, h3⟩ := h e
            have hb : (s.get e).begun = true := by
              cases hb : (s.get e).begun with
              | true => rfl
              | false => have := h2 hb; rw [hp.1] at this; cases this
            refine ⟨h1, fun _ => rfl, ?_⟩
            rw [List.count_append, h3, if_neg (fun hh => by rw [hp.1] at hh; cases hh.2), if_pos ⟨hb, rfl⟩]
            simp
    · cases hs

theorem KLink.told_run {c : KSide → HbCfg} {k : KTime} {t : KSide → Nat} {s' : KLink} {as : List KlAct} {es : List KEv} (hc : ∀ e, KSettings (c e))
    (hr : KLink.Run c k (KLink.init t) as s' es) : ∀ e, (s'.get e).Told e (heardAgo e as) es := by
  generalize h0 : KLink.init t = s at hr
  induction hr with
  | nil => subst h0; exact fun e => ⟨rfl, fun _ => rfl, rfl⟩
  | snoc s1 s2 as a es es' _ hs ih => exact KLink.told_step hc ih hs

/-! ### time goes on -/

/-- How much time passes in a history. -/
def passed (as : List KlAct) : Nat := (as.map fun | .pass d => d | _ => 0).sum

/-- A continuation in which `n` ms pass and the network is not cut. -/
def KLink.Leads (c : KSide → HbCfg) (k : KTime) (n : Nat) (s s' : KLink) : Prop := ∃ as es, KLink.Run c k s as s' es ∧ passed as = n ∧ NetworkWorks as

theorem KLink.Leads.refl {c : KSide → HbCfg} {k : KTime} (s : KLink) : KLink.Leads c k 0 s s := ⟨[], [], .nil s, rfl, by simp [NetworkWorks]⟩

theorem KLink.Leads.trans {c : KSide → HbCfg} {k : KTime} {m n : Nat} {s s1 s2 : KLink} (h1 : KLink.Leads c k m s s1) (h2 : KLink.Leads c k n s1 s2) : KLink.Leads c k (m + n) s s2 := by
  obtain ⟨as, es, r1, p1, w1⟩ := h1
  obtain ⟨bs, fs, r2, p2, w2⟩ := h2
  refine ⟨as ++ bs, es ++ fs, r1.trans r2, ?_, ?_⟩
  · simp only [passed, List.map_append, List.sum_append] at *; omega
  · simp only [NetworkWorks, List.mem_append, not_or] at *; exact ⟨w1, w2⟩

theorem KLink.Leads.one {c : KSide → HbCfg} {k : KTime} {s s1 : KLink} {a : KlAct} {es : List KEv} (h : s.step c k a = some (s1, es)) (ha : a ≠ .cut) : KLink.Leads c k (passed [a]) s s1 :=
  ⟨[a], es, KLink.Run.one h, rfl, by simp only [NetworkWorks, List.mem_singleton]; exact fun hh => ha hh.symm⟩

/-- Neither the timer nor the write of an end is overdue. -/
def KEnd.Calm (k : KTime) (x : KEnd) : Prop := x.begun = true ∧ (x.hb.ready = true → x.hb.clock < x.due ∧ ∀ t, x.wr = some t → x.hb.clock < t + k.W)

/-- The peer's timer and writes are not touched. -/
theorem KLink.calm_write {k : KTime} {s : KLink} {e : KSide} (h : (s.get e.other).Calm k) : ((s.write e).get e.other).Calm k := by
  rw [KLink.get_write_other]; exact h

theorem KLink.calm_send {k : KTime} {s : KLink} {e : KSide} (h : (s.get e.other).Calm k) : ((s.send e).get e.other).Calm k := by
  simp only [KLink.send]
  split
  · exact KLink.calm_write h
  · rw [KLink.get_set_other]; exact h

theorem KLink.get_send_same (s : KLink) (e : KSide) : ((s.send e).get e).begun = (s.get e).begun ∧ ((s.send e).get e).due = (s.get e).due ∧ ((s.send e).get e).hb.clock = (s.get e).hb.clock := by
  simp only [KLink.send]
  split
  · rw [KLink.get_write_same]; exact ⟨rfl, rfl, rfl⟩
  · rw [KLink.get_set_same]; exact ⟨rfl, rfl, rfl⟩

/-- An end can do what is due, at once. -/
theorem KLink.calms {c : KSide → HbCfg} {k : KTime} (hc : ∀ e, KSettings (c e)) (hw : 0 < k.W) (s : KLink) (e : KSide) :
    ∃ s', KLink.Leads c k 0 s s' ∧ (s'.get e).Calm k ∧ ((s.get e.other).Calm k → (s'.get e.other).Calm k) := by
  -- start
  obtain ⟨s1, l1, b1, o1⟩ : ∃ s', KLink.Leads c k 0 s s' ∧ (s'.get e).begun = true ∧ ((s.get e.other).Calm k → (s'.get e.other).Calm k) := by
    cases hb : (s.get e).begun with
    | true => exact ⟨s, .refl s, hb, id⟩
    | false =>
      refine ⟨s.set e ((s.get e).start 0), KLink.Leads.one (a := .start e 0) (es := []) ?_ (by simp), ?_, ?_⟩
      · simp only [KLink.step]; rw [if_pos ⟨hb, Nat.zero_le _⟩]
      · rw [KLink.get_set_same]; rfl
      · rw [KLink.get_set_other]; exact id
  -- the timer
  obtain ⟨s2, l2, b2, d2, o2⟩ : ∃ s', KLink.Leads c k 0 s1 s' ∧ (s'.get e).begun = true ∧ ((s'.get e).hb.ready = true → (s'.get e).hb.clock < (s'.get e).due) ∧ ((s1.get e.other).Calm k → (s'.get e.other).Calm k) := by
    by_cases hd : (s1.get e).hb.ready = true ∧ (s1.get e).due ≤ (s1.get e).hb.clock
    · have i0 := (hc e).interval
      have hch : ∃ s' es, s1.check c e = some (s', es) ∧ (s'.get e).begun = true ∧ ((s'.get e).hb.ready = true → (s'.get e).hb.clock < (s'.get e).due) ∧ ((s1.get e.other).Calm k → (s'.get e.other).Calm k) := by
        by_cases hl : 0 < (s1.get e).hb.lastRecv
        · rcases Hb.check_tcp (hc e) hl hd.1 with ⟨_, he⟩ | ⟨_, ⟨he, _⟩ | ⟨he, _⟩⟩
          · simp only [KLink.check, he]
            simp only [Bool.false_eq_true, if_false]
            refine ⟨_, _, rfl, ?_, ?_, ?_⟩
            · rw [KLink.get_set_same]; exact b1
            · rw [KLink.get_set_same]; intro hh; cases hh
            · rw [KLink.get_set_other]; exact id
          · simp only [KLink.check, he, if_true, List.mem_singleton]
            refine ⟨_, _, rfl, ?_, fun _ => ?_, fun hh => ?_⟩
            · rw [(KLink.get_send_same _ e).1, KLink.get_set_same]; exact b1
            · rw [(KLink.get_send_same _ e).2.1, (KLink.get_send_same _ e).2.2, KLink.get_set_same]
              show (s1.get e).hb.clock < (s1.get e).hb.clock + 1000 * (c e).interval
              omega
            · exact KLink.calm_send (by rw [KLink.get_set_other]; exact hh)
          · simp only [KLink.check, he, if_true, List.not_mem_nil, if_false]
            refine ⟨_, _, rfl, ?_, fun _ => ?_, fun hh => ?_⟩
            · rw [KLink.get_set_same]; exact b1
            · rw [KLink.get_set_same]
              show (s1.get e).hb.clock < (s1.get e).hb.clock + 1000 * (c e).interval
              omega
            · rw [KLink.get_set_other]; exact hh
        · have he : (s1.get e).hb.check (c e) = some ((s1.get e).hb, true, []) := by simp only [Hb.check]; rw [if_neg (fun hh => hl hh.1)]
          simp only [KLink.check, he, if_true, List.not_mem_nil, if_false]
          refine ⟨_, _, rfl, ?_, fun _ => ?_, fun hh => ?_⟩
          · rw [KLink.get_set_same]; exact b1
          · rw [KLink.get_set_same]
            show (s1.get e).hb.clock < (s1.get e).hb.clock + 1000 * (c e).interval
            omega
          · rw [KLink.get_set_other]; exact hh
      obtain ⟨s', es, h1, h2, h3, h4⟩ := hch
      exact ⟨s', KLink.Leads.one (a := .check e) (es := es) (by simp only [KLink.step]; rw [if_pos hd]; exact h1) (by simp), h2, h3, h4⟩
    · exact ⟨s1, .refl s1, b1, fun hr => Nat.lt_of_not_le (fun hh => hd ⟨hr, hh⟩), id⟩
  -- the write
  obtain ⟨s3, l3, c3, o3⟩ : ∃ s', KLink.Leads c k 0 s2 s' ∧ (s'.get e).Calm k ∧ ((s2.get e.other).Calm k → (s'.get e.other).Calm k) := by
    by_cases hd : (s2.get e).wr ≠ none ∧ (s2.get e).hb.ready = true
    · refine ⟨s2.sent e, KLink.Leads.one (a := .sent e) (es := []) (by simp only [KLink.step]; rw [if_pos hd]) (by simp), ?_, fun hh => ?_⟩
      · simp only [KLink.sent]
        split
        · rw [KLink.get_write_same, KLink.get_set_same]
          refine ⟨b2, fun hr => ⟨d2 hr, fun t ht => ?_⟩⟩
          simp only [Option.some.injEq] at ht
          rw [← ht]
          show (s2.get e).hb.clock < (s2.get e).hb.clock + k.W
          omega
        · rw [KLink.get_set_same]
          exact ⟨b2, fun hr => ⟨d2 hr, fun t ht => by cases ht⟩⟩
      · simp only [KLink.sent]
        split
        · exact KLink.calm_write (by rw [KLink.get_set_other]; exact hh)
        · rw [KLink.get_set_other]; exact hh
    · refine ⟨s2, .refl s2, ⟨b2, fun hr => ⟨d2 hr, fun t ht => absurd ⟨by rw [ht]; simp, hr⟩ hd⟩⟩, id⟩
  exact ⟨s3, (l1.trans l2).trans l3, c3, fun hh => o3 (o2 (o1 hh))⟩

/-- An end can receive all that has arrived, at once. -/
theorem KLink.drains {c : KSide → HbCfg} {k : KTime} (e : KSide) : ∀ (n : Nat) (s : KLink), (s.get e).inbox.length = n → s.cut = false → (s.get e).hb.ready = true →
    ∃ s', KLink.Leads c k 0 s s' ∧ (s'.get e).inbox = [] ∧ s'.cut = false ∧ s'.get e.other = s.get e.other ∧ ((s.get e).Calm k → (s'.get e).Calm k) := by
  intro n
  induction n with
  | zero => intro s h1 h2 _; exact ⟨s, .refl s, List.eq_nil_of_length_eq_zero h1, h2, rfl, id⟩
  | succ n ih =>
    intro s h1 h2 h3
    cases hi : (s.get e).inbox with
    | nil => rw [hi] at h1; cases h1
    | cons t rest =>
      have hs : s.step c k (.recv e) = some (s.set e ((s.get e).recv rest), []) := by
        simp only [KLink.step]; rw [if_pos ⟨h3, h2⟩, hi]
      rw [hi] at h1
      obtain ⟨s', j1, j2, j3, j4, j5⟩ := ih (s.set e ((s.get e).recv rest)) (by rw [KLink.get_set_same]; simpa [KEnd.recv] using h1) h2 (by rw [KLink.get_set_same]; exact h3)
      refine ⟨s', (KLink.Leads.one hs (by simp)).trans j1, j2, j3, by rw [j4, KLink.get_set_other], fun hh => j5 ?_⟩
      rw [KLink.get_set_same]
      exact hh

/-- From every state of the link a millisecond can pass, after what is due has been done. -/
theorem KLink.goes_on {c : KSide → HbCfg} {k : KTime} (hc : ∀ e, KSettings (c e)) (hw : 0 < k.W) (s : KLink) : ∃ s', KLink.Leads c k 1 s s' := by
  obtain ⟨s1, l1, a1, _⟩ := KLink.calms hc hw s .a
  obtain ⟨s2, l2, b2, o2⟩ := KLink.calms hc hw s1 .b
  have a2 := o2 a1
  -- the data
  have drain : ∀ (s : KLink) (e : KSide), (s.get e).Calm k → ∃ s', KLink.Leads c k 0 s s' ∧ s'.get e.other = s.get e.other ∧ s'.cut = s.cut ∧ (s'.get e).canPass k s'.cut 1 = true := by
    intro s e hcalm
    have can : ∀ s' : KLink, (s'.get e).Calm k → (s'.cut = false → (s'.get e).hb.ready = true → (s'.get e).inbox = []) → (s'.get e).canPass k s'.cut 1 = true := by
      intro s' h1 h2
      obtain ⟨b, h1⟩ := h1
      simp only [KEnd.canPass, b]
      cases hr : (s'.get e).hb.ready with
      | false => simp
      | true =>
        obtain ⟨g1, g2⟩ := h1 hr
        cases hcut : s'.cut with
        | true => simp; omega
        | false =>
          rw [h2 hcut hr]
          cases hwr : (s'.get e).wr with
          | none => simp; omega
          | some t => have := g2 t hwr; simp; omega
    cases hcut : s.cut with
    | true => exact ⟨s, .refl s, rfl, hcut, can s hcalm (fun hh => by rw [hcut] at hh; cases hh)⟩
    | false =>
      cases hr : (s.get e).hb.ready with
      | false => exact ⟨s, .refl s, rfl, hcut, can s hcalm (fun _ hh => by rw [hr] at hh; cases hh)⟩
      | true =>
        obtain ⟨s', j1, j2, j3, j4, j5⟩ := KLink.drains (c := c) (k := k) e _ s rfl hcut hr
        exact ⟨s', j1, j4, j3, can s' (j5 hcalm) (fun _ _ => j2)⟩
  obtain ⟨s3, l3, g3, c3, p3⟩ := drain s2 .a a2
  obtain ⟨s4, l4, g4, c4, p4⟩ := drain s3 .b (by rw [show s3.get .b = s2.get .b from g3]; exact b2)
  have pa : (s4.get .a).canPass k s4.cut 1 = true := by rw [show s4.get .a = s3.get .a from g4, c4]; exact p3
  refine ⟨_, (((l1.trans l2).trans l3).trans l4).trans (KLink.Leads.one (a := .pass 1) (es := []) (s1 := { s4 with get := fun e => (s4.get e).pass 1 }) ?_ (by simp))⟩
  simp only [KLink.step, pa, p4, Bool.and_self, if_true]

end StAsio
