import Verif.Spec.HeartbeatPair
/-!
Invariants of a link with heartbeats at both ends (C100).
-/
set_option autoImplicit false
namespace StAsio

@[simp] theorem KSide.other_other (e : KSide) : e.other.other = e := by cases e <;> rfl

theorem KSide.other_ne (e : KSide) : e.other ≠ e := by cases e <;> decide

theorem KSide.eq_or (e k : KSide) : k = e ∨ k = e.other := by cases e <;> cases k <;> decide

@[simp] theorem KLink.get_set_same (s : KLink) (e : KSide) (x : KEnd) : (s.set e x).get e = x := by simp [KLink.set]

@[simp] theorem KLink.get_set_other (s : KLink) (e : KSide) (x : KEnd) : (s.set e x).get e.other = s.get e.other := by
  simp [KLink.set, KSide.other_ne]

@[simp] theorem KLink.get_set_other' (s : KLink) (e : KSide) (x : KEnd) : (s.set e.other x).get e = s.get e := by
  have := KSide.other_ne e.other
  simp only [KSide.other_other] at this
  simp [KLink.set, this]

@[simp] theorem KLink.cut_set (s : KLink) (e : KSide) (x : KEnd) : (s.set e x).cut = s.cut := rfl

@[simp] theorem KLink.cut_write (s : KLink) (e : KSide) : (s.write e).cut = s.cut := rfl

theorem KLink.get_write_same (s : KLink) (e : KSide) :
    (s.write e).get e = { s.get e with wr := some (s.get e).hb.clock, queued := false, hb := { (s.get e).hb with sending := true } } := by
  simp only [KLink.write, KLink.get_set_other', KLink.get_set_same]

theorem KLink.get_write_other (s : KLink) (e : KSide) :
    (s.write e).get e.other = { s.get e.other with inbox := (s.get e.other).inbox ++ [(s.get e.other).hb.clock] } := by
  simp only [KLink.write, KLink.get_set_same]

namespace KLink.Run

theorem trans {c : KSide → HbCfg} {k : KTime} {s s1 s2 : KLink} {as bs : List KlAct} {es fs : List KEv} (h1 : KLink.Run c k s as s1 es) (h2 : KLink.Run c k s1 bs s2 fs) :
    KLink.Run c k s (as ++ bs) s2 (es ++ fs) := by
  induction h2 with
  | nil => simpa using h1
  | snoc t1 t2 bs b fs fs' _ hs ih => rw [← List.append_assoc, ← List.append_assoc]; exact .snoc _ _ _ _ _ _ _ ih hs

theorem one {c : KSide → HbCfg} {k : KTime} {s s1 : KLink} {a : KlAct} {es : List KEv} (h : s.step c k a = some (s1, es)) : KLink.Run c k s [a] s1 es :=
  .snoc s s s1 [] a [] es (.nil s) h

end KLink.Run

theorem KLink.exec_run {c : KSide → HbCfg} {k : KTime} {s s' : KLink} {as : List KlAct} {es : List KEv} (h : s.exec c k as = some (s', es)) : KLink.Run c k s as s' es := by
  induction as generalizing s es with
  | nil => simp only [KLink.exec, Option.some.injEq, Prod.mk.injEq] at h; obtain ⟨rfl, rfl⟩ := h; exact .nil _
  | cons a as ih =>
    simp only [KLink.exec, Option.bind_eq_bind, Option.bind_eq_some_iff] at h
    obtain ⟨⟨s1, e1⟩, h1, ⟨s2, e2⟩, h2, h3⟩ := h
    cases h3
    exact KLink.Run.trans (KLink.Run.one h1) (ih h2)

/-! ### what check_heartbeat decides -/

/-- check_heartbeat of a TCP end that received something and is ready. -/
theorem Hb.check_tcp {c : HbCfg} (hc : KSettings c) {h : Hb} (h1 : 0 < h.lastRecv) (h2 : h.ready = true) :
    (h.lastRecv + c.interval * c.maxAbsence ≤ h.clock / 1000 ∧ h.check c = some (h, false, [.timeout])) ∨
    (h.clock / 1000 < h.lastRecv + c.interval * c.maxAbsence ∧
      ((h.check c = some (h, true, [.heartbeat]) ∧ (c.always = true ∨ (h.sending = false ∧ h.lastSend + c.interval ≤ h.clock / 1000))) ∨
       (h.check c = some (h, true, []) ∧ c.always = false ∧ (h.sending = true ∨ h.clock / 1000 < h.lastSend + c.interval)))) := by
  by_cases hd : ((c.interval * c.maxAbsence : Nat) : Int) ≤ (h.time : Int) - h.lastRecv
  · refine Or.inl ⟨by simp only [Hb.time] at hd; omega, ?_⟩
    simp only [Hb.check]; rw [if_pos ⟨h1, h2⟩, if_pos hc.fits, decide_eq_true hd, if_pos ⟨rfl, hc.tcp⟩]
  · refine Or.inr ⟨by simp only [Hb.time] at hd; omega, ?_⟩
    by_cases hb : c.always = true ∨ ((c.interval : Int) ≤ (h.time : Int) - h.lastSend ∧ h.sending = false)
    · refine Or.inl ⟨?_, ?_⟩
      · simp only [Hb.check]; rw [if_pos ⟨h1, h2⟩, if_pos hc.fits, decide_eq_false hd, if_pos hb]; simp
      · rcases hb with hb | ⟨hb, hb'⟩
        · exact Or.inl hb
        · exact Or.inr ⟨hb', by simp only [Hb.time] at hb; omega⟩
    · refine Or.inr ⟨?_, ?_⟩
      · simp only [Hb.check]; rw [if_pos ⟨h1, h2⟩, if_pos hc.fits, decide_eq_false hd, if_neg hb]; simp
      · refine ⟨by cases ha : c.always <;> simp_all, ?_⟩
        cases hs : h.sending with
        | true => exact Or.inl rfl
        | false =>
          refine Or.inr ?_
          simp only [Hb.time] at hb
          have : ¬ ((c.interval : Int) ≤ (h.clock / 1000 : Nat) - h.lastSend) := fun hh => hb (Or.inr ⟨hh, hs⟩)
          omega

/-! ### the network works: both ends hear from each other in time -/

/-- What is known of an end that has not failed. -/
structure KEnd.Core (c : HbCfg) (k : KTime) (p : KEnd) (y : Nat) : Prop where
  old : 1000 ≤ p.hb.clock
  old' : 1000 * c.interval ≤ p.hb.clock
  past : y ≤ p.hb.clock
  sending : p.hb.sending = p.wr.isSome
  fresh : p.begun = false → p.wr = none ∧ p.hb.lastSend = 0 ∧ p.hb.ready = false ∧ y = p.born ∧ p.hb.clock ≤ p.born + k.L
  live : p.begun = true → p.hb.ready = true ∧ p.due ≤ p.hb.clock + 1000 * c.interval ∧ p.hb.clock ≤ p.due + k.J ∧ 0 < p.hb.lastRecv
  write : ∀ t, p.wr = some t → t = y ∧ p.hb.clock ≤ y + k.W
  last : p.wr = none → p.hb.lastSend = 0 ∨ ∃ x, x ≤ y + k.W ∧ p.hb.lastSend = x / 1000

/-- An idle end will write soon: `y` is when its last write began. -/
def KEnd.Soon (c : HbCfg) (k : KTime) (p : KEnd) (y : Nat) : Prop :=
  p.wr = none → p.begun = true → p.due ≤ y + max k.W k.L + (if c.always then 1 else 2) * (1000 * c.interval)

/-- What an end got: its last reception was at `r`, and what the peer wrote since then will be received in time. -/
structure KEnd.Hears (k : KTime) (G : Nat) (x : KEnd) (pc y : Nat) : Prop where
  past : ∀ t ∈ x.inbox, t ≤ x.hb.clock
  sorted : x.inbox.Pairwise (· ≤ ·)
  fresh : x.begun = false → x.hb.clock ≤ x.born + k.L ∧ x.born ≤ x.hb.clock ∧ ∀ t ∈ x.inbox, x.born ≤ t
  live : x.begun = true → ∃ r, r ≤ x.hb.clock ∧ x.hb.lastRecv = r / 1000 ∧ (x.inbox = [] → y + x.hb.clock ≤ r + pc) ∧ ∀ t ∈ x.inbox.head?, t ≤ r + G ∧ x.hb.clock ≤ t + k.L

theorem KEnd.Core.gap {c : HbCfg} {k : KTime} {p : KEnd} {y : Nat} (h : p.Core c k y) (h' : p.Soon c k y) : p.hb.clock ≤ y + longestGap c k := by
  unfold longestGap
  cases hb : p.begun with
  | false => obtain ⟨_, _, _, h1, h2⟩ := h.fresh hb; omega
  | true =>
    obtain ⟨_, _, h1, _⟩ := h.live hb
    cases hw : p.wr with
    | none => have := h' hw hb; omega
    | some t => have := h.write t hw; omega

/-- A write of the peer begins. -/
theorem KEnd.Hears.write {k : KTime} {G : Nat} {x : KEnd} {pc y : Nat} (h : x.Hears k G pc y) (hg : pc ≤ y + G) :
    KEnd.Hears k G { x with inbox := x.inbox ++ [x.hb.clock] } pc pc := by
  constructor
  · intro t ht
    simp only [List.mem_append, List.mem_singleton] at ht
    rcases ht with ht | rfl
    · exact h.past t ht
    · exact Nat.le_refl _
  · simp only [List.pairwise_append, List.mem_singleton]
    exact ⟨h.sorted, List.pairwise_singleton _ _, fun a ha b hb => by subst hb; exact h.past a ha⟩
  · intro hb
    obtain ⟨h1, h0, h2⟩ := h.fresh hb
    refine ⟨h1, h0, fun t ht => ?_⟩
    simp only [List.mem_append, List.mem_singleton] at ht
    rcases ht with ht | rfl
    · exact h2 t ht
    · exact h0
  · intro hb
    obtain ⟨r, h1, h2, h3, h4⟩ := h.live hb
    refine ⟨r, h1, h2, fun hx => by simp at hx, fun t ht => ?_⟩
    cases hi : x.inbox with
    | nil =>
      rw [hi] at ht
      simp at ht
      have := h3 hi
      refine ⟨?_, ?_⟩
      · rw [← ht]; omega
      · rw [← ht]; exact Nat.le_add_right _ _
    | cons u us =>
      rw [hi] at ht h4
      simp at ht
      exact h4 t (by simp [ht])

/-- One direction of the link: `p` sends, `x` receives. -/
def KPair (c : HbCfg) (k : KTime) (p x : KEnd) : Prop := ∃ y, p.Core c k y ∧ p.Soon c k y ∧ x.Hears k (longestGap c k) p.hb.clock y

/-- Both directions. -/
structure KLink.Good (c : KSide → HbCfg) (k : KTime) (s : KLink) : Prop where
  works : s.cut = false
  pair : ∀ e, KPair (c e) k (s.get e) (s.get e.other)

theorem KLink.good_of {c : KSide → HbCfg} {k : KTime} {s : KLink} (e : KSide) (h : s.cut = false) (h1 : KPair (c e) k (s.get e) (s.get e.other)) (h2 : KPair (c e.other) k (s.get e.other) (s.get e)) : s.Good c k := by
  refine ⟨h, fun e' => ?_⟩
  rcases KSide.eq_or e e' with rfl | rfl
  · exact h1
  · simpa using h2

theorem KLink.Good.pair' {c : KSide → HbCfg} {k : KTime} {s : KLink} (h : s.Good c k) (e : KSide) : KPair (c e.other) k (s.get e.other) (s.get e) := by
  simpa using h.pair e.other

/-- The sending part looks at few members of a receiver. -/
theorem KEnd.Hears.congr {k : KTime} {G : Nat} {x x' : KEnd} {pc y : Nat} (h : x.Hears k G pc y) (h1 : x'.inbox = x.inbox) (h2 : x'.hb.clock = x.hb.clock) (h3 : x'.begun = x.begun) (h4 : x'.born = x.born)
    (h5 : x'.hb.lastRecv = x.hb.lastRecv) : x'.Hears k G pc y := by
  constructor
  · rw [h1, h2]; exact h.past
  · rw [h1]; exact h.sorted
  · rw [h1, h2, h3, h4]; exact h.fresh
  · rw [h1, h2, h3, h5]; exact h.live

/-- A write begins. -/
theorem KLink.good_write {c : KSide → HbCfg} {k : KTime} {s : KLink} {e : KSide} (hcut : s.cut = false) (hb : (s.get e).begun = true) {y : Nat} (h1 : (s.get e).Core (c e) k y)
    (hgap : (s.get e).hb.clock ≤ y + longestGap (c e) k) (h2 : (s.get e.other).Hears k (longestGap (c e) k) (s.get e).hb.clock y) (h3 : KPair (c e.other) k (s.get e.other) (s.get e)) :
    (s.write e).Good c k := by
  refine KLink.good_of e hcut ?_ ?_
  · rw [KLink.get_write_same, KLink.get_write_other]
    refine ⟨(s.get e).hb.clock, ⟨h1.old, h1.old', Nat.le_refl _, rfl, fun h => absurd (hb.symm.trans h) (by simp), h1.live, ?_, fun h => by cases h⟩, fun h => (by cases h), h2.write hgap⟩
    intro t ht; cases ht; exact ⟨rfl, Nat.le_add_right _ _⟩
  · rw [KLink.get_write_same, KLink.get_write_other]
    obtain ⟨y', g1, g2, g3⟩ := h3
    exact ⟨y', ⟨g1.old, g1.old', g1.past, g1.sending, g1.fresh, g1.live, g1.write, g1.last⟩, g2, g3.congr rfl rfl rfl rfl rfl⟩

/-- A send function is called. -/
theorem KLink.good_send {c : KSide → HbCfg} {k : KTime} {s : KLink} {e : KSide} (h : s.Good c k) (hb : (s.get e).begun = true) : (s.send e).Good c k := by
  obtain ⟨y, h1, h2, h3⟩ := h.pair e
  simp only [KLink.send]
  split
  · exact KLink.good_write h.works hb h1 (h1.gap h2) h3 (h.pair' e)
  · refine KLink.good_of e h.works ?_ ?_
    · rw [KLink.get_set_same, KLink.get_set_other]
      exact ⟨y, ⟨h1.old, h1.old', h1.past, h1.sending, h1.fresh, h1.live, h1.write, h1.last⟩, h2, h3⟩
    · rw [KLink.get_set_same, KLink.get_set_other]
      obtain ⟨y', g1, g2, g3⟩ := h.pair' e
      exact ⟨y', g1, g2, g3.congr rfl rfl rfl rfl rfl⟩

theorem KLink.good_sent {c : KSide → HbCfg} {k : KTime} {s : KLink} {e : KSide} (h : s.Good c k) (hw : (s.get e).wr ≠ none) : (s.sent e).Good c k := by
  obtain ⟨y, h1, h2, h3⟩ := h.pair e
  obtain ⟨t, hw⟩ := Option.ne_none_iff_exists'.mp hw
  obtain ⟨rfl, hwt⟩ := h1.write t hw
  have hb : (s.get e).begun = true := by
    cases hb : (s.get e).begun with
    | true => rfl
    | false => have := (h1.fresh hb).1; rw [hw] at this; cases this
  have hl := h1.live hb
  have key : ({ s.get e with wr := none, hb := { (s.get e).hb with sending := false, lastSend := (s.get e).hb.time } } : KEnd).Core (c e) k t := by
    refine ⟨h1.old, h1.old', h1.past, rfl, fun hh => absurd (hb.symm.trans hh) (by simp), h1.live, fun u hu => (by cases hu), fun _ => Or.inr ⟨(s.get e).hb.clock, hwt, rfl⟩⟩
  have soon : ({ s.get e with wr := none, hb := { (s.get e).hb with sending := false, lastSend := (s.get e).hb.time } } : KEnd).Soon (c e) k t := by
    intro _ _
    show (s.get e).due ≤ _
    split <;> omega
  have base : (s.set e { s.get e with wr := none, hb := { (s.get e).hb with sending := false, lastSend := (s.get e).hb.time } }).Good c k := by
    refine KLink.good_of e h.works ?_ ?_
    · rw [KLink.get_set_same, KLink.get_set_other]
      exact ⟨t, key, soon, h3⟩
    · rw [KLink.get_set_same, KLink.get_set_other]
      obtain ⟨y', g1, g2, g3⟩ := h.pair' e
      exact ⟨y', g1, g2, g3.congr rfl rfl rfl rfl rfl⟩
  simp only [KLink.sent]
  split
  · obtain ⟨z, b1, b2, b3⟩ := base.pair e
    exact KLink.good_write base.works (by rw [KLink.get_set_same]; exact hb) b1 (b1.gap b2) b3 (base.pair' e)
  · exact base

/-- Nobody is silent for too long. -/
theorem KLink.Good.not_dead {c : KSide → HbCfg} {k : KTime} {s : KLink} (h : s.Good c k) (e : KSide) (hb : (s.get e).begun = true) (ht : Tolerant (c e) (c e.other) k) :
    (s.get e).hb.clock / 1000 < (s.get e).hb.lastRecv + (c e).interval * (c e).maxAbsence := by
  obtain ⟨y, h1, h2, h3⟩ := h.pair' e
  obtain ⟨r, r1, r2, r3, r4⟩ := h3.live hb
  have hg := h1.gap h2
  unfold Tolerant at ht
  generalize (c e).interval * (c e).maxAbsence = P at *
  have : (s.get e).hb.clock ≤ r + longestGap (c e.other) k + k.L := by
    cases hi : (s.get e).inbox with
    | nil => have := r3 hi; omega
    | cons t ts => have := r4 t (by rw [hi]; rfl); omega
  omega

theorem KLink.good_check {c : KSide → HbCfg} {k : KTime} {s s' : KLink} {e : KSide} {es : List KEv} (hc : ∀ e, KSettings (c e)) (ht : ∀ e, Tolerant (c e) (c e.other) k) (h : s.Good c k)
    (hr : (s.get e).hb.ready = true) (hs : s.check c e = some (s', es)) : s'.Good c k ∧ ∀ e', KEv.timeout e' ∉ es := by
  obtain ⟨y, h1, h2, h3⟩ := h.pair e
  have hb : (s.get e).begun = true := by
    cases hb : (s.get e).begun with
    | true => rfl
    | false => have := (h1.fresh hb).2.2.1; rw [hr] at this; cases this
  have hl := h1.live hb
  have hnd := h.not_dead e hb (ht e)
  have hgap := h1.gap h2
  have other : ∀ d, KPair (c e.other) k (s.get e.other) ((s.get e).arm (s.get e).hb d) := by
    intro d
    obtain ⟨y', g1, g2, g3⟩ := h.pair' e
    exact ⟨y', g1, g2, g3.congr rfl rfl rfl rfl rfl⟩
  have core : ((s.get e).arm (s.get e).hb ((s.get e).hb.clock + 1000 * (c e).interval)).Core (c e) k y := by
    refine ⟨h1.old, h1.old', h1.past, h1.sending, h1.fresh, fun _ => ⟨hr, Nat.le_refl _, ?_, hl.2.2.2⟩, h1.write, h1.last⟩
    show (s.get e).hb.clock ≤ (s.get e).hb.clock + 1000 * (c e).interval + k.J
    omega
  have i0 := (hc e).interval
  rcases Hb.check_tcp (hc e) hl.2.2.2 hr with ⟨hd, _⟩ | ⟨_, ⟨hd, _⟩ | ⟨hd, ha, hn⟩⟩
  · omega
  · simp only [KLink.check, hd, if_true] at hs
    simp only [List.mem_singleton, if_true, Option.some.injEq, Prod.mk.injEq] at hs
    obtain ⟨rfl, rfl⟩ := hs
    refine ⟨?_, by simp⟩
    simp only [KLink.send, KLink.get_set_same]
    split
    · refine KLink.good_write (y := y) h.works (by rw [KLink.get_set_same]; exact hb) (by rw [KLink.get_set_same]; exact core) (by rw [KLink.get_set_same]; exact hgap)
        (by rw [KLink.get_set_same, KLink.get_set_other]; exact h3) ?_
      rw [KLink.get_set_same, KLink.get_set_other]
      exact other _
    · rename_i hw
      refine KLink.good_of e h.works ?_ ?_
      · rw [KLink.get_set_same, KLink.get_set_other, KLink.get_set_other]
        refine ⟨y, ⟨core.old, core.old', core.past, core.sending, core.fresh, core.live, core.write, core.last⟩, fun hh => absurd hh hw, h3⟩
      · rw [KLink.get_set_same, KLink.get_set_other, KLink.get_set_other]
        obtain ⟨y', g1, g2, g3⟩ := other ((s.get e).hb.clock + 1000 * (c e).interval)
        exact ⟨y', g1, g2, g3.congr rfl rfl rfl rfl rfl⟩
  · simp only [KLink.check, hd, if_true] at hs
    simp only [List.not_mem_nil, if_false, Option.some.injEq, Prod.mk.injEq] at hs
    obtain ⟨rfl, rfl⟩ := hs
    refine ⟨?_, by simp⟩
    refine KLink.good_of e h.works ?_ ?_
    · rw [KLink.get_set_same, KLink.get_set_other]
      refine ⟨y, core, fun hw _ => ?_, h3⟩
      have hw' : (s.get e).wr = none := hw
      show (s.get e).hb.clock + 1000 * (c e).interval ≤ _
      have hsd := h1.sending
      rw [hw'] at hsd
      rw [ha]
      rcases hn with hn | hn
      · rw [hn] at hsd; cases hsd
      · have ho := h1.old'
        rcases h1.last hw' with h0 | ⟨x, x1, x2⟩
        · omega
        · simp only [Bool.false_eq_true, if_false]
          omega
    · rw [KLink.get_set_same, KLink.get_set_other]
      exact other _

theorem KLink.good_init {c : KSide → HbCfg} {k : KTime} {t : KSide → Nat} (h1 : ∀ e, 1000 ≤ t e) (h2 : ∀ e, 1000 * (c e).interval ≤ t e) : (KLink.init t).Good c k := by
  refine ⟨rfl, fun e => ⟨t e, ⟨h1 e, h2 e, Nat.le_refl _, rfl, fun _ => ⟨rfl, rfl, rfl, rfl, Nat.le_add_right _ _⟩, fun h => (by cases h), fun _ h => (by cases h), fun _ => Or.inl rfl⟩, fun _ h => (by cases h), ?_⟩⟩
  exact ⟨fun _ h => (by cases h), .nil, fun _ => ⟨Nat.le_add_right _ _, Nat.le_refl _, fun _ h => by cases h⟩, fun h => by cases h⟩

theorem KEnd.pass_core {c : HbCfg} {k : KTime} {p : KEnd} {y d : Nat} (h : p.Core c k y) (hp : p.canPass k false d = true) : (p.pass d).Core c k y := by
  have hcl : (p.pass d).hb.clock = p.hb.clock + d := rfl
  simp only [KEnd.canPass] at hp
  cases hb : p.begun with
  | false =>
    obtain ⟨f1, f2, f3, f4, f5⟩ := h.fresh hb
    rw [hb] at hp
    simp at hp
    refine ⟨?_, ?_, ?_, h.sending, fun _ => ⟨f1, f2, f3, f4, ?_⟩, fun hh => absurd (hb.symm.trans hh) (by simp), fun t ht => ?_, h.last⟩
    · have := h.old; omega
    · have := h.old'; omega
    · have := h.past; omega
    · show p.hb.clock + d ≤ p.born + _; exact hp
    · have ht' : p.wr = some t := ht
      rw [f1] at ht'; cases ht'
  | true =>
    obtain ⟨l1, l2, l3, l4⟩ := h.live hb
    rw [hb, l1] at hp
    simp at hp
    refine ⟨?_, ?_, ?_, h.sending, fun hh => absurd (hb.symm.trans hh) (by simp), fun _ => ⟨l1, ?_, hp.1, l4⟩, fun t ht => ?_, h.last⟩
    · have := h.old; omega
    · have := h.old'; omega
    · have := h.past; omega
    · show p.due ≤ p.hb.clock + d + _; omega
    · have ht' : p.wr = some t := ht
      obtain ⟨w1, w2⟩ := h.write t ht'
      rw [ht'] at hp
      simp at hp
      refine ⟨w1, ?_⟩
      show p.hb.clock + d ≤ _
      omega

theorem KEnd.pass_hears {k : KTime} {G : Nat} {x : KEnd} {pc y d : Nat} (h : x.Hears k G pc y) (hp : x.canPass k false d = true) (hr : x.begun = true → x.hb.ready = true) : (x.pass d).Hears k G (pc + d) y := by
  simp only [KEnd.canPass] at hp
  refine ⟨fun t ht => ?_, h.sorted, fun hb => ?_, fun hb => ?_⟩
  · have := h.past t ht
    show t ≤ x.hb.clock + d
    omega
  · have hb' : x.begun = false := hb
    obtain ⟨f1, f2, f3⟩ := h.fresh hb'
    rw [hb'] at hp
    simp at hp
    refine ⟨hp, ?_, f3⟩
    show x.born ≤ x.hb.clock + d
    omega
  · have hb' : x.begun = true := hb
    obtain ⟨r, r1, r2, r3, r4⟩ := h.live hb'
    rw [hb', hr hb'] at hp
    simp at hp
    refine ⟨r, ?_, r2, fun hi => ?_, fun t ht => ?_⟩
    · show r ≤ x.hb.clock + d; omega
    · have := r3 hi
      show y + (x.hb.clock + d) ≤ _
      omega
    · have ht' : t ∈ x.inbox.head? := ht
      have := r4 t ht'
      refine ⟨this.1, ?_⟩
      show x.hb.clock + d ≤ _
      cases hi : x.inbox with
      | nil => rw [hi] at ht'; cases ht'
      | cons u us =>
        rw [hi] at ht' hp
        simp at ht' hp
        omega

theorem KLink.Good.ready {c : KSide → HbCfg} {k : KTime} {s : KLink} (h : s.Good c k) (e : KSide) : (s.get e).begun = (s.get e).hb.ready := by
  obtain ⟨y, h1, _, _⟩ := h.pair e
  cases hb : (s.get e).begun with
  | true => exact (h1.live hb).1.symm
  | false => exact (h1.fresh hb).2.2.1.symm

/-- Every step of a working network keeps the invariant, and nobody is declared dead. -/
theorem KLink.good_step {c : KSide → HbCfg} {k : KTime} {s s' : KLink} {a : KlAct} {es : List KEv} (hc : ∀ e, KSettings (c e)) (ht : ∀ e, Tolerant (c e) (c e.other) k) (h : s.Good c k) (ha : a ≠ .cut)
    (hs : s.step c k a = some (s', es)) : s'.Good c k ∧ ∀ e', KEv.timeout e' ∉ es := by
  cases a with
  | cut => exact absurd rfl ha
  | pass d =>
    simp only [KLink.step, h.works] at hs
    split at hs
    · rename_i hp
      simp only [Bool.and_eq_true] at hp
      cases hs
      have hp' : ∀ e, (s.get e).canPass k false d = true := by intro e; cases e; exact hp.1; exact hp.2
      refine ⟨⟨rfl, fun e => ?_⟩, by simp⟩
      obtain ⟨y, h1, h2, h3⟩ := h.pair e
      exact ⟨y, KEnd.pass_core h1 (hp' e), h2, KEnd.pass_hears h3 (hp' _) (fun hb => (h.ready _).symm.trans hb)⟩
    · cases hs
  | start e d =>
    simp only [KLink.step] at hs
    split at hs
    · rename_i hp
      cases hs
      refine ⟨KLink.good_of e h.works ?_ ?_, by simp⟩
      · rw [KLink.get_set_same, KLink.get_set_other]
        obtain ⟨y, h1, h2, h3⟩ := h.pair e
        obtain ⟨f1, f2, f3, f4, f5⟩ := h1.fresh hp.1
        have o := h1.old
        refine ⟨y, ⟨h1.old, h1.old', h1.past, h1.sending, fun hh => (by cases hh), fun _ => ⟨rfl, ?_, ?_, ?_⟩, h1.write, h1.last⟩, fun _ _ => ?_, h3⟩
        · show (s.get e).hb.clock + d ≤ (s.get e).hb.clock + _; omega
        · show (s.get e).hb.clock ≤ (s.get e).hb.clock + d + _; omega
        · show 0 < (s.get e).hb.clock / 1000; omega
        · show (s.get e).hb.clock + d ≤ _
          have := hp.2
          split <;> omega
      · rw [KLink.get_set_same, KLink.get_set_other]
        obtain ⟨y, h1, h2, h3⟩ := h.pair' e
        obtain ⟨f1, f2, f3⟩ := h3.fresh hp.1
        refine ⟨y, h1, h2, ⟨h3.past, h3.sorted, fun hh => (by cases hh), fun _ => ⟨(s.get e).hb.clock, Nat.le_refl _, rfl, fun _ => ?_, fun t ht' => ?_⟩⟩⟩
        · have := h1.past
          show y + (s.get e).hb.clock ≤ _
          omega
        · have hm : t ∈ (s.get e).inbox := List.mem_of_head? ht'
          have g1 := h3.past t hm
          have g2 := f3 t hm
          refine ⟨by omega, ?_⟩
          show (s.get e).hb.clock ≤ _
          omega
    · cases hs
  | recv e =>
    simp only [KLink.step] at hs
    split at hs
    · rename_i hp
      cases hi : (s.get e).inbox with
      | nil => rw [hi] at hs; cases hs
      | cons t rest =>
        rw [hi] at hs
        simp only [Option.some.injEq, Prod.mk.injEq] at hs
        obtain ⟨rfl, rfl⟩ := hs
        have hb : (s.get e).begun = true := (h.ready e).trans hp.1
        refine ⟨KLink.good_of e h.works ?_ ?_, by simp⟩
        · rw [KLink.get_set_same, KLink.get_set_other]
          obtain ⟨y, h1, h2, h3⟩ := h.pair e
          have o := h1.old
          have l := h1.live hb
          refine ⟨y, ⟨h1.old, h1.old', h1.past, h1.sending, h1.fresh, fun _ => ⟨l.1, l.2.1, l.2.2.1, ?_⟩, h1.write, h1.last⟩, h2, h3⟩
          show 0 < (s.get e).hb.clock / 1000; omega
        · rw [KLink.get_set_same, KLink.get_set_other]
          obtain ⟨y, h1, h2, h3⟩ := h.pair' e
          obtain ⟨r, r1, r2, r3, r4⟩ := h3.live hb
          have hst := h3.sorted
          have hps := h3.past
          rw [hi] at hst hps r4
          have r4 := r4 t rfl
          refine ⟨y, h1, h2, ⟨fun u hu => hps u (List.mem_cons_of_mem _ hu), (List.pairwise_cons.mp hst).2, fun hh => absurd (hb.symm.trans hh) (by simp),
            fun _ => ⟨(s.get e).hb.clock, Nat.le_refl _, rfl, fun _ => ?_, fun u hu => ?_⟩⟩⟩
          · have := h1.past
            show y + (s.get e).hb.clock ≤ _
            omega
          · have hm : u ∈ rest := List.mem_of_head? hu
            have g1 := hps u (List.mem_cons_of_mem _ hm)
            have g2 := (List.pairwise_cons.mp hst).1 u hm
            refine ⟨by omega, ?_⟩
            show (s.get e).hb.clock ≤ _
            omega
    · cases hs
  | send e =>
    simp only [KLink.step] at hs
    split at hs
    · rename_i hp
      cases hs
      exact ⟨KLink.good_send h ((h.ready e).trans hp), by simp⟩
    · cases hs
  | sent e =>
    simp only [KLink.step] at hs
    split at hs
    · rename_i hp
      cases hs
      exact ⟨KLink.good_sent h hp.1, by simp⟩
    · cases hs
  | check e =>
    simp only [KLink.step] at hs
    split at hs
    · rename_i hp
      exact KLink.good_check hc ht h hp.1 hs
    · cases hs

theorem KLink.good_run {c : KSide → HbCfg} {k : KTime} {s s' : KLink} {as : List KlAct} {es : List KEv} (hc : ∀ e, KSettings (c e)) (ht : ∀ e, Tolerant (c e) (c e.other) k) (h : s.Good c k) (hw : NetworkWorks as)
    (hr : KLink.Run c k s as s' es) : s'.Good c k ∧ ∀ e', KEv.timeout e' ∉ es := by
  induction hr with
  | nil => exact ⟨h, by simp⟩
  | snoc s1 s2 as a es es' _ hs ih =>
    have hw' : KlAct.cut ∉ as ++ [a] := hw
    simp only [List.mem_append, List.mem_singleton, not_or] at hw'
    obtain ⟨i1, i2⟩ := ih hw'.1
    obtain ⟨j1, j2⟩ := KLink.good_step hc ht i1 (fun hh => hw'.2 hh.symm) hs
    refine ⟨j1, fun e' he' => ?_⟩
    rcases List.mem_append.mp he' with he' | he'
    · exact i2 e' he'
    · exact j2 e' he'

end StAsio
