import Verif.Model.ReliableUdp
import Verif.Lemmas.UdpSend2
import Verif.Props.C24_UdpSend

/-!
# C49: the KCP socket

`Kc.Run (Kc.init max) as s es`: the actions `as` of sender threads, the strand, KCP, its timers and the user lead to the state `s`; `es` is what could be observed (Spec/UdpOrder).
`s.given`: the messages ikcp_send was called with, and whether it took them.
-/

set_option autoImplicit false

namespace StAsio

/-- Did the socket become invalid? -/
def kFatal (f : Bool) : KAct → Bool
  | .u a => uFatal f a
  | _ => f

def kFatalSinceUp (as : List KAct) : Bool := as.foldl kFatal false

theorem Kc.step_ux {s s' : Kc} {a : KAct} {es : List UEv} (h : s.step a = some (s', es)) :
    (∃ b, s.ux.step true b = some (s'.ux, es) ∧ ∀ f, uFatal f b = kFatal f a) ∨ (s'.ux = s.ux ∧ es = [] ∧ ∀ f, kFatal f a = f) := by
  cases a with
  | u a =>
    left
    refine ⟨a, ?_, fun _ => rfl⟩
    cases a <;> simp only [Kc.step] at h <;> first
      | (cases h; done)
      | (rw [Option.map_eq_some_iff] at h; obtain ⟨⟨u, e⟩, h1, h2⟩ := h; cases h2; exact h1)
  | strand segs =>
    left
    refine ⟨.strand s.ccOk s.kcp.isSome, ?_, fun _ => rfl⟩
    simp only [Kc.step] at h
    rw [Option.map_eq_some_iff] at h
    obtain ⟨⟨u, e⟩, h1, h2⟩ := h
    split at h2 <;> cases h2 <;> exact h1
  | update n =>
    right
    simp only [Kc.step] at h
    split at h <;> cases h
    exact ⟨rfl, rfl, fun _ => rfl⟩
  | timerCC =>
    left
    refine ⟨.timerCC, ?_, fun _ => rfl⟩
    simp only [Kc.step] at h
    split at h
    · cases h
    · split at h
      · cases h
      · rw [Option.map_eq_some_iff] at h; obtain ⟨⟨u, e⟩, h1, h2⟩ := h; cases h2; exact h1
  | poll =>
    right
    simp only [Kc.step] at h
    split at h
    · cases h
    · split at h <;> cases h
      exact ⟨rfl, rfl, fun _ => rfl⟩
  | create =>
    right
    simp only [Kc.step] at h
    split at h <;> cases h
    exact ⟨rfl, rfl, fun _ => rfl⟩
  | close =>
    left
    refine ⟨.onClose, ?_, fun _ => rfl⟩
    simp only [Kc.step] at h
    rw [Option.map_eq_some_iff] at h; obtain ⟨⟨u, e⟩, h1, h2⟩ := h; cases h2; exact h1
  | setMax n => right; simp only [Kc.step] at h; cases h; exact ⟨rfl, rfl, fun _ => rfl⟩

/-- The KCP socket is a UDP sender: its histories are histories of Model/UdpSend. -/
theorem Kc.run_ux {s0 s : Kc} {as : List KAct} {es : List UEv} (h : Kc.Run s0 as s es) :
    ∃ bs, Ux.Run true s0.ux bs s.ux es ∧ ∀ f, bs.foldl uFatal f = as.foldl kFatal f := by
  induction h with
  | nil => exact ⟨[], .nil _, fun _ => rfl⟩
  | snoc s1 s2 as a es es' _ hs ih =>
    obtain ⟨bs, hr, hf⟩ := ih
    rcases Kc.step_ux hs with ⟨b, hb, h1⟩ | ⟨hu, he, h1⟩
    · refine ⟨bs ++ [b], .snoc _ _ _ _ _ _ _ hr hb, fun f => ?_⟩
      rw [List.foldl_append, List.foldl_append, hf]
      exact h1 _
    · subst he
      refine ⟨bs, by rw [hu, List.append_nil]; exact hr, fun f => ?_⟩
      rw [List.foldl_append, ← hf]
      exact (h1 _).symm

theorem Kc.run_trans {s s1 s2 : Kc} {as bs : List KAct} {es fs : List UEv} (h1 : Kc.Run s as s1 es) (h2 : Kc.Run s1 bs s2 fs) : Kc.Run s (as ++ bs) s2 (es ++ fs) := by
  induction h2 with
  | nil => simpa using h1
  | snoc s2 s3 bs a fs fs' _ hs ih =>
    rw [← List.append_assoc, ← List.append_assoc]
    exact Kc.Run.snoc _ _ _ _ _ _ _ ih hs

theorem Kc.run_one {s s1 : Kc} {a : KAct} {es : List UEv} (h : s.step a = some (s1, es)) : Kc.Run s [a] s1 es := by
  simpa using Kc.Run.snoc _ _ _ _ _ _ _ (Kc.Run.nil s) h

theorem Kc.exec_run {s s' : Kc} {as : List KAct} {es : List UEv} (h : Kc.exec s as = some (s', es)) : Kc.Run s as s' es := by
  induction as generalizing s es with
  | nil => simp [Kc.exec] at h; obtain ⟨rfl, rfl⟩ := h; exact Kc.Run.nil _
  | cons a as ih =>
    simp only [Kc.exec, Option.bind_eq_bind] at h
    rw [Option.bind_eq_some_iff] at h
    obtain ⟨⟨s1, e1⟩, h1, h2⟩ := h
    rw [Option.bind_eq_some_iff] at h2
    obtain ⟨⟨s2, e2⟩, h2, h3⟩ := h2
    simp at h3
    obtain ⟨rfl, rfl⟩ := h3
    exact Kc.run_trans (Kc.run_one h1) (ih h2)

/-- A step of the strand observes nothing or the message it hands over. -/
theorem Ux.strand_events {conn : Bool} {s s' : Ux} {a b : Bool} {es : List UEv} (h : s.step conn (.strand a b) = some (s', es)) :
    es = [] ∨ (∃ m, es = [.handOff m] ∧ s.pc = .move ∧ s'.pc = .idle ∧ s.q.items = m :: s'.q.items) := by
  simp only [Ux.step, Ux.strand] at h
  split at h
  · cases h
  · split at h <;> cases h <;> exact Or.inl rfl
  · split at h <;> cases h <;> exact Or.inl rfl
  · rename_i hpc
    simp only [Q.tryDequeue] at h
    cases hq : s.q.items with
    | nil => rw [hq] at h; cases h; exact Or.inl rfl
    | cons m l =>
      rw [hq] at h
      simp only at h
      split at h <;> cases h <;> exact Or.inr ⟨m, rfl, hpc, rfl, rfl⟩
  · cases h; exact Or.inl rfl
  · cases h; exact Or.inl rfl
  · cases h; exact Or.inl rfl

/-- Other steps hand nothing over. -/
theorem Ux.not_handed {conn : Bool} {s s' : Ux} {a : UAct} {es : List UEv} (h : s.step conn a = some (s', es)) (ha : ∀ x y, a ≠ .strand x y) : uHanded es = [] := by
  have hp : ∀ m r, uHanded (uPromise m r) = [] := by
    intro m r
    rcases uPromise_cases m r with ⟨h, _⟩ | ⟨p, _, h⟩ <;> rw [h] <;> rfl
  have hps : ∀ ms r, uHanded (uPromises ms r) = [] := by
    intro ms r
    induction ms with
    | nil => rfl
    | cons m ms ih =>
      have : uPromises (m :: ms) r = uPromise m r ++ uPromises ms r := by simp [uPromises]
      rw [this, uHanded_append, hp, ih]; rfl
  cases a with
  | strand x y => exact absurd rfl (ha x y)
  | handler i =>
    simp only [Ux.step] at h
    cases hd : s.dones[i]? with
    | none => rw [hd] at h; cases h
    | some d =>
      rw [hd] at h
      simp only [Option.bind_eq_bind, Option.bind_some] at h
      split at h
      · cases h
      · simp only [Ux.handler, Option.some.injEq] at h
        split at h
        · cases h; rfl
        · split at h <;> cases h <;> rw [uHanded_append, hp] <;> rfl
  | complete i ok fatal =>
    simp only [Ux.step] at h
    cases hd : s.writes[i]? with
    | none => rw [hd] at h; cases h
    | some d => rw [hd] at h; simp only [Option.bind_eq_bind, Option.bind_some] at h; cases h; rfl
  | pop =>
    simp only [Ux.step] at h
    split at h <;> cases h
    · rfl
    · rw [uHanded_append, hps]; rfl
  | popAll => simp only [Ux.step] at h; cases h; rw [uHanded_append, hps]; rfl
  | onClose =>
    simp only [Ux.step] at h
    split at h <;> cases h
    cases s.cur with
    | none => rfl
    | some m => simp [hp]
  | _ => simp only [Ux.step] at h; (repeat' split at h) <;> cases h <;> rfl

/-- What a step gives to KCP. -/
theorem Kc.step_given {s s' : Kc} {a : KAct} {es : List UEv} (h : s.step a = some (s', es)) :
    (s'.given = s.given ∧ (uHanded es = [] ∨ s.kcp = none)) ∨
    (∃ n m segs, a = .strand segs ∧ s.kcp = some n ∧ s.ux.pc = .move ∧ s'.ux.pc = .idle ∧ s.ux.q.items = m :: s'.ux.q.items ∧ es = [.handOff m] ∧
      s'.kcp = some (n + segs.getD 0) ∧ s'.max = s.max ∧ s'.given = s.given ++ [(m, segs.isSome)]) := by
  cases a with
  | strand segs =>
    simp only [Kc.step] at h
    rw [Option.map_eq_some_iff] at h
    obtain ⟨⟨u, e⟩, h1, h2⟩ := h
    rcases Ux.strand_events h1 with rfl | ⟨m, rfl, hpc, hpc', hq⟩
    · left
      split at h2
      · rename_i hk; simp [kHanded] at hk
      · cases h2; exact ⟨rfl, Or.inl rfl⟩
    · cases hk : s.kcp with
      | none => left; simp only [hk] at h2; cases h2; exact ⟨rfl, Or.inr rfl⟩
      | some n =>
        right
        simp only [hk, kHanded] at h2
        cases h2
        exact ⟨n, m, segs, rfl, rfl, hpc, hpc', hq, rfl, rfl, rfl, rfl⟩
  | u a =>
    left
    cases a <;> simp only [Kc.step] at h <;> first
      | (cases h; done)
      | (rw [Option.map_eq_some_iff] at h; obtain ⟨⟨u, e⟩, h1, h2⟩ := h; cases h2; exact ⟨rfl, Or.inl (Ux.not_handed h1 (fun _ _ => UAct.noConfusion))⟩)
  | update n => left; simp only [Kc.step] at h; split at h <;> cases h; exact ⟨rfl, Or.inl rfl⟩
  | timerCC =>
    left
    simp only [Kc.step] at h
    split at h
    · cases h
    · split at h
      · cases h
      · rw [Option.map_eq_some_iff] at h; obtain ⟨⟨u, e⟩, h1, h2⟩ := h; cases h2; exact ⟨rfl, Or.inl (Ux.not_handed h1 (fun _ _ => UAct.noConfusion))⟩
  | poll =>
    left
    simp only [Kc.step] at h
    split at h
    · cases h
    · split at h <;> cases h; exact ⟨rfl, Or.inl rfl⟩
  | create => left; simp only [Kc.step] at h; split at h <;> cases h; exact ⟨rfl, Or.inl rfl⟩
  | close =>
    left
    simp only [Kc.step] at h
    rw [Option.map_eq_some_iff] at h; obtain ⟨⟨u, e⟩, h1, h2⟩ := h; cases h2; exact ⟨rfl, Or.inl (Ux.not_handed h1 (fun _ _ => UAct.noConfusion))⟩
  | setMax n => left; simp only [Kc.step] at h; cases h; exact ⟨rfl, Or.inl rfl⟩

theorem Kc.step_kcp {s s' : Kc} {a : KAct} {es : List UEv} (h : s.step a = some (s', es)) (ha : a ≠ .close) (hk : s.kcp.isSome = true) : s'.kcp.isSome = true := by
  cases a with
  | strand segs =>
    simp only [Kc.step] at h
    rw [Option.map_eq_some_iff] at h
    obtain ⟨⟨u, e⟩, h1, h2⟩ := h
    split at h2 <;> cases h2
    · rfl
    · exact hk
  | u a =>
    cases a <;> simp only [Kc.step] at h <;> first
      | (cases h; done)
      | (rw [Option.map_eq_some_iff] at h; obtain ⟨⟨u, e⟩, h1, h2⟩ := h; cases h2; exact hk)
  | update n => simp only [Kc.step] at h; split at h <;> cases h; rfl
  | timerCC =>
    simp only [Kc.step] at h
    split at h
    · cases h
    · split at h
      · cases h
      · rw [Option.map_eq_some_iff] at h; obtain ⟨⟨u, e⟩, h1, h2⟩ := h; cases h2; exact hk
  | poll =>
    simp only [Kc.step] at h
    split at h
    · cases h
    · split at h <;> cases h; exact hk
  | create => simp only [Kc.step] at h; split at h <;> cases h; rfl
  | close => exact absurd rfl ha
  | setMax n => simp only [Kc.step] at h; cases h; exact hk

/-! ## Order -/

/-- C49: while the KCP control block exists, every message taken from the send buffer is given to KCP, once, in that order. -/
theorem C49_given (s0 s : Kc) (as : List KAct) (es : List UEv) (h : Kc.Run s0 as s es) (hk : s0.kcp.isSome = true) (hc : KAct.close ∉ as) :
    s.given.map (fun g => g.1) = s0.given.map (fun g => g.1) ++ uHanded es ∧ s.kcp.isSome = true := by
  induction h with
  | nil => simp [uHanded, hk]
  | snoc s1 s2 as a es es' _ hs ih =>
    obtain ⟨i1, i2⟩ := ih (fun hx => hc (by simp [hx]))
    refine ⟨?_, Kc.step_kcp hs (fun hx => hc (by simp [hx])) i2⟩
    rw [uHanded_append]
    rcases Kc.step_given hs with ⟨h1, h2⟩ | ⟨n, m, segs, _, _, _, _, _, he, _, _, hg⟩
    · rcases h2 with h2 | h2
      · rw [h1, h2, i1, List.append_nil]
      · rw [h2] at i2; cases i2
    · subst he
      rw [hg, List.map_append, i1]
      simp [uHanded]

/-- C49: with a KCP control block created before anything else, and without priority, pop, shrink, reset and close: the messages given to KCP, followed by the waiting ones, are the accepted ones, in order. -/
theorem C49_order (max : Nat) (as : List KAct) (s : Kc) (es : List UEv) (h : Kc.Run (Kc.init max) (.create :: as) s es) (hc : KAct.close ∉ as)
    (hp : ∀ e ∈ es, UPlainEv e) : s.given.map (fun g => g.1) ++ s.ux.q.items = uAccepted es := by
  have hsplit : ∀ (l : List KAct) (s : Kc) (es : List UEv), Kc.Run (Kc.init max) l s es → ∀ as, l = .create :: as → Kc.Run ⟨Ux.init, some 0, max, []⟩ as s es := by
    intro l s es h
    generalize h0 : Kc.init max = s0 at h
    induction h with
    | nil => intro as hl; cases hl
    | snoc s1 s2 l a es es' hr hs ih =>
      subst h0
      intro as hl
      cases l with
      | nil =>
        simp at hl
        obtain ⟨rfl, rfl⟩ := hl
        have e1 : s1 = Kc.init max ∧ es = [] := by
          generalize hn : ([] : List KAct) = nl at hr
          cases hr with
          | nil => exact ⟨rfl, rfl⟩
          | snoc => simp at hn
        obtain ⟨rfl, rfl⟩ := e1
        simp [Kc.step, Kc.init, Ux.init] at hs
        obtain ⟨rfl, rfl⟩ := hs
        exact Kc.Run.nil _
      | cons b bs =>
        simp at hl
        obtain ⟨rfl, rfl⟩ := hl
        exact Kc.Run.snoc _ _ _ _ _ _ _ (ih bs rfl) hs
  have h1 := hsplit _ _ _ h as rfl
  obtain ⟨bs, hr, _⟩ := Kc.run_ux h
  have h2 := C24_order true bs s.ux es hr hp
  rw [(C49_given _ _ _ _ h1 rfl hc).1]
  simpa using h2

/-! ## Pausing -/

/-- When the strand is about to take a message, the backlog is within the limit. -/
def Kc.Within (s : Kc) : Prop := ∀ n, s.ux.pc = .move → s.kcp = some n → n ≤ s.max

theorem Ux.pc_move {conn : Bool} {s s' : Ux} {a : UAct} {es : List UEv} (h : s.step conn a = some (s', es)) (hm : s'.pc = .move) (ha : ∀ x y, a ≠ .strand x y) : s.pc = .move := by
  cases a with
  | strand x y => exact absurd rfl (ha x y)
  | handler i =>
    simp only [Ux.step] at h
    cases hd : s.dones[i]? with
    | none => rw [hd] at h; cases h
    | some d =>
      rw [hd] at h
      simp only [Option.bind_eq_bind, Option.bind_some] at h
      split at h
      · cases h
      · simp only [Ux.handler, Option.some.injEq] at h
        split at h
        · cases h; exact hm
        · split at h <;> cases h
          · cases hm
          · simp only at hm; split at hm <;> cases hm
  | complete i ok fatal =>
    simp only [Ux.step] at h
    cases hd : s.writes[i]? with
    | none => rw [hd] at h; cases h
    | some d => rw [hd] at h; simp only [Option.bind_eq_bind, Option.bind_some] at h; cases h; exact hm
  | runPosted => simp only [Ux.step] at h; split at h <;> cases h; cases hm
  | _ => simp only [Ux.step] at h; (repeat' split at h) <;> cases h <;> exact hm

theorem Ux.strand_move {s s' : Ux} {a b : Bool} {es : List UEv} (h : s.step true (.strand a b) = some (s', es)) (hm : s'.pc = .move) : a = true ∧ es = [] := by
  simp only [Ux.step, Ux.strand] at h
  split at h
  · cases h
  · split at h <;> cases h <;> cases hm
  · split at h <;> cases h
    · cases hm
    · rename_i hc; cases a <;> simp at hc ⊢
  · split at h
    · cases h; cases hm
    · split at h <;> cases h <;> cases hm
  · cases h; cases hm
  · cases h; simp only at hm; split at hm <;> cases hm
  · cases h; cases hm

theorem Kc.step_within {s s' : Kc} {a : KAct} {es : List UEv} (hw : s.Within) (h : s.step a = some (s', es)) (ha : ∀ n, a ≠ .setMax n) : s'.Within ∧ s'.max = s.max := by
  have keep : ∀ {u : Ux} {b : UAct} {e : List UEv}, s.ux.step true b = some (u, e) → (∀ x y, b ≠ .strand x y) → ({ s with ux := u } : Kc).Within :=
    fun hb hx n hm hk => hw n (Ux.pc_move hb hm hx) hk
  cases a with
  | strand segs =>
    simp only [Kc.step] at h
    rw [Option.map_eq_some_iff] at h
    obtain ⟨⟨u, e⟩, h1, h2⟩ := h
    split at h2
    · rename_i n m hk hh
      cases h2
      refine ⟨fun k hm _ => ?_, rfl⟩
      have := (Ux.strand_move h1 hm).2
      subst this
      simp [kHanded] at hh
    · cases h2
      refine ⟨fun k hm hk => ?_, rfl⟩
      have := (Ux.strand_move h1 hm).1
      simp only [Kc.ccOk] at this
      simp only at hk
      rw [hk] at this
      simpa using this
  | u a =>
    cases a <;> simp only [Kc.step] at h <;> first
      | (cases h; done)
      | (rw [Option.map_eq_some_iff] at h; obtain ⟨⟨u, e⟩, h1, h2⟩ := h; cases h2; exact ⟨keep h1 (fun _ _ => UAct.noConfusion), rfl⟩)
  | update n =>
    simp only [Kc.step] at h
    split at h <;> cases h
    rename_i k hk
    refine ⟨fun j hm hj => ?_, rfl⟩
    have := hw k hm hk
    simp at hj
    simp only
    omega
  | timerCC =>
    simp only [Kc.step] at h
    split at h
    · cases h
    · split at h
      · cases h
      · rw [Option.map_eq_some_iff] at h; obtain ⟨⟨u, e⟩, h1, h2⟩ := h; cases h2; exact ⟨keep h1 (fun _ _ => UAct.noConfusion), rfl⟩
  | poll =>
    simp only [Kc.step] at h
    split at h
    · cases h
    · split at h <;> cases h; exact ⟨hw, rfl⟩
  | create =>
    simp only [Kc.step] at h
    split at h <;> cases h
    exact ⟨fun j _ hj => by simp at hj; omega, rfl⟩
  | close =>
    simp only [Kc.step] at h
    rw [Option.map_eq_some_iff] at h; obtain ⟨⟨u, e⟩, h1, h2⟩ := h; cases h2; exact ⟨(fun _ _ hk => by cases hk), rfl⟩
  | setMax n => exact absurd rfl (ha n)

theorem Kc.run_within {s0 s : Kc} {as : List KAct} {es : List UEv} (hw : s0.Within) (h : Kc.Run s0 as s es) (ha : ∀ n, .setMax n ∉ as) : s.Within ∧ s.max = s0.max := by
  induction h with
  | nil => exact ⟨hw, rfl⟩
  | snoc s1 s2 as a es es' _ hs ih =>
    obtain ⟨i1, i2⟩ := ih (fun n hx => ha n (by simp [hx]))
    obtain ⟨j1, j2⟩ := Kc.step_within i1 hs (fun n hx => ha n (by simp [hx]))
    exact ⟨j1, j2.trans i2⟩

/-- C49, pausing: unless the limit is changed on the way, a message is given to KCP only if KCP's backlog is within the limit. -/
theorem C49_pauses (max : Nat) (as : List KAct) (s : Kc) (es : List UEv) (h : Kc.Run (Kc.init max) as s es) (hm : ∀ n, .setMax n ∉ as)
    (a : KAct) (s' : Kc) (es' : List UEv) (hs : s.step a = some (s', es')) (hg : s'.given ≠ s.given) : ∃ n, s.kcp = some n ∧ n ≤ max := by
  obtain ⟨hw, he⟩ := Kc.run_within (fun _ hpc _ => by cases hpc) h hm
  rcases Kc.step_given hs with ⟨h1, _⟩ | ⟨n, m, segs, _, hk, hpc, _⟩
  · exact absurd h1 hg
  · exact ⟨n, hk, by rw [← show s.max = max from he]; exact hw n hpc hk⟩

/-- The limit in force: the one given last. -/
def kLimit (max : Nat) (as : List KAct) : Nat := as.foldl (fun m a => match a with | .setMax n => n | _ => m) max

theorem Kc.step_max {s s' : Kc} {a : KAct} {es : List UEv} (h : s.step a = some (s', es)) : s'.max = match a with | .setMax n => n | _ => s.max := by
  cases a with
  | u b => cases b <;> simp only [Kc.step, Option.map_eq_some_iff] at h <;> grind
  | _ => simp only [Kc.step, Option.map_eq_some_iff] at h <;> grind [Option.map_eq_some_iff]

/-- C49, pausing: changing the limit takes effect: whenever the check is made, sending goes on if and only if KCP's backlog is within the limit given last. -/
theorem C49_limit (max : Nat) (as : List KAct) (s : Kc) (es : List UEv) (h : Kc.Run (Kc.init max) as s es) (n : Nat) (hk : s.kcp = some n) (hp : s.ux.pc = .cc)
    (segs : Option Nat) (s' : Kc) (es' : List UEv) (hs : s.step (.strand segs) = some (s', es')) : (s'.ux.pc = .move ↔ n ≤ kLimit max as) ∧ (s'.ux.ccTimer = true ↔ s.ux.ccTimer = true ∨ kLimit max as < n) := by
  have hm : s.max = kLimit max as := by
    clear hk hp hs
    induction h with
    | nil => rfl
    | snoc s1 s2 as a es es' hr hs ih =>
      rw [Kc.step_max hs, ih]
      simp only [kLimit, List.foldl_append, List.foldl_cons, List.foldl_nil]
      cases a <;> rfl
  rw [← hm]
  simp only [Kc.step, Kc.ccOk, hk, Ux.step, Ux.strand, hp, Option.map_eq_some_iff] at hs
  grind [kHanded]

/-- Not vacuous: the limit is lowered while two segments wait in KCP; the next check pauses sending. -/
example : ∃ as s es s' es', Kc.Run (Kc.init 5) as s es ∧ s.kcp = some 2 ∧ s.ux.pc = .cc ∧ kLimit 5 as = 1 ∧ s.step (.strand none) = some (s', es') ∧ s'.ux.ccTimer = true := by
  have h : Kc.Run (Kc.init 5) [.create, .u .linkUp, .u .loadReady, .u .loadFlag, .u .runPosted, .strand none, .strand none, .strand none, .strand none, .strand none, .u (.send ⟨7, [1], none⟩ false true), .u .loadReady, .u .loadFlag, .u .runPosted,
    .strand none, .strand none, .strand (some 2), .setMax 1, .u (.handler 0)] _ _ := Kc.exec_run rfl
  exact ⟨_, _, _, _, _, h, rfl, rfl, rfl, rfl, rfl⟩

/-- C49, pausing: so the backlog never exceeds the limit by more than one message. -/
theorem C49_backlog (max K : Nat) (as : List KAct) (s : Kc) (es : List UEv) (h : Kc.Run (Kc.init max) as s es) (hm : ∀ n, .setMax n ∉ as)
    (hK : ∀ k, .strand (some k) ∈ as → k ≤ K) (n : Nat) (hn : s.kcp = some n) : n ≤ max + K := by
  have key : ∀ n, s.kcp = some n → n ≤ max + K := by
    clear hn
    clear n
    generalize h0 : Kc.init max = s0 at h
    induction h with
    | nil => subst h0; intro n hn; cases hn
    | snoc s1 s2 as a es es' hr hs ih =>
      subst h0
      have ih := ih (fun n hx => hm n (by simp [hx])) (fun k hx => hK k (by simp [hx]))
      intro n hn
      by_cases hg : s2.given = s1.given
      · -- the backlog did not grow
        cases a with
        | strand segs =>
          rcases Kc.step_given hs with ⟨_, _⟩ | ⟨k, m, segs', _, _, _, _, _, _, _, _, h1⟩
          · simp only [Kc.step] at hs
            rw [Option.map_eq_some_iff] at hs
            obtain ⟨⟨u, e⟩, h1, h2⟩ := hs
            split at h2
            · cases h2; simp at hg
            · cases h2; exact ih n hn
          · rw [hg] at h1; simp at h1
        | u a =>
          cases a <;> simp only [Kc.step] at hs <;> first
            | (cases hs; done)
            | (rw [Option.map_eq_some_iff] at hs; obtain ⟨⟨u, e⟩, h1, h2⟩ := hs; cases h2; exact ih n hn)
        | update j =>
          simp only [Kc.step] at hs
          split at hs <;> cases hs
          rename_i k hk
          have := ih k hk
          simp at hn
          omega
        | timerCC =>
          simp only [Kc.step] at hs
          split at hs
          · cases hs
          · split at hs
            · cases hs
            · rw [Option.map_eq_some_iff] at hs; obtain ⟨⟨u, e⟩, h1, h2⟩ := hs; cases h2; exact ih n hn
        | poll =>
          simp only [Kc.step] at hs
          split at hs
          · cases hs
          · split at hs <;> cases hs; exact ih n hn
        | create => simp only [Kc.step] at hs; split at hs <;> cases hs; simp at hn; omega
        | close =>
          simp only [Kc.step] at hs
          rw [Option.map_eq_some_iff] at hs; obtain ⟨⟨u, e⟩, h1, h2⟩ := hs; cases h2; cases hn
        | setMax j => exact absurd (by simp) (hm j)
      · obtain ⟨k, hk, hle⟩ := C49_pauses max as s1 es hr (fun n hx => hm n (by simp [hx])) a s2 es' hs hg
        rcases Kc.step_given hs with ⟨h1, _⟩ | ⟨k', m, segs, rfl, hk', _, _, _, _, h2, _⟩
        · exact absurd h1 hg
        · rw [hk] at hk'
          cases hk'
          rw [hn] at h2
          cases h2
          cases segs with
          | none => simp; omega
          | some j => have := hK j (by simp); simp; omega
  exact key n hn

/-! ## Resuming -/

/-- What the library, the kernel and KCP's congestion timer do on their own, as long as the socket stays valid. -/
def KAct.Internal : KAct → Prop
  | .u .loadReady | .u .loadFlag | .u .runPosted | .u .resumeCheck | .u (.complete _ true _) | .u (.complete _ false false) | .u (.handler _) => True
  | .strand _ | .timerCC => True
  | _ => False

instance : DecidablePred KAct.Internal := fun a => by
  cases a with
  | u a => cases a with
    | complete i ok fatal => cases ok <;> cases fatal <;> simp only [KAct.Internal] <;> infer_instance
    | _ => simp only [KAct.Internal] <;> infer_instance
  | _ => simp only [KAct.Internal] <;> infer_instance

/-- KCP gets rid of segments, or the congestion timer finds it has not. -/
def KAct.Kcp : KAct → Prop
  | .update _ | .poll => True
  | _ => False

/-- Paused by congestion control: the timer that will resume is running and KCP's backlog is above the limit. -/
def Kc.Paused (s : Kc) : Prop := s.ux.ccTimer = true ∧ ∃ n, s.kcp = some n ∧ n > s.max

/-- Congestion control does not let messages pass, and the strand has not noticed. -/
def Kc.credit (s : Kc) : Nat := if s.ccOk = false ∧ s.ux.ccTimer = false then 9 else 0

/-- Upper bound of the number of internal actions. -/
def Kc.work (s : Kc) : Nat := s.ux.work + 10 * s.ux.q.items.length + s.credit

theorem Kc.credit_congr {s t : Kc} (h1 : s.kcp = t.kcp) (h2 : s.max = t.max) (h3 : s.ux.ccTimer = t.ux.ccTimer) : s.credit = t.credit := by
  have : s.ccOk = t.ccOk := by unfold Kc.ccOk; rw [h1, h2]
  unfold Kc.credit; rw [this, h3]

theorem Kc.credit_le (s : Kc) : s.credit ≤ 9 := by unfold Kc.credit; split <;> omega

theorem Kc.credit_timer {s : Kc} (h : s.ux.ccTimer = true) : s.credit = 0 := by unfold Kc.credit; rw [if_neg (by simp [h])]

theorem Kc.credit_ok {s : Kc} (h : s.ccOk = true) : s.credit = 0 := by unfold Kc.credit; rw [if_neg (by simp [h])]

theorem Kc.credit_nine {s : Kc} (h1 : s.ccOk = false) (h2 : s.ux.ccTimer = false) : s.credit = 9 := by unfold Kc.credit; rw [if_pos ⟨h1, h2⟩]

theorem Ux.strand_cc {s : Ux} (c : Bool) (h : s.pc ≠ .cc) : s.step true (.strand false c) = s.step true (.strand true c) := by
  simp only [Ux.step, Ux.strand]
  cases hp : s.pc <;> first | rfl | exact absurd hp h

theorem Ux.strand_same {s s' : Ux} {c : Bool} {es : List UEv} (h : s.step true (.strand true c) = some (s', es)) :
    s'.ccTimer = s.ccTimer ∧ (es = [] → s'.q = s.q) := by
  simp only [Ux.step, Ux.strand] at h
  split at h
  · cases h
  · split at h <;> cases h <;> exact ⟨rfl, fun _ => rfl⟩
  · split at h <;> cases h
    · rename_i hc; simp at hc
    · exact ⟨rfl, fun _ => rfl⟩
  · split at h
    · cases h; exact ⟨rfl, fun _ => rfl⟩
    · split at h <;> cases h <;> exact ⟨rfl, fun he => by cases he⟩
  · cases h; exact ⟨rfl, fun _ => rfl⟩
  · cases h; exact ⟨rfl, fun _ => rfl⟩
  · cases h; exact ⟨rfl, fun _ => rfl⟩

/-- Internal steps other than the strand's and the timer's leave the queue and the timer alone. -/
theorem Ux.internal_same {s s' : Ux} {a : UAct} {es : List UEv} (ha : KAct.Internal (.u a)) (h : s.step true a = some (s', es)) :
    s'.q = s.q ∧ s'.ccTimer = s.ccTimer ∧ UAct.Internal a := by
  cases a with
  | loadReady => simp only [Ux.step] at h; split at h <;> cases h; exact ⟨rfl, rfl, trivial⟩
  | loadFlag => simp only [Ux.step] at h; split at h <;> cases h; exact ⟨rfl, rfl, trivial⟩
  | runPosted => simp only [Ux.step] at h; split at h <;> cases h; exact ⟨rfl, rfl, trivial⟩
  | resumeCheck => simp only [Ux.step] at h; split at h <;> cases h; exact ⟨rfl, rfl, trivial⟩
  | complete i ok fatal =>
    have hi : UAct.Internal (.complete i ok fatal) := by cases ok <;> cases fatal <;> first | trivial | exact ha
    simp only [Ux.step] at h
    cases hd : s.writes[i]? with
    | none => rw [hd] at h; cases h
    | some d => rw [hd] at h; simp only [Option.bind_eq_bind, Option.bind_some] at h; cases h; exact ⟨rfl, rfl, hi⟩
  | handler i =>
    simp only [Ux.step] at h
    cases hd : s.dones[i]? with
    | none => rw [hd] at h; cases h
    | some d =>
      rw [hd] at h
      simp only [Option.bind_eq_bind, Option.bind_some] at h
      split at h
      · cases h
      · simp only [Ux.handler, Option.some.injEq] at h
        split at h
        · cases h; exact ⟨rfl, rfl, trivial⟩
        · split at h <;> cases h <;> exact ⟨rfl, rfl, trivial⟩
  | _ => exact absurd ha (by simp [KAct.Internal])

/-- Pausing: what check_send_cc does when the backlog is above the limit. -/
theorem Ux.strand_pause {s : Ux} (c : Bool) (h : s.pc = .cc) : s.step true (.strand false c) = some ({ s with ccTimer := true, pc := .idle }, []) := by
  simp only [Ux.step, Ux.strand, h]; rfl

theorem Ux.pause_work {s : Ux} (hi : s.Inv) (h : s.pc = .cc) : ({ s with ccTimer := true, pc := .idle } : Ux).work < s.work + 9 := by
  have ho := hi.owner
  rw [h] at ho
  simp only [UPc.owner] at ho
  have h2 : s.sending.toNat ≤ 1 := Bool.toNat_le _
  have h3 : s.ccTimer.toNat = 0 := by omega
  simp only [Ux.work, Ux.pcWork, h, h3]
  have : (true : Bool).toNat = 1 := rfl
  rw [this]
  split <;> omega

/-- Internal actions use up work. -/
theorem Kc.step_work {s s' : Kc} {a : KAct} {es : List UEv} (hi : s.ux.Inv) (ha : a.Internal) (h : s.step a = some (s', es)) : s'.work < s.work := by
  unfold Kc.work
  cases a with
  | u a =>
    have hs : s.ux.step true a = some (s'.ux, es) ∧ s'.kcp = s.kcp ∧ s'.max = s.max := by
      cases a <;> simp only [Kc.step] at h <;> first
        | (cases h; done)
        | (rw [Option.map_eq_some_iff] at h; obtain ⟨⟨u, e⟩, h1, h2⟩ := h; cases h2; exact ⟨h1, rfl, rfl⟩)
    obtain ⟨h1, h2, h3⟩ := hs
    obtain ⟨e1, e2, e3⟩ := Ux.internal_same ha h1
    have := Ux.step_work e3 h1
    rw [Kc.credit_congr h2 h3 e2, e1]
    omega
  | strand segs =>
    simp only [Kc.step] at h
    rw [Option.map_eq_some_iff] at h
    obtain ⟨⟨u, e⟩, h1, h2⟩ := h
    by_cases hp : s.ccOk = false ∧ s.ux.pc = .cc
    · rw [hp.1, Ux.strand_pause _ hp.2] at h1
      cases h1
      have ho := hi.owner
      rw [hp.2] at ho
      simp only [UPc.owner] at ho
      have h3 : s.ux.sending.toNat ≤ 1 := Bool.toNat_le _
      have h4 : s.ux.ccTimer = false := by
        cases hc : s.ux.ccTimer with
        | false => rfl
        | true => rw [hc] at ho; have : (true : Bool).toNat = 1 := rfl; omega
      have hw := Ux.pause_work hi hp.2
      rw [Kc.credit_nine hp.1 h4]
      split at h2
      · rename_i hh; simp [kHanded] at hh
      · cases h2
        rw [Kc.credit_timer rfl]
        simp only
        omega
    · have h1' : s.ux.step true (.strand true s.kcp.isSome) = some (u, e) := by
        cases hc : s.ccOk with
        | true => rw [hc] at h1; exact h1
        | false => rw [hc] at h1; rw [← Ux.strand_cc _ (fun hx => hp ⟨hc, hx⟩)]; exact h1
      have hw := Ux.step_work (show UAct.Internal (.strand true s.kcp.isSome) from trivial) h1'
      obtain ⟨e1, e2⟩ := Ux.strand_same h1'
      rcases Ux.strand_events h1' with rfl | ⟨m, rfl, _, _, hq⟩
      · have e2 := e2 rfl
        split at h2
        · rename_i hh; simp [kHanded] at hh
        · cases h2
          rw [Kc.credit_congr (s := { s with ux := u }) (t := s) rfl rfl e1]
          simp only [e2]
          omega
      · have hl : s.ux.q.items.length = u.q.items.length + 1 := by rw [hq]; rfl
        have hu : s'.ux = u := by split at h2 <;> cases h2 <;> rfl
        have := Kc.credit_le s'
        rw [hu]
        omega
  | timerCC =>
    simp only [Kc.step] at h
    split at h
    · cases h
    · rename_i n hk
      split at h
      · cases h
      · rename_i hn
        rw [Option.map_eq_some_iff] at h; obtain ⟨⟨u, e⟩, h1, h2⟩ := h; cases h2
        have hw := Ux.step_work (show UAct.Internal .timerCC from trivial) h1
        have hq : u.q = s.ux.q := by simp only [Ux.step] at h1; split at h1 <;> cases h1; rfl
        have hcc : ({ s with ux := u } : Kc).ccOk = true := by simp only [Kc.ccOk, hk]; simp; omega
        rw [Kc.credit_ok hcc]
        simp only [hq]
        omega
  | _ => exact absurd ha (by simp [KAct.Internal])

/-- What KCP does adds no work. -/
theorem Kc.kcp_work {s s' : Kc} {a : KAct} {es : List UEv} (ha : a.Kcp) (h : s.step a = some (s', es)) : s'.work ≤ s.work := by
  cases a with
  | update n =>
    simp only [Kc.step] at h
    split at h <;> cases h
    rename_i k hk
    unfold Kc.work
    simp only
    have : ({ s with kcp := some (k - n) } : Kc).credit ≤ s.credit := by
      by_cases h1 : s.ccOk = true
      · rw [Kc.credit_ok]
        · exact Nat.zero_le _
        · simp only [Kc.ccOk, hk] at h1 ⊢
          simp at h1 ⊢
          omega
      · cases h2 : s.ux.ccTimer with
        | true => rw [Kc.credit_timer (s := { s with kcp := some (k - n) }) h2]; exact Nat.zero_le _
        | false => rw [Kc.credit_nine (s := s) (by simpa using h1) h2]; exact Kc.credit_le _
    omega
  | poll =>
    simp only [Kc.step] at h
    split at h
    · cases h
    · split at h <;> cases h; exact Nat.le_refl _
  | _ => exact absurd ha (by simp [KAct.Kcp])

/-- What internal actions and KCP leave as it is. -/
theorem Kc.step_keep {s s' : Kc} {a : KAct} {es : List UEv} (ha : a.Internal ∨ a.Kcp) (h : s.step a = some (s', es)) :
    s'.ux.ready = s.ux.ready ∧ s'.ux.stopped = s.ux.stopped ∧ kFatal false a = false ∧ (s.kcp.isSome = true → s'.kcp.isSome = true) := by
  have hk : s.kcp.isSome = true → s'.kcp.isSome = true := Kc.step_kcp h (by rintro rfl; rcases ha with ha | ha <;> exact ha)
  cases a with
  | u a =>
    have ha : KAct.Internal (.u a) := by rcases ha with ha | ha; exact ha; exact absurd ha (by simp [KAct.Kcp])
    have hs : s.ux.step true a = some (s'.ux, es) := by
      cases a <;> simp only [Kc.step] at h <;> first
        | (cases h; done)
        | (rw [Option.map_eq_some_iff] at h; obtain ⟨⟨u, e⟩, h1, h2⟩ := h; cases h2; exact h1)
    have := Ux.internal_step (Ux.internal_same ha hs).2.2 hs
    exact ⟨this.1, this.2.1, this.2.2.2, hk⟩
  | strand segs =>
    simp only [Kc.step] at h
    rw [Option.map_eq_some_iff] at h
    obtain ⟨⟨u, e⟩, h1, h2⟩ := h
    have hu : s'.ux = u := by split at h2 <;> cases h2 <;> rfl
    by_cases hp : s.ccOk = false ∧ s.ux.pc = .cc
    · rw [hp.1, Ux.strand_pause _ hp.2] at h1
      cases h1
      rw [hu]; exact ⟨rfl, rfl, rfl, hk⟩
    · have h1' : s.ux.step true (.strand true s.kcp.isSome) = some (u, e) := by
        cases hc : s.ccOk with
        | true => rw [hc] at h1; exact h1
        | false => rw [hc] at h1; rw [← Ux.strand_cc _ (fun hx => hp ⟨hc, hx⟩)]; exact h1
      have := Ux.internal_step (show UAct.Internal (.strand true s.kcp.isSome) from trivial) h1'
      rw [hu]; exact ⟨this.1, this.2.1, rfl, hk⟩
  | timerCC =>
    simp only [Kc.step] at h
    split at h
    · cases h
    · split at h
      · cases h
      · rw [Option.map_eq_some_iff] at h; obtain ⟨⟨u, e⟩, h1, h2⟩ := h; cases h2
        have := Ux.internal_step (show UAct.Internal .timerCC from trivial) h1
        exact ⟨this.1, this.2.1, rfl, hk⟩
  | update n => simp only [Kc.step] at h; split at h <;> cases h; exact ⟨rfl, rfl, rfl, hk⟩
  | poll =>
    simp only [Kc.step] at h
    split at h
    · cases h
    · split at h <;> cases h; exact ⟨rfl, rfl, rfl, hk⟩
  | create => rcases ha with ha | ha <;> exact absurd ha (by simp [KAct.Internal, KAct.Kcp])
  | close => rcases ha with ha | ha <;> exact absurd ha (by simp [KAct.Internal, KAct.Kcp])
  | setMax n => rcases ha with ha | ha <;> exact absurd ha (by simp [KAct.Internal, KAct.Kcp])

/-- Unless everything is quiet or paused, something can happen. -/
theorem Kc.progress (s : Kc) (hk : s.kcp.isSome = true) (hq : ¬ s.ux.Quiet) (hp : ¬ s.Paused) : ∃ a s' es, KAct.Internal a ∧ s.step a = some (s', es) := by
  obtain ⟨a, u, es, ha, hs⟩ := Ux.progress true s.ux hq
  cases a with
  | loadReady => exact ⟨.u .loadReady, _, _, trivial, by simp only [Kc.step, hs]; rfl⟩
  | loadFlag => exact ⟨.u .loadFlag, _, _, trivial, by simp only [Kc.step, hs]; rfl⟩
  | runPosted => exact ⟨.u .runPosted, _, _, trivial, by simp only [Kc.step, hs]; rfl⟩
  | resumeCheck => exact ⟨.u .resumeCheck, _, _, trivial, by simp only [Kc.step, hs]; rfl⟩
  | handler i => exact ⟨.u (.handler i), _, _, trivial, by simp only [Kc.step, hs]; rfl⟩
  | complete i ok fatal =>
    exact ⟨.u (.complete i ok fatal), _, _, (by cases ok <;> cases fatal <;> first | trivial | exact ha), by simp only [Kc.step, hs]; rfl⟩
  | timerCC =>
    have hc : s.ux.ccTimer = true := by
      simp only [Ux.step] at hs
      split at hs
      · assumption
      · cases hs
    cases hkk : s.kcp with
    | none => rw [hkk] at hk; cases hk
    | some n =>
      have hn : ¬ n > s.max := fun hx => hp ⟨hc, n, hkk, hx⟩
      exact ⟨.timerCC, _, _, trivial, by simp only [Kc.step, hkk]; rw [if_neg hn, hs]; rfl⟩
  | strand x y =>
    have hpc : s.ux.pc ≠ .idle := by
      intro hpc
      simp [Ux.step, Ux.strand, hpc] at hs
    have : ∃ r, s.ux.step true (.strand s.ccOk s.kcp.isSome) = some r := by
      by_cases hpc2 : s.ux.pc = .cc
      · cases hc : s.ccOk with
        | false => exact ⟨_, Ux.strand_pause _ hpc2⟩
        | true => simp only [Ux.step, Ux.strand, hpc2]; exact ⟨_, rfl⟩
      · simp only [Ux.step, Ux.strand]
        cases hpc3 : s.ux.pc with
        | idle => exact absurd hpc3 hpc
        | cc => exact absurd hpc3 hpc2
        | test => cases s.ux.sending <;> exact ⟨_, rfl⟩
        | move =>
          simp only [Q.tryDequeue]
          cases s.ux.q.items with
          | nil => exact ⟨_, rfl⟩
          | cons m l => cases s.kcp.isSome <;> exact ⟨_, rfl⟩
        | _ => exact ⟨_, rfl⟩
    obtain ⟨r, hr⟩ := this
    have : ∃ r, s.step (.strand none) = some r := by
      simp only [Kc.step]
      rw [hr, Option.map_some]
      exact ⟨_, rfl⟩
    obtain ⟨⟨s', es'⟩, hr⟩ := this
    exact ⟨.strand none, s', es', trivial, hr⟩
  | _ => exact absurd ha (by simp [UAct.Internal])

theorem Kc.run_keep {s s' : Kc} {as : List KAct} {es : List UEv} (h : Kc.Run s as s' es) (ha : ∀ a ∈ as, a.Internal ∨ a.Kcp) :
    s'.ux.ready = s.ux.ready ∧ s'.ux.stopped = s.ux.stopped ∧ as.foldl kFatal false = false ∧ (s.kcp.isSome = true → s'.kcp.isSome = true) := by
  induction h with
  | nil => exact ⟨rfl, rfl, rfl, id⟩
  | snoc s1 s2 as a es es' _ hs ih =>
    obtain ⟨i1, i2, i3, i4⟩ := ih (fun x hx => ha x (by simp [hx]))
    obtain ⟨j1, j2, j3, j4⟩ := Kc.step_keep (ha a (by simp)) hs
    exact ⟨j1.trans i1, j2.trans i2, by rw [List.foldl_append, i3]; exact j3, fun hk => j4 (i4 hk)⟩

theorem Kc.run_inv {max : Nat} {s : Kc} {as : List KAct} {es : List UEv} (h : Kc.Run (Kc.init max) as s es) : s.ux.Inv := by
  obtain ⟨bs, hr, _⟩ := Kc.run_ux h
  exact (Ux.run_ok hr).1

/-- C49, nothing is stranded: if nothing is going on and sending is not paused, no message waits - unless the socket became invalid or the congestion timer was lost (`stopped`, see C49_fails_timer). -/
theorem C49_not_stranded_partial (max : Nat) (as : List KAct) (s : Kc) (es : List UEv) (h : Kc.Run (Kc.init max) as s es)
    (hr : s.ux.ready = true) (hf : kFatalSinceUp as = false) (hst : s.ux.stopped = false) (hk : s.kcp.isSome = true)
    (hn : ∀ a s' es', KAct.Internal a → s.step a ≠ some (s', es')) : s.ux.q.items = [] ∨ s.Paused := by
  rcases Classical.em s.Paused with hp | hp
  · exact Or.inr hp
  · left
    have hq : s.ux.Quiet := by
      rcases Classical.em s.ux.Quiet with hq | hq
      · exact hq
      · obtain ⟨a, s', es', ha, hs⟩ := Kc.progress s hk hq hp
        exact absurd hs (hn a s' es' ha)
    obtain ⟨bs, hrun, hfb⟩ := Kc.run_ux h
    exact C24_no_lost_wakeup true bs s.ux es hrun hq hr (by unfold uFatalSinceUp; rw [hfb]; exact hf) hst

/-- C49, resuming: as soon as KCP's backlog is within the limit, the timer of a paused socket resumes sending. -/
theorem C49_timer_resumes (s : Kc) (n : Nat) (hc : s.ux.ccTimer = true) (hk : s.kcp = some n) (hn : n ≤ s.max) :
    ∃ s', s.step .timerCC = some (s', []) ∧ s'.ux.sending = false ∧ s'.ux.atEmpty = s.ux.atEmpty + 1 := by
  simp only [Kc.step, hk]
  rw [if_neg (by omega)]
  simp only [Ux.step, hc, if_true, Option.map_some]
  exact ⟨_, rfl, rfl, rfl⟩

/-- C49, no livelock: however KCP's backlog goes up and down, the library does at most `s.work` things before nothing is left to do or it is paused with the timer running. -/
theorem C49_drains_partial (max : Nat) (as : List KAct) (s : Kc) (es : List UEv) (h : Kc.Run (Kc.init max) as s es)
    (hr : s.ux.ready = true) (hf : kFatalSinceUp as = false) (hst : s.ux.stopped = false) (hk : s.kcp.isSome = true) :
    ∀ as' s' es', Kc.Run s as' s' es' → (∀ a ∈ as', a.Internal ∨ a.Kcp) →
      (as'.filter (fun a => decide a.Internal)).length ≤ s.work ∧
      ((∀ a s'' es'', KAct.Internal a → s'.step a ≠ some (s'', es'')) → s'.ux.q.items = [] ∨ s'.Paused) := by
  intro as' s' es' hrun ha
  constructor
  · have : (as'.filter (fun a => decide a.Internal)).length + s'.work ≤ s.work ∧ s'.ux.Inv := by
      have hi := Kc.run_inv h
      clear hr hst hk
      induction hrun with
      | nil => exact ⟨by simp, hi⟩
      | snoc s1 s2 bs a fs fs' hr1 hs ih =>
        obtain ⟨i1, i2⟩ := ih (fun x hx => ha x (by simp [hx]))
        have hinv : s2.ux.Inv := Kc.run_inv (Kc.run_trans h (Kc.Run.snoc _ _ _ _ _ _ _ hr1 hs))
        refine ⟨?_, hinv⟩
        rw [List.filter_append, List.length_append]
        by_cases hia : a.Internal
        · have := Kc.step_work i2 hia hs
          simp only [List.filter_cons, hia, decide_true, if_true, List.filter_nil, List.length_cons, List.length_nil]
          omega
        · have := Kc.kcp_work ((ha a (by simp)).resolve_left hia) hs
          simp only [List.filter_cons, hia, decide_false, List.filter_nil]
          simp
          omega
    omega
  · obtain ⟨k1, k2, k3, k4⟩ := Kc.run_keep hrun ha
    refine C49_not_stranded_partial max (as ++ as') s' (es ++ es') (Kc.run_trans h hrun) (k1.trans hr) ?_ (k2.trans hst) (k4 hk)
    unfold kFatalSinceUp at *
    rw [List.foldl_append, hf]
    exact k3

/-- C49: and if KCP keeps getting rid of its segments, every waiting message leaves the send buffer. -/
theorem C49_empties_partial (max : Nat) (as : List KAct) (s : Kc) (es : List UEv) (h : Kc.Run (Kc.init max) as s es)
    (hr : s.ux.ready = true) (hf : kFatalSinceUp as = false) (hst : s.ux.stopped = false) (hk : s.kcp.isSome = true) :
    ∃ as' s' es', Kc.Run s as' s' es' ∧ (∀ a ∈ as', a.Internal ∨ a.Kcp) ∧ s'.ux.q.items = [] := by
  have key : ∀ (w : Nat) (as : List KAct) (s : Kc) (es : List UEv), s.work ≤ w → Kc.Run (Kc.init max) as s es → s.ux.ready = true → kFatalSinceUp as = false →
      s.ux.stopped = false → s.kcp.isSome = true → ∃ as' s' es', Kc.Run s as' s' es' ∧ (∀ a ∈ as', a.Internal ∨ a.Kcp) ∧ s'.ux.q.items = [] := by
    intro w
    induction w with
    | zero =>
      intro as s es hw _ _ _ _ _
      exact ⟨[], s, [], .nil s, by simp, by
        have : s.ux.q.items.length = 0 := by simp only [Kc.work] at hw; omega
        exact List.eq_nil_of_length_eq_zero this⟩
    | succ w ih =>
      intro as s es hw h hr hf hst hk
      -- one internal step, possibly after an update, then the rest
      have go : ∀ (cs : List KAct) (t : Kc) (fs : List UEv), Kc.Run s cs t fs → (∀ a ∈ cs, a.Internal ∨ a.Kcp) → t.work < s.work →
          ∃ as' s' es', Kc.Run s as' s' es' ∧ (∀ a ∈ as', a.Internal ∨ a.Kcp) ∧ s'.ux.q.items = [] := by
        intro cs t fs hrun hcs hlt
        obtain ⟨k1, k2, k3, k4⟩ := Kc.run_keep hrun hcs
        obtain ⟨as', s', es', r1, r2, r3⟩ := ih (as ++ cs) t (es ++ fs) (by omega) (Kc.run_trans h hrun) (k1.trans hr)
          (by unfold kFatalSinceUp at *; rw [List.foldl_append, hf]; exact k3) (k2.trans hst) (k4 hk)
        refine ⟨cs ++ as', s', fs ++ es', Kc.run_trans hrun r1, ?_, r3⟩
        intro a ha
        rcases List.mem_append.mp ha with ha | ha
        · exact hcs a ha
        · exact r2 a ha
      by_cases hex : ∃ a s' es', KAct.Internal a ∧ s.step a = some (s', es')
      · obtain ⟨a, s', es', ha, hs⟩ := hex
        exact go [a] s' es' (Kc.run_one hs) (by simpa using Or.inl ha) (Kc.step_work (Kc.run_inv h) ha hs)
      · rcases C49_not_stranded_partial max as s es h hr hf hst hk (fun a s' es' ha hs => hex ⟨a, s', es', ha, hs⟩) with hq | ⟨hc, n, hkn, hn⟩
        · exact ⟨[], s, [], .nil s, by simp, hq⟩
        · have h1 : s.step (.update n) = some ({ s with kcp := some 0 }, []) := by simp [Kc.step, hkn]
          obtain ⟨t, h2, _⟩ := C49_timer_resumes { s with kcp := some 0 } 0 hc rfl (Nat.zero_le _)
          have w1 := Kc.kcp_work (show KAct.Kcp (.update n) from trivial) h1
          have w2 := Kc.step_work (s := { s with kcp := some 0 }) (show s.ux.Inv from Kc.run_inv h) (show KAct.Internal .timerCC from trivial) h2
          exact go _ t _ (Kc.run_trans (Kc.run_one h1) (Kc.run_one h2)) (by
            intro a ha
            simp at ha
            rcases ha with rfl | rfl
            · exact Or.inr trivial
            · exact Or.inl trivial) (by omega)
  exact key _ as s es (Nat.le_refl _) h hr hf hst hk

/-- Two messages: the first one makes the backlog exceed the limit of 1, the second one waits, is paused, polled, and given to KCP when the backlog went down. -/
def kcDemo : List KAct :=
  [.create, .u .linkUp, .u (.send ⟨7, [1], some 0⟩ false true), .u (.send ⟨7, [2, 2], some 1⟩ false true), .u .loadReady, .u .loadFlag, .u .runPosted,
   .strand none, .strand none, .strand (some 3), .u (.handler 0), .strand none, .poll, .update 1, .poll]

def kcDemo2 : List KAct := kcDemo ++ [.update 1, .timerCC, .u .resumeCheck, .u .loadReady, .u .loadFlag, .u .runPosted, .strand none, .strand none, .strand (some 1), .u (.handler 0)]

/-- Non-vacuity: the pause and what follows. -/
example : ∃ s es, Kc.Run (Kc.init 1) kcDemo s es ∧ s.Paused ∧ s.ux.ready = true ∧ kFatalSinceUp kcDemo = false ∧ s.ux.stopped = false ∧ s.given = [(⟨7, [1], some 0⟩, true)] ∧
    s.ux.q.items = [⟨7, [2, 2], some 1⟩] := by
  have h : ∃ r, Kc.exec (Kc.init 1) kcDemo = some r := by exact ⟨_, rfl⟩
  obtain ⟨⟨s, es⟩, h⟩ := h
  have hr := Kc.exec_run h
  have e : some (s, es) = some _ := h.symm.trans rfl
  cases e
  exact ⟨_, _, hr, ⟨by decide, 2, by decide, by decide⟩, by decide, by decide, by decide, by decide, by decide⟩

example : ∃ s es, Kc.Run (Kc.init 1) kcDemo2 s es ∧ (∀ e ∈ es, UPlainEv e) ∧ KAct.close ∉ kcDemo2 ∧ s.given = [(⟨7, [1], some 0⟩, true), (⟨7, [2, 2], some 1⟩, true)] ∧ s.ux.q.items = [] := by
  have h : ∃ r, Kc.exec (Kc.init 1) kcDemo2 = some r := by exact ⟨_, rfl⟩
  obtain ⟨⟨s, es⟩, h⟩ := h
  have hr := Kc.exec_run h
  have e : some (s, es) = some _ := h.symm.trans rfl
  cases e
  refine ⟨_, _, hr, ?_, by decide, by decide, by decide⟩
  intro e he
  revert e
  decide

/-- A message that ikcp_send refuses is reported as sent, its promise says SUCCESS, and nobody has it. -/
theorem C49_fails_error : ∃ as s es, Kc.Run (Kc.init 1) as s es ∧ s.given = [(⟨7, [1], some 0⟩, false)] ∧ uSent es = [⟨7, [1], some 0⟩] ∧ UEv.resolved 0 .success ∈ es := by
  refine ⟨[.create, .u .linkUp, .u (.send ⟨7, [1], some 0⟩ false true), .u .loadReady, .u .loadFlag, .u .runPosted, .strand none, .strand none, .strand none, .u (.handler 0)], ?_⟩
  have h : ∃ r, Kc.exec (Kc.init 1) [.create, .u .linkUp, .u (.send ⟨7, [1], some 0⟩ false true), .u .loadReady, .u .loadFlag, .u .runPosted, .strand none, .strand none, .strand none, .u (.handler 0)] = some r := by exact ⟨_, rfl⟩
  obtain ⟨⟨s, es⟩, h⟩ := h
  have hr := Kc.exec_run h
  have e : some (s, es) = some _ := h.symm.trans rfl
  cases e
  exact ⟨_, _, hr, by decide, by decide, by decide⟩

/-- If the congestion timer is stopped or lost (the race of C32), the waiting message stays where it is although KCP has nothing left to send. -/
theorem C49_fails_timer : ∃ as s es, Kc.Run (Kc.init 1) as s es ∧ s.ux.Quiet ∧ s.ux.ready = true ∧ kFatalSinceUp as = false ∧ s.kcp = some 0 ∧ s.ux.q.items ≠ [] := by
  refine ⟨kcDemo ++ [.u .timerLost, .update 2, .u .loadReady, .u .loadReady, .u .loadFlag, .u .loadFlag], ?_⟩
  have h : ∃ r, Kc.exec (Kc.init 1) (kcDemo ++ [.u .timerLost, .update 2, .u .loadReady, .u .loadReady, .u .loadFlag, .u .loadFlag]) = some r := by exact ⟨_, rfl⟩
  obtain ⟨⟨s, es⟩, h⟩ := h
  have hr := Kc.exec_run h
  have e : some (s, es) = some _ := h.symm.trans rfl
  cases e
  exact ⟨_, _, hr, by unfold Ux.Quiet; decide, by decide, by decide, by decide, by decide⟩

/-- **C49 is false** after a restart: on_close releases the KCP control block, and nothing creates it again (the restart command of udp_test does not): a message is then sent as a plain datagram. -/
theorem C49_fails_restart : ∃ as s es, Kc.Run (Kc.init 1) as s es ∧ as.take 2 = [.create, .u .linkUp] ∧ s.ux.ready = true ∧ UEv.handOff ⟨7, [1], some 0⟩ ∈ es ∧ s.given = [] ∧ s.ux.writes = [⟨7, [1], some 0⟩] := by
  refine ⟨[.create, .u .linkUp, .u .loadReady, .u .loadFlag, .u .runPosted, .strand none, .strand none, .strand none, .strand none, .strand none, .close, .u .reset, .u .linkUp, .u (.send ⟨7, [1], some 0⟩ false true), .u .loadReady, .u .loadFlag, .u .runPosted, .strand none, .strand none, .strand none], ?_⟩
  have h : ∃ r, Kc.exec (Kc.init 1) [.create, .u .linkUp, .u .loadReady, .u .loadFlag, .u .runPosted, .strand none, .strand none, .strand none, .strand none, .strand none, .close, .u .reset, .u .linkUp, .u (.send ⟨7, [1], some 0⟩ false true), .u .loadReady, .u .loadFlag, .u .runPosted, .strand none, .strand none, .strand none] = some r := by exact ⟨_, rfl⟩
  obtain ⟨⟨s, es⟩, h⟩ := h
  have hr := Kc.exec_run h
  have e : some (s, es) = some _ := h.symm.trans rfl
  cases e
  exact ⟨_, _, hr, rfl, rfl, by decide, rfl, rfl⟩

end StAsio
