import Verif.Lemmas.ModePipe
import Verif.Lemmas.Protocols2
/-!
Lemmas for C95: nothing gets stuck.
-/
set_option autoImplicit false
namespace StAsio

set_option linter.unusedSimpArgs false

/-- A step of the library or of a receiving application that accepts messages and, with passive receiving, asks for more. -/
def MAct.Go (c : MCfg) (a : MAct) : Prop := a.internal = true ∨ (c.passive = true ∧ a = .userRecv)

theorem MAct.Go.ok {c : MCfg} {s : Rm} {a : MAct} (h : a.Go c) (hh : a.honest s) : a.ok s = true := by
  rcases h with h | ⟨_, rfl⟩
  · cases a <;> simp_all [MAct.internal, MAct.ok, MAct.honest]
    rename_i n
    cases n <;> simp_all
  · rfl

theorem MAct.dispatch_internal {a : MAct} (h : a.dispatch = true) : a.internal = true := by
  cases a with
  | retAll n =>
    unfold MAct.dispatch at h
    split at h <;> first | (cases h; done) | (rename_i he; cases he; done) | (rename_i he; injection he with he; subst he; rfl)
  | ret ok => cases ok <;> simp_all [MAct.dispatch, MAct.internal]
  | _ => simp_all [MAct.dispatch, MAct.internal]

/-- What holds of a receiver whose link stays up. -/
structure Rm.Live (c : MCfg) (s : Rm) : Prop where
  inv : s.Inv c
  exact : s.buf.Exact rsz
  ready : s.ready = true
  dlost : s.dlost = false
  ec : s.ec = false
  noTimer : c.passive = true → s.ctimer = false

theorem Rm.Live.step {c : MCfg} {limit : Nat} {s s' : Rm} {a : MAct} {fs : List MEv} (h : s.Live c) (ha : a.ok s = true) (hs : s.step c limit a = some (s', fs)) : s'.Live c := by
  obtain ⟨e1, e2, e3, _, _, e4⟩ := Rm.ok_step ha h.inv hs
  exact ⟨Rm.inv_step h.inv (MAct.ok_honest ha) hs, Rm.exact_step h.exact (MAct.ok_honest ha) hs, by rw [e1, h.ready], e2 h.dlost, by rw [e3, h.ec], fun hc => e4 hc (h.noTimer hc)⟩

theorem Rm.Live.run {c : MCfg} {limit : Nat} {s s' : Rm} {as : List MAct} {fs : List MEv} (h : s.Live c) (ha : ∀ a ∈ as, a.Go c) (hr : Rm.Run c limit s as s' fs) : s'.Live c := by
  induction hr with
  | nil => exact h
  | snoc s1 s2 as a es fs _ hh hs ih => exact (ih (fun x hx => ha x (by simp [hx]))).step ((ha a (by simp)).ok hh) hs

/-- The dispatcher leaves reading alone. -/
theorem Rm.dispatch_keeps {c : MCfg} {limit : Nat} {s s' : Rm} {as : List MAct} {fs : List MEv} (ha : ∀ a ∈ as, a.dispatch = true) (hr : Rm.Run c limit s as s' fs) :
    s'.out = s.out ∧ s'.rposted = s.rposted ∧ s'.ctimer = s.ctimer ∧ (s'.hp = s.hp ∨ (s.hp = .moved ∧ s'.hp = .check)) := by
  induction hr with
  | nil => simp
  | snoc s1 s2 as a es fs _ hh hs ih =>
    obtain ⟨i1, i2, i3, i4⟩ := ih (fun x hx => ha x (by simp [hx]))
    have h1 := ha a (by simp)
    cases a <;> simp only [MAct.dispatch, Bool.false_eq_true] at h1 <;> simp only [Rm.step] at hs <;> (repeat' split at hs) <;>
      first
      | (cases hs; done)
      | (simp only [Option.some.injEq, Prod.mk.injEq] at hs; obtain ⟨rfl, rfl⟩ := hs; exact ⟨i1, i2, i3, i4⟩)
      | (simp only [Option.some.injEq, Prod.mk.injEq] at hs; obtain ⟨rfl, rfl⟩ := hs; refine ⟨i1, i2, i3, ?_⟩; simp_all)

/-- A receiver that can get where `Q` holds on its own. -/
def Rm.Gets (c : MCfg) (limit : Nat) (s : Rm) (Q : Rm → Prop) : Prop := ∃ bs s' fs, Rm.Run c limit s bs s' fs ∧ (∀ b ∈ bs, b.Go c) ∧ Q s'

theorem Rm.Gets.here {c : MCfg} {limit : Nat} {s : Rm} {Q : Rm → Prop} (h : Q s) : s.Gets c limit Q := ⟨[], s, [], Rm.Run.nil s, by simp, h⟩

theorem Rm.Gets.cons {c : MCfg} {limit : Nat} {s s1 : Rm} {Q : Rm → Prop} {a : MAct} {fs : List MEv} (ha : a.Go c) (hh : a.honest s) (hs : s.step c limit a = some (s1, fs)) (h : s1.Gets c limit Q) : s.Gets c limit Q := by
  obtain ⟨bs, s', gs, g1, g2, g3⟩ := h
  refine ⟨a :: bs, s', fs ++ gs, Rm.run_trans (Rm.run_one hh hs) g1, ?_, g3⟩
  intro b hb
  rcases List.mem_cons.1 hb with rfl | hb
  · exact ha
  · exact g2 b hb

theorem Rm.Gets.trans {c : MCfg} {limit : Nat} {s : Rm} {P Q : Rm → Prop} (h : s.Gets c limit P) (hl : s.Live c) (hn : ∀ s', s'.Live c → P s' → s'.Gets c limit Q) : s.Gets c limit Q := by
  obtain ⟨bs, s', fs, g1, g2, g3⟩ := h
  obtain ⟨bs', s2, fs', k1, k2, k3⟩ := hn s' (hl.run g2 g1) g3
  refine ⟨bs ++ bs', s2, fs ++ fs', Rm.run_trans g1 k1, ?_, k3⟩
  intro b hb
  rcases List.mem_append.1 hb with hb | hb
  · exact g2 b hb
  · exact k2 b hb

theorem Rm.gets_drained {c : MCfg} {limit : Nat} {s : Rm} (h : s.Live c) : s.Gets c limit (fun s' => s'.work c = 0 ∧ s'.out = s.out ∧ s'.rposted = s.rposted ∧ s'.ctimer = s.ctimer ∧ (s'.hp = s.hp ∨ (s.hp = .moved ∧ s'.hp = .check))) := by
  obtain ⟨bs, s', fs, g1, g2, g3, _⟩ := Rm.drain c limit _ s h.inv h.dlost (Nat.le_refl _)
  exact ⟨bs, s', fs, g1, fun b hb => .inl (MAct.dispatch_internal (g2 b hb)), g3, Rm.dispatch_keeps g2 g1⟩

theorem Rm.Live.room {c : MCfg} {limit : Nat} {s : Rm} (h : s.Live c) (hlim : 0 < limit) (hw : s.work c = 0) : s.available limit = true := by
  have hb := (Rm.work_zero h.inv hw).1
  have := h.exact
  unfold Q.Exact at this
  rw [hb] at this
  simp [Rm.available, this, sumSize, hlim]

theorem Rm.work_congr {c : MCfg} {s s' : Rm} (h1 : s'.posted = s.posted) (h2 : s'.dtimer = s.dtimer) (h3 : s'.hp ≠ .moved) (h4 : s.hp ≠ .moved) (h5 : s'.pc = s.pc) (h6 : s'.buf = s.buf) (h7 : s'.cur = s.cur) : s'.work c = s.work c := by
  simp only [Rm.work, h1, h2, h3, h4, h5, h6, h7]

theorem Rm.gets_checked {c : MCfg} {limit : Nat} (hlim : 0 < limit) {s : Rm} (h : s.Live c) (hw : s.work c = 0) (hp : s.hp = .check) :
    s.Gets c limit (fun s' => s'.work c = 0 ∧ s'.hp = .idle ∧ (c.passive = true ∨ s'.out = true)) := by
  have hr := h.room hlim hw
  cases hc : c.passive with
  | true =>
    refine Rm.Gets.cons (a := .handled true) (.inl rfl) trivial (by simp only [Rm.step, hp, hc]; rfl) (.here ⟨?_, rfl, .inl rfl⟩)
    rw [Rm.work_congr (s := s)] <;> simp_all
  | false =>
    refine Rm.Gets.cons (a := .handled true) (s1 := { s with hp := .idle, out := true, reading := c.passive, bad := s.bad || s.out }) (.inl rfl) trivial (by simp [Rm.step, hp, hc, hr, h.ec, Rm.startRead]; rfl) (.here ⟨?_, rfl, .inr rfl⟩)
    rw [Rm.work_congr (s := s)] <;> simp_all

theorem Rm.gets_answered {c : MCfg} {limit : Nat} (hlim : 0 < limit) {s : Rm} (h : s.Live c) (hw : s.work c = 0) (hp : s.hp = .inMsg) :
    s.Gets c limit (fun s' => s'.work c = 0 ∧ s'.hp = .idle ∧ (c.passive = true ∨ s'.out = true)) := by
  have hs : s.step c limit (.onMsgRet [] 1) = some ({ s with hp := .check, temp := [] }, [.onMsgRet [] 1]) := by simp [Rm.step, hp]
  have hh : (MAct.onMsgRet [] 1).honest s := by simp [MAct.honest]
  refine Rm.Gets.cons (.inl rfl) hh hs (Rm.gets_checked hlim (h.step (by simp [MAct.ok]) hs) ?_ rfl)
  rw [Rm.work_congr (s := s)] <;> simp_all

theorem Rm.gets_idle {c : MCfg} {limit : Nat} (hlim : 0 < limit) {s : Rm} (h : s.Live c) :
    s.Gets c limit (fun s' => s'.work c = 0 ∧ s'.hp = .idle ∧ (c.passive = true ∨ s'.out = true ∨ (s.hp = .idle ∧ s'.out = s.out ∧ s'.rposted = s.rposted ∧ s'.ctimer = s.ctimer))) := by
  refine (Rm.gets_drained h).trans h ?_
  intro s1 h1 ⟨w1, k1, k2, k3, k4⟩
  have weaken : s1.Gets c limit (fun s' => s'.work c = 0 ∧ s'.hp = .idle ∧ (c.passive = true ∨ s'.out = true)) →
      s1.Gets c limit (fun s' => s'.work c = 0 ∧ s'.hp = .idle ∧ (c.passive = true ∨ s'.out = true ∨ (s.hp = .idle ∧ s'.out = s.out ∧ s'.rposted = s.rposted ∧ s'.ctimer = s.ctimer))) := by
    rintro ⟨bs, s', fs, g1, g2, g3, g4, g5⟩
    refine ⟨bs, s', fs, g1, g2, g3, g4, ?_⟩
    rcases g5 with g5 | g5
    · exact .inl g5
    · exact .inr (.inl g5)
  cases hp : s1.hp with
  | idle =>
    refine .here ⟨w1, hp, .inr (.inr ⟨?_, k1, k2, k3⟩)⟩
    rcases k4 with k4 | k4
    · rw [← k4, hp]
    · rw [hp] at k4; simp at k4
  | check => exact weaken (Rm.gets_checked hlim h1 w1 hp)
  | inMsg => exact weaken (Rm.gets_answered hlim h1 w1 hp)
  | moved => exact absurd hp (Rm.work_zero h1.inv w1).2.2.2.2.2
  | parsed =>
    apply weaken
    have hex : ∃ s2 fs, s1.step c limit .handle = some (s2, fs) := by
      simp only [Rm.step, hp, ne_eq, not_true_eq_false, if_false]
      (repeat' split) <;> exact ⟨_, _, rfl⟩
    obtain ⟨s2, fs, hs⟩ := hex
    have h2 := h1.step (a := .handle) rfl hs
    refine Rm.Gets.cons (a := .handle) (.inl rfl) trivial hs ?_
    obtain ⟨_, ⟨_, rfl, rfl⟩ | ⟨_, _, rfl, rfl⟩ | ⟨ms, rfl, rfl, _⟩⟩ := Rm.handle_cases hs
    · exact Rm.gets_answered hlim h2 (by rw [Rm.work_congr (s := s1)] <;> simp [w1, hp]) rfl
    · exact Rm.gets_checked hlim h2 (by rw [Rm.work_congr (s := s1)] <;> simp [w1, hp]) rfl
    · refine (Rm.gets_drained h2).trans h2 ?_
      intro s3 h3 ⟨w3, _, _, _, k⟩
      have hm := (Rm.work_zero h3.inv w3).2.2.2.2.2
      refine Rm.gets_checked hlim h3 w3 ?_
      rcases k with k | k
      · exact absurd k hm
      · exact k.2

/-- A receiver on a link that stays up reads again once it has handled what it got (with passive receiving: if the application asks). -/
theorem Rm.gets_reading {c : MCfg} {limit : Nat} (hlim : 0 < limit) {s : Rm} (h : s.Live c) (hk : c.passive = false → s.out = true ∨ s.hp ≠ .idle ∨ 0 < s.rposted ∨ s.ctimer = true) :
    s.Gets c limit (fun s' => s'.work c = 0 ∧ s'.hp = .idle ∧ s'.out = true) := by
  refine (Rm.gets_idle hlim h).trans h ?_
  intro s1 h1 ⟨w1, p1, k1⟩
  cases ho : s1.out with
  | true => exact .here ⟨w1, p1, ho⟩
  | false =>
    have hdo : ∀ s2 : Rm, s2.Live c → s2.work c = 0 → s2.hp = .idle → s2.out = false → 0 < s2.rposted → s2.Gets c limit (fun s' => s'.work c = 0 ∧ s'.hp = .idle ∧ s'.out = true) := by
      intro s2 h2 w2 p2 o2 r2
      have hf : c.passive = true → s2.reading = false := by intro hc; rw [h2.inv.flag hc, o2]
      refine Rm.Gets.cons (a := .doRecv true) (s1 := { s2 with rposted := s2.rposted - 1, out := true, reading := c.passive, bad := s2.bad || s2.out }) (fs := [.readBegin]) (.inl rfl) trivial ?_ (.here ⟨?_, p2, rfl⟩)
      · simp only [Rm.step]
        rw [if_neg (by simp [p2]; omega), if_neg (by rw [h2.ready]; intro hh; simp [hf hh.1] at hh)]
        rfl
      · rw [Rm.work_congr (s := s2)] <;> simp_all
    have hroom := h1.room hlim w1
    cases hc : c.passive with
    | true =>
      have hf : s1.reading = false := by rw [h1.inv.flag hc, ho]
      have hs : s1.step c limit .userRecv = some ({ s1 with rposted := s1.rposted + 1 }, [.asked]) := by simp [Rm.step, hc, h1.ready, hf]
      refine Rm.Gets.cons (a := .userRecv) (.inr ⟨hc, rfl⟩) trivial hs (hdo _ (h1.step rfl hs) ?_ p1 ho (by simp))
      rw [Rm.work_congr (s := s1)] <;> simp_all
    | false =>
      simp only [hc, ho, Bool.false_eq_true, false_or] at k1
      obtain ⟨q1, q2, q3, q4⟩ := k1
      have := hk hc
      rw [← q2, ← q3, ← q4] at this
      simp only [Bool.false_eq_true, q1, ne_eq, not_true_eq_false, false_or] at this
      by_cases hr : 0 < s1.rposted
      · exact hdo s1 h1 w1 p1 ho hr
      · have ht : s1.ctimer = true := by rcases this with t | t; exact absurd t hr; exact t
        have hs : s1.step c limit .checkTimer = some ({ s1 with ctimer := false, rposted := s1.rposted + 1 }, []) := by simp [Rm.step, ht, hroom]
        refine Rm.Gets.cons (a := .checkTimer) (.inl rfl) trivial hs (hdo _ (h1.step rfl hs) ?_ p1 ho (by simp))
        rw [Rm.work_congr (s := s1)] <;> simp_all

/-- The calls of recv_msg that came too early are over. -/
theorem Rm.gets_calm {c : MCfg} {limit : Nat} : ∀ (n : Nat) (s : Rm), s.Live c → s.rposted ≤ n → s.work c = 0 → s.hp = .idle → s.out = true →
    s.Gets c limit (fun s' => s'.work c = 0 ∧ s'.hp = .idle ∧ s'.out = true ∧ s'.rposted = 0 ∧ s'.ctimer = false) := by
  intro n
  induction n with
  | zero =>
    intro s h hn hw hp ho
    refine .here ⟨hw, hp, ho, by omega, ?_⟩
    cases hc : c.passive with
    | true => exact h.noTimer hc
    | false =>
      have := h.inv.chain hc
      simp only [Rm.tokens, ho, Bool.toNat_true] at this
      cases ht : s.ctimer with
      | false => rfl
      | true => rw [ht] at this; simp at this; omega
  | succ n ih =>
    intro s h hn hw hp ho
    by_cases h0 : s.rposted = 0
    · refine .here ⟨hw, hp, ho, h0, ?_⟩
      cases hc : c.passive with
      | true => exact h.noTimer hc
      | false =>
        have := h.inv.chain hc
        simp only [Rm.tokens, ho, Bool.toNat_true] at this
        cases ht : s.ctimer with
        | false => rfl
        | true => rw [ht] at this; simp at this; omega
    · cases hc : c.passive with
      | true =>
        have hf : s.reading = true := by rw [h.inv.flag hc, ho]
        have hs : s.step c limit (.doRecv true) = some ({ s with rposted := s.rposted - 1 }, []) := by
          simp only [Rm.step]
          rw [if_neg (by simp [hp]; omega), if_pos ⟨hc, .inr hf⟩]
        refine Rm.Gets.cons (a := .doRecv true) (.inl rfl) trivial hs (ih _ (h.step rfl hs) (by simp only; omega) ?_ hp ho)
        rw [Rm.work_congr (s := s)] <;> simp_all
      | false =>
        have := h.inv.chain hc
        simp only [Rm.tokens, ho, Bool.toNat_true] at this
        omega

/-! ### the pipe -/

section
variable {K : Codec} {c : MCfg} {cwf : Bool} {w : Item → Bytes} {Ok : Item → Prop} {Shown : List Item → Nat → List Bytes → Prop} {Inv : Bytes → Conn K.σ → Prop}
  {May : SendCall → Prop} {batch limit : Nat}

theorem MPipe.Good.live {s : MPipe K} {es : List MPEv} (h : s.Good w Ok Inv c batch limit es) : s.rm.Live c := by
  obtain ⟨mas, hr, _⟩ := h.rm
  exact ⟨h.rm_inv.1, h.rm_inv.2, h.ready, h.dlost, h.ec, fun hc => (Rm.asked_run hc hr).2.2⟩

theorem MPipe.Good.keeps {s : MPipe K} {es : List MPEv} (h : s.Good w Ok Inv c batch limit es) (hc : c.passive = false) : s.rm.out = true ∨ s.rm.hp ≠ .idle ∨ 0 < s.rm.rposted ∨ s.rm.ctimer = true := by
  obtain ⟨mas, hr, hf⟩ := h.rm
  exact C57_keeps_receiving hc hr hf h.ready

theorem MPipe.lift {s : MPipe K} {r : Rm} {bs : List MAct} {fs : List MEv} (h : Rm.Run c limit s.rm bs r fs) (hb : ∀ b ∈ bs, b.Go c) :
    MPipe.Run c cwf batch limit s (bs.map .rx) { s with rm := r } (fs.map .rx) := by
  generalize h0 : s.rm = r0 at h
  induction h with
  | nil => subst h0; exact MPipe.Run.nil _
  | snoc r1 r2 bs b es fs _ hh hs ih =>
    rw [List.map_append, List.map_append]
    refine MPipe.run_trans (ih (fun x hx => hb x (by simp [hx]))) (MPipe.run_one ?_)
    simp only [MPipe.step, (hb b (by simp)).ok hh, if_true, hs]
    rfl

/-- What goes on on its own does not send. -/
theorem MPipe.goes_sent {s s' : MPipe K} {a : MPAct} {fs : List MPEv} (ha : a.Goes c.passive) (hs : s.step c cwf batch limit a = some (s', fs)) : mpSent fs = [] := by
  cases a with
  | send _ _ => exact absurd ha (by simp [MPAct.Goes])
  | tx a =>
    simp only [MPipe.step] at hs
    split at hs
    · rw [Option.map_eq_some_iff] at hs
      obtain ⟨r, _, hs⟩ := hs
      cases hs; rfl
    · cases hs
  | rx a =>
    simp only [MPipe.step] at hs
    split at hs
    · rw [Option.map_eq_some_iff] at hs
      obtain ⟨r, _, hs⟩ := hs
      cases hs; exact mpSent_rx _
    · cases hs
  | net k =>
    simp only [MPipe.step] at hs
    split at hs
    · split at hs
      · split at hs
        · cases hs; rfl
        · split at hs
          · rw [Option.map_eq_some_iff] at hs
            obtain ⟨r, _, hs⟩ := hs
            cases hs; exact mpSent_rx _
          · cases hs; rfl
      · cases hs
    · cases hs

theorem MPipe.goes_run {s s' : MPipe K} {as : List MPAct} {fs : List MPEv} (ha : ∀ a ∈ as, a.Goes c.passive) (hs : MPipe.Run c cwf batch limit s as s' fs) : mpSent fs = [] := by
  induction hs with
  | nil => rfl
  | snoc s1 s2 as a es fs _ hs ih => rw [mpSent_append, ih (fun x hx => ha x (by simp [hx])), MPipe.goes_sent (ha a (by simp)) hs]; rfl

theorem MPAct.goes_send {p : Bool} {as : List MPAct} (ha : ∀ a ∈ as, a.Goes p) (May : SendCall → Prop) : ∀ a ∈ as, ∀ call fits, a = .send call fits → May call := by
  intro a h call fits hc
  have := ha a h
  subst hc
  exact absurd this (by simp [MPAct.Goes])

/-- The sender gets its buffer out. -/
theorem MPipe.sends_out : ∀ (n : Nat) (s : MPipe K), s.tx.Inv → s.tx.work ≤ n →
    ∃ as s', MPipe.Run c cwf batch limit s as s' [] ∧ (∀ a ∈ as, a.Goes c.passive) ∧ s'.tx.Quiet := by
  intro n
  induction n with
  | zero =>
    intro s hi hw
    by_cases hq : s.tx.Quiet
    · exact ⟨[], s, MPipe.Run.nil s, by simp, hq⟩
    · obtain ⟨a, t, tes, ha, hs⟩ := Tx.progress batch s.tx hi hq
      have := (Tx.healthy_work hi (TxAct.internal_healthy ha) hs).1
      omega
  | succ n ih =>
    intro s hi hw
    by_cases hq : s.tx.Quiet
    · exact ⟨[], s, MPipe.Run.nil s, by simp, hq⟩
    · obtain ⟨a, t, tes, ha, hs⟩ := Tx.progress batch s.tx hi hq
      have hlt := (Tx.healthy_work hi (TxAct.internal_healthy ha) hs).1
      obtain ⟨as, s', g1, g2, g3⟩ := ih { s with tx := t } (Tx.step_inv hi hs).1 (by simp only; omega)
      refine ⟨.tx a :: as, s', ?_, ?_, g3⟩
      · have h1 : MPipe.step c cwf batch limit s (.tx a) = some ({ s with tx := t }, []) := by simp only [MPipe.step, TxAct.internal_healthy ha, hs, if_true]; rfl
        exact MPipe.run_trans (MPipe.run_one h1) g1
      · intro b hb
        rcases List.mem_cons.1 hb with rfl | hb
        · trivial
        · exact g2 b hb

/-- One byte more can be read. -/
theorem MPipe.reads_one (hK : K.Reads cwf w Ok Shown Inv) {s : MPipe K} {es : List MPEv} (h : s.Good w Ok Inv c batch limit es) (ho : s.rm.out = true) (hp : s.rm.hp = .idle) (hl : s.off < s.tx.wire.length) :
    ∃ s' fs, s.step c cwf batch limit (.net 1) = some (s', fs) ∧ s'.tx = s.tx ∧ s'.off = s.off + 1 := by
  obtain ⟨cap, got, want, hph, hw, hg⟩ := hK.reading _ _ h.wired.inv
  obtain ⟨conn, ms, hc, hlog, _⟩ := h.wired.net hK (k := 1) hph (by omega) (by omega) (by omega) (by omega)
  simp only [MPipe.step, hph]
  rw [if_pos ⟨ho, hp, by omega, by omega, by omega, by omega⟩, hc]
  simp only
  split
  · rw [hlog, newMsgs_append, Rm.read_step ms ho hp]
    exact ⟨_, _, rfl, rfl, rfl⟩
  · exact ⟨_, _, rfl, rfl, rfl⟩

/-- At rest. -/
structure MPipe.Rest (c : MCfg) (s : MPipe K) : Prop where
  tx : s.tx.Quiet
  work : s.rm.work c = 0
  hp : s.rm.hp = .idle
  off : s.off = s.tx.wire.length

/-- Nothing goes on at rest once reads that need not be begun any more are out of the way. -/
theorem MPipe.Rest.settled (c : MCfg) (cwf : Bool) (batch limit : Nat) {s : MPipe K} {es : List MPEv} (hg : s.Good w Ok Inv c batch limit es) (h : s.Rest c) (hr : s.rm.rposted = 0) (ht : s.rm.ctimer = false) :
    ∀ a, a.Goes false → s.step c cwf batch limit a = none := by
  obtain ⟨⟨t1, t2, t3, t4, t5, t6⟩, r1, r2, r3⟩ := h
  obtain ⟨w1, w2, w3, w4, w5, _⟩ := Rm.work_zero hg.rm_inv.1 r1
  intro a ha
  cases a with
  | send _ _ => exact absurd ha (by simp [MPAct.Goes])
  | tx a =>
    simp only [MPipe.step]
    split
    · cases a <;> simp_all [TxAct.healthy, Tx.step, Tx.strand]
    · rfl
  | rx a =>
    simp only [MPipe.step]
    split
    · cases a <;> simp_all [MAct.ok, Rm.step, MPAct.Goes, MAct.internal]
    · rfl
  | net k =>
    simp only [MPipe.step]
    split
    · rw [if_neg (by omega)]
    · rfl

theorem MPipe.receives (hK : K.Reads cwf w Ok Shown Inv) (hP : K.Packs w Ok May) (hlim : 0 < limit) : ∀ (n : Nat) (s : MPipe K) (es : List MPEv), s.Good w Ok Inv c batch limit es → s.tx.Quiet → s.tx.wire.length - s.off ≤ n →
    ∃ as s' fs, MPipe.Run c cwf batch limit s as s' fs ∧ (∀ a ∈ as, a.Goes c.passive) ∧ s'.Rest c ∧ s'.rm.rposted = 0 ∧ s'.rm.ctimer = false := by
  intro n
  induction n with
  | zero =>
    intro s es h hq hn
    obtain ⟨bs, r, fs, g1, g2, g3, g4, g5, g6, g7⟩ := (Rm.gets_reading hlim h.live h.keeps).trans h.live (fun s' h1 ⟨q1, q2, q3⟩ => Rm.gets_calm _ s' h1 (Nat.le_refl _) q1 q2 q3)
    have hoff := h.wired.off
    refine ⟨_, _, _, MPipe.lift g1 g2, ?_, ⟨hq, g3, g4, by simp only; omega⟩, g6, g7⟩
    intro a ha
    rw [List.mem_map] at ha
    obtain ⟨b, hb, rfl⟩ := ha
    exact g2 b hb
  | succ n ih =>
    intro s es h hq hn
    obtain ⟨bs, r, fs, g1, g2, g3, g4, g5, g6, g7⟩ := (Rm.gets_reading hlim h.live h.keeps).trans h.live (fun s' h1 ⟨q1, q2, q3⟩ => Rm.gets_calm _ s' h1 (Nat.le_refl _) q1 q2 q3)
    have hgo : ∀ a ∈ bs.map MPAct.rx, a.Goes c.passive := by
      intro a ha
      rw [List.mem_map] at ha
      obtain ⟨b, hb, rfl⟩ := ha
      exact g2 b hb
    have hrun : MPipe.Run c cwf batch limit s (bs.map .rx) { s with rm := r } (fs.map .rx) := MPipe.lift g1 g2
    have hg := MPipe.run_good hK hP h (MPAct.goes_send hgo May) hrun
    by_cases hl : s.off < s.tx.wire.length
    · obtain ⟨s2, fs2, k1, k2, k3⟩ := MPipe.reads_one hK hg g5 g4 hl
      have hg2 := MPipe.step_good hK hP hg (by intro _ _ hc; cases hc) k1
      simp only at k2 k3
      obtain ⟨as, s3, fs3, m1, m2, m3⟩ := ih s2 _ hg2 (by rw [k2]; exact hq) (by rw [k2, k3]; omega)
      refine ⟨_, s3, _, MPipe.run_trans hrun (MPipe.run_trans (MPipe.run_one k1) m1), ?_, m3⟩
      intro a ha
      rcases List.mem_append.1 ha with ha | ha
      · exact hgo a ha
      · rcases List.mem_cons.1 ha with rfl | ha
        · trivial
        · exact m2 a ha
    · have hoff := h.wired.off
      exact ⟨_, _, _, hrun, hgo, ⟨hq, g3, g4, by simp only; omega⟩, g6, g7⟩

/-- From everywhere the pipe can come to rest on its own. -/
theorem MPipe.settles (hK : K.Reads cwf w Ok Shown Inv) (hP : K.Packs w Ok May) (hlim : 0 < limit) {s : MPipe K} {es : List MPEv} (h : s.Good w Ok Inv c batch limit es) :
    ∃ as s' fs, MPipe.Run c cwf batch limit s as s' fs ∧ (∀ a ∈ as, a.Goes c.passive) ∧ s'.Rest c ∧ s'.rm.rposted = 0 ∧ s'.rm.ctimer = false := by
  obtain ⟨as, s1, g1, g2, g3⟩ := MPipe.sends_out (c := c) (cwf := cwf) (batch := batch) (limit := limit) _ s h.wired.tx_inv (Nat.le_refl _)
  have hg := MPipe.run_good hK hP h (MPAct.goes_send g2 May) g1
  obtain ⟨bs, s2, fs, k1, k2, k3⟩ := MPipe.receives hK hP hlim _ s1 _ hg g3 (Nat.le_refl _)
  refine ⟨_, s2, _, MPipe.run_trans g1 k1, ?_, k3⟩
  intro a ha
  rcases List.mem_append.1 ha with ha | ha
  · exact g2 a ha
  · exact k2 a ha

/-- When nothing goes on any more the pipe is at rest, unless the application has to ask. -/
theorem MPipe.stuck (hK : K.Reads cwf w Ok Shown Inv) (hlim : 0 < limit) {s : MPipe K} {es : List MPEv} (h : s.Good w Ok Inv c batch limit es)
    (hq : ∀ a, a.Goes false → s.step c cwf batch limit a = none) : s.tx.Quiet ∧ s.rm.work c = 0 ∧ s.rm.hp = .idle ∧ (c.passive = false ∨ s.rm.out = true → s.off = s.tx.wire.length) := by
  have hrx : ∀ a, a.internal = true → a.honest s.rm → s.rm.step c limit a = none := by
    intro a ha hh
    have := hq (.rx a) (.inl ha)
    simp only [MPipe.step, MAct.Go.ok (c := c) (.inl ha) hh, if_true, Option.map_eq_none_iff] at this
    exact this
  have h1 : s.tx.Quiet := by
    rcases Classical.em s.tx.Quiet with hr | hr
    · exact hr
    · obtain ⟨a, t, tes, ha, hs⟩ := Tx.progress batch s.tx h.wired.tx_inv hr
      have := hq (.tx a) trivial
      simp only [MPipe.step, TxAct.internal_healthy ha, hs, if_true] at this
      cases this
  have h2 : s.rm.work c = 0 := by
    rcases Nat.eq_zero_or_pos (s.rm.work c) with hr | hr
    · exact hr
    · obtain ⟨a, s', fs, ha, hs, _⟩ := Rm.dispatch_step (limit := limit) h.live.inv h.dlost hr
      have := hrx a (MAct.dispatch_internal ha) (by cases a <;> simp_all [MAct.dispatch, MAct.honest])
      rw [hs] at this
      cases this
  have h3 : s.rm.hp = .idle := by
    cases hp : s.rm.hp with
    | idle => rfl
    | moved => exact absurd hp (Rm.work_zero h.live.inv h2).2.2.2.2.2
    | parsed =>
      have := hrx .handle rfl trivial
      simp only [Rm.step, hp, ne_eq, not_true_eq_false, if_false] at this
      (repeat' split at this) <;> cases this
    | inMsg =>
      have := hrx (.onMsgRet [] 1) rfl (by simp [MAct.honest])
      simp [Rm.step, hp] at this
    | check =>
      have := hrx (.handled true) rfl trivial
      simp only [Rm.step, hp, ne_eq, not_true_eq_false, if_false] at this
      (repeat' split at this) <;> cases this
  refine ⟨h1, h2, h3, ?_⟩
  intro hor
  have ho : s.rm.out = true := by
    rcases hor with hc | ho
    · have hroom := h.live.room hlim h2
      rcases h.keeps hc with k | k | k | k
      · exact k
      · exact absurd h3 k
      · have := hrx (.doRecv true) rfl trivial
        simp only [Rm.step, hc] at this
        rw [if_neg (by simp [h3]; omega)] at this
        simp at this
      · have := hrx .checkTimer rfl trivial
        simp [Rm.step, k, hroom] at this
    · exact ho
  have hoff := h.wired.off
  rcases Nat.lt_or_ge s.off s.tx.wire.length with hl | hl
  · obtain ⟨s', fs, hs, _⟩ := MPipe.reads_one hK h ho h3 hl
    rw [hq (.net 1) trivial] at hs
    cases hs
  · omega

/-- What was handed over. -/
theorem MPipe.Good.order {s : MPipe K} {es : List MPEv} (h : s.Good w Ok Inv c batch limit es) :
    mQueued (mpRx es) = mHandled (mpRx es) ++ s.rm.cur.toList ++ s.rm.buf.items ∧
    (c.sync = true → mReceived (mpRx es) = mOnMsg (mpRx es) ++ s.rm.fresh ∧ mQueued (mpRx es) = mLeft (mpRx es)) ∧
    (c.sync = false → c.passive = false → mReceived (mpRx es) = mQueued (mpRx es) ++ s.rm.fresh) ∧
    (c.sync = false → c.passive = true → mReceivedOrEmpty (mpRx es) = mQueued (mpRx es) ++ (if s.rm.hp = .parsed then orEmpty s.rm.temp else [])) := by
  obtain ⟨mas, hr, _⟩ := h.rm
  obtain ⟨f1, f2, f3, _⟩ := Rm.fresh_run hr
  exact ⟨C57_order hr h.plain, f1, f2, f3⟩

end

theorem nonEmpty_id {ms : List Bytes} (h : ∀ m ∈ ms, m ≠ []) : nonEmpty ms = ms := by
  unfold nonEmpty
  rw [List.filter_eq_self]
  intro m hm
  have := h m hm
  cases m <;> simp_all

theorem nonEmpty_append (a b : List Bytes) : nonEmpty (a ++ b) = nonEmpty a ++ nonEmpty b := List.filter_append ..

theorem nonEmpty_orEmpty (ms : List Bytes) : nonEmpty (orEmpty ms) = nonEmpty ms := by
  cases ms <;> simp [orEmpty, nonEmpty]

theorem nonEmpty_received (es : List MEv) : nonEmpty (mReceivedOrEmpty es) = nonEmpty (mReceived es) := by
  induction es with
  | nil => rfl
  | cons e es ih => cases e <;> simp [mReceivedOrEmpty, mReceived, nonEmpty_append, nonEmpty_orEmpty, ih]

theorem Proto.seen_nonEmpty (P : Proto) (b : Item) : ∀ m ∈ P.seen b, m ≠ [] := by
  intro m hm
  unfold Proto.seen at hm
  split at hm
  · cases hm
  · next hb =>
    have hl := List.length_pos_iff.mpr hb
    have hw : 0 < (P.wire b).length := by
      cases P <;> simp only [Proto.wire, wire_length, psWire_length, id] <;> omega
    have hw := List.length_pos_iff.mp hw
    split at hm <;> simp only [List.mem_singleton] at hm <;> subst hm <;> first | exact hb | (split <;> first | exact hb | exact hw)

/-- No message is empty. -/
theorem Proto.shown_nonEmpty (P : Proto) {items : List Item} {n : Nat} {ms : List Bytes} (h : P.Shown items n ms) : ∀ m ∈ ms, m ≠ [] := by
  have key : ∀ items n, ∀ m ∈ P.inBytes items n, m ≠ [] := by
    intro items
    induction items with
    | nil => intro n m hm; cases hm
    | cons b rest ih =>
      intro n m hm
      simp only [Proto.inBytes] at hm
      split at hm
      · cases hm
      · rcases List.mem_append.1 hm with hm | hm
        · exact P.seen_nonEmpty b m hm
        · exact ih _ m hm
  cases P with
  | stream c => exact h.2
  | _ => simp only [Proto.Shown] at h; subst h; exact key items n

end StAsio
