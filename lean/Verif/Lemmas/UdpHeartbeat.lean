import Verif.Model.UdpHeartbeat
/-! Invariants for C107. -/
set_option autoImplicit false
namespace StAsio

/-- Usable settings of a UDP socket: positive, and the product fits into int. -/
structure USettings (c : HbCfg) : Prop where
  udp : c.kind = .udp
  interval : 0 < c.interval
  absence : 0 < c.maxAbsence
  fits : c.interval * c.maxAbsence < 2 ^ 31

/-- check_heartbeat of a started UDP socket. -/
theorem Hb.check_udp {c : HbCfg} (hc : USettings c) {h : Hb} (h1 : 0 < h.lastRecv) (h2 : h.ready = true) :
    ∃ h' es, h.check c = some (h', true, es) ∧ h'.clock = h.clock ∧ h'.ready = true ∧ h'.sending = h.sending ∧ h'.lastSend = h.lastSend ∧
      (HbEv.timeout ∈ es ↔ h.lastRecv + c.interval * c.maxAbsence ≤ h.clock / 1000) ∧ (HbEv.timeout ∈ es → h'.lastRecv = h.clock / 1000) ∧ (HbEv.timeout ∉ es → h'.lastRecv = h.lastRecv) ∧
      (HbEv.heartbeat ∈ es ↔ c.always = true ∨ (h.lastSend + c.interval ≤ h.clock / 1000 ∧ h.sending = false)) := by
  have hk : c.kind ≠ .tcp := by rw [hc.udp]; simp
  simp only [Hb.check]
  rw [if_pos ⟨h1, h2⟩, if_pos hc.fits, if_neg (fun h => hk h.2)]
  refine ⟨_, _, rfl, ?_⟩
  simp only [Hb.time]
  have e1 : (((c.interval * c.maxAbsence : Nat) : Int) ≤ ((h.clock / 1000 : Nat) : Int) - (h.lastRecv : Int)) ↔ h.lastRecv + c.interval * c.maxAbsence ≤ h.clock / 1000 := by omega
  have e2 : ((c.interval : Int) ≤ ((h.clock / 1000 : Nat) : Int) - (h.lastSend : Int)) ↔ h.lastSend + c.interval ≤ h.clock / 1000 := by omega
  simp only [e1, e2, decide_eq_true_eq]
  by_cases hd : h.lastRecv + c.interval * c.maxAbsence ≤ h.clock / 1000 <;>
    by_cases hb : c.always = true ∨ (h.lastSend + c.interval ≤ h.clock / 1000 ∧ h.sending = false)
  · rw [if_pos hd, if_pos hd, if_pos hb]; simp [hd, hb, h2]
  · rw [if_pos hd, if_pos hd, if_neg hb]; simp [hd, hb, h2]
  · rw [if_neg hd, if_neg hd, if_pos hb]; simp [hd, hb, h2]
  · rw [if_neg hd, if_neg hd, if_neg hb]; simp [hd, hb, h2]

theorem heardAt_append (es fs : List UbEv) : heardAt (es ++ fs) = fs.foldl heardAfter (heardAt es) := by
  simp only [heardAt, List.foldl_append]

/-- The talker, apart from the outstanding async_send. `B`: when async_send was called last; `D`: and for a datagram that arrives. -/
structure Ub.Talk (cT : HbCfg) (n : UbNet) (a : Nat) (s : Ub) (B D : Nat) : Prop where
  clock : s.tk.clock = s.now + a
  ready : s.tk.ready = true
  recv : 0 < s.tk.lastRecv
  lastSend : s.tk.lastSend ≤ (s.now + a) / 1000
  due1 : s.dueT ≤ s.now + 1000 * cT.interval
  due2 : s.now ≤ s.dueT + n.J
  db : D ≤ B
  bn : B ≤ s.now
  gap : B ≤ D + s.misses * talkGap n cT.interval
  miss : s.misses < n.K

/-- The outstanding async_send, or the time since the last one ended. -/
def Ub.Wr (cT : HbCfg) (n : UbNet) (a : Nat) (s : Ub) (B : Nat) : Prop := match s.wr with
  | some w => s.tk.sending = true ∧ w = B ∧ s.now ≤ B + n.W
  | none => s.tk.sending = false ∧ ∃ f, f ≤ s.now ∧ f ≤ B + n.W ∧ s.tk.lastSend ≤ (f + a) / 1000 ∧ s.dueT ≤ f + 2 * (1000 * cT.interval)

/-- The listener. -/
def Ub.Listen (cL : HbCfg) (n : UbNet) (b : Nat) (s : Ub) (es : List UbEv) : Prop :=
  s.ls.clock = s.now + b ∧ (s.upL = false → heardAt es = none) ∧
  (s.upL = true → s.ls.ready = true ∧ s.now ≤ s.dueL + n.J ∧ s.dueL ≤ s.now + 1000 * cL.interval ∧
    ∃ r, heardAt es = some r ∧ r ≤ s.now ∧ s.ls.lastRecv = (r + b) / 1000 ∧ s.dueL ≤ r + 1000 * (cL.interval * cL.maxAbsence) + 1000 * cL.interval)

/-- The datagrams under way. -/
def Ub.Fly (n : UbNet) (s : Ub) : Prop := ∀ q ∈ s.fly, q ≤ s.now ∧ (s.upL = true → s.now ≤ q + n.L)

/-- What the listener heard last is not too old. -/
def Ub.Link (cT : HbCfg) (n : UbNet) (s : Ub) (es : List UbEv) (D : Nat) : Prop :=
  s.upL = true → ∀ r, heardAt es = some r → (s.fly = [] → D ≤ r + n.S) ∧ (s.fly ≠ [] → ∃ q ∈ s.fly, q ≤ r + n.S + n.K * talkGap n cT.interval)

/-- The talker, whether started or not. -/
def Ub.Half (cT : HbCfg) (n : UbNet) (a : Nat) (s : Ub) (es : List UbEv) : Prop :=
  (s.upT = false ∧ s.tk.clock = s.now + a ∧ s.tk.lastSend = 0 ∧ s.tk.sending = false ∧ s.wr = none ∧ s.fly = [] ∧ s.misses = 0 ∧ s.now ≤ n.S) ∨
  (s.upT = true ∧ ∃ B D, s.Talk cT n a B D ∧ s.Wr cT n a B ∧ s.Link cT n es D)

def Ub.Inv (cT cL : HbCfg) (n : UbNet) (a b : Nat) (s : Ub) (es : List UbEv) : Prop := s.Listen cL n b es ∧ s.Fly n ∧ s.Half cT n a es

/-- A talker that may call async_send does so. -/
theorem Ub.write_half {cT : HbCfg} {n : UbNet} {a : Nat} {s s' : Ub} {es : List UbEv} {B D : Nat} {ar : Bool} (hu : s.upT = true) (ht : s.Talk cT n a B D) (hn : s.now ≤ B + talkGap n cT.interval) (hl : s.Link cT n es D)
    (hf : s.Fly n) (hw : s.write n ar = some s') :
    s'.Half cT n a es ∧ s'.Fly n ∧ s'.ls = s.ls ∧ s'.upL = s.upL ∧ s'.dueL = s.dueL ∧ s'.now = s.now := by
  have hg := ht.gap
  have hkm : s.misses * talkGap n cT.interval + talkGap n cT.interval ≤ n.K * talkGap n cT.interval := by
    have := Nat.mul_le_mul_right (talkGap n cT.interval) (Nat.succ_le_of_lt ht.miss)
    rwa [Nat.succ_mul] at this
  have hsm : (s.misses + 1) * talkGap n cT.interval = s.misses * talkGap n cT.interval + talkGap n cT.interval := Nat.succ_mul _ _
  simp only [Ub.write] at hw
  split at hw
  · cases hw
    refine ⟨Or.inr ⟨hu, s.now, s.now, ⟨ht.clock, ht.ready, ht.recv, ht.lastSend, ht.due1, ht.due2, Nat.le_refl _, Nat.le_refl _, Nat.le_add_right _ _, ?_⟩, ⟨rfl, rfl, Nat.le_add_right _ _⟩, ?_⟩, ?_, rfl, rfl, rfl, rfl⟩
    · have := ht.miss; show 0 < n.K; omega
    · intro hup r hr
      refine ⟨fun h => by simp at h, fun _ => ?_⟩
      obtain ⟨l1, l2⟩ := hl hup r hr
      by_cases hfl : s.fly = []
      · refine ⟨s.now, by simp, ?_⟩
        have := l1 hfl
        omega
      · obtain ⟨q, hq, h⟩ := l2 hfl
        exact ⟨q, by simp [hq], h⟩
    · intro q hq
      simp only [List.mem_append, List.mem_singleton] at hq
      rcases hq with hq | rfl
      · exact hf q hq
      · exact ⟨Nat.le_refl _, fun _ => Nat.le_add_right _ _⟩
  · split at hw
    · rename_i hk
      cases hw
      refine ⟨Or.inr ⟨hu, s.now, D, ⟨ht.clock, ht.ready, ht.recv, ht.lastSend, ht.due1, ht.due2, Nat.le_trans ht.db ht.bn, Nat.le_refl _, ?_, hk⟩, ⟨rfl, rfl, Nat.le_add_right _ _⟩, hl⟩, hf, rfl, rfl, rfl, rfl⟩
      show s.now ≤ D + (s.misses + 1) * talkGap n cT.interval
      omega
    · cases hw

theorem Ub.Wr.now_le {cT : HbCfg} {n : UbNet} {a : Nat} {s : Ub} {B D : Nat} (h : s.Wr cT n a B) (ht : s.Talk cT n a B D) : s.now ≤ B + talkGap n cT.interval := by
  have := ht.due2
  simp only [Ub.Wr] at h
  simp only [talkGap]
  split at h
  · omega
  · obtain ⟨_, f, h1, h2, h3, h4⟩ := h
    omega

theorem Ub.inv_step {cT cL : HbCfg} (hcT : USettings cT) (hcL : USettings cL) {n : UbNet} (hK : 0 < n.K) {a b : Nat} (ha : 1000 ≤ a) (hb : 1000 ≤ b) {s s' : Ub} {act : UbAct} {es fs : List UbEv}
    (hi : s.Inv cT cL n a b es) (hs : s.step cT cL n act = some (s', fs)) : s'.Inv cT cL n a b (es ++ fs) := by
  obtain ⟨hL, hF, hH⟩ := hi
  cases act with
  | pass d =>
    simp only [Ub.step] at hs
    split at hs
    · rename_i hg
      cases hs
      simp only [Ub.canPass, Bool.and_eq_true] at hg
      obtain ⟨g1, g2⟩ := hg
      simp only [List.append_nil]
      have gl : s.upL = true → s.now + d ≤ s.dueL + n.J ∧ ∀ q ∈ s.fly, s.now + d ≤ q + n.L := by
        intro h
        rw [h] at g2
        simpa using g2
      refine ⟨⟨?_, hL.2.1, fun hu => ?_⟩, ?_, ?_⟩
      · have := hL.1; show s.ls.clock + d = s.now + d + b; omega
      · obtain ⟨l1, l2, l3, r, l4, l5, l6, l7⟩ := hL.2.2 hu
        exact ⟨l1, (gl hu).1, by show s.dueL ≤ s.now + d + _; omega, r, l4, by show r ≤ s.now + d; omega, l6, l7⟩
      · intro q hq
        have := (hF q hq).1
        exact ⟨by show q ≤ s.now + d; omega, fun hu => (gl hu).2 q hq⟩
      · rcases hH with ⟨h1, h2, h3, h4, h5, h6, h7, h8⟩ | ⟨h1, B, D, ht, hw, hl⟩
        · rw [h1] at g1
          refine Or.inl ⟨h1, by show s.tk.clock + d = s.now + d + a; omega, h3, h4, h5, h6, h7, by simpa using g1⟩
        · rw [h1] at g1
          simp only [if_true, Bool.and_eq_true, decide_eq_true_eq] at g1
          obtain ⟨g3, g4⟩ := g1
          have e1 := ht.clock; have e2 := ht.lastSend; have e3 := ht.due1; have e4 := ht.bn
          refine Or.inr ⟨h1, B, D, ⟨by show s.tk.clock + d = s.now + d + a; omega, ht.ready, ht.recv, by show s.tk.lastSend ≤ (s.now + d + a) / 1000; omega, by show s.dueT ≤ s.now + d + _; omega, g3, ht.db,
            by show B ≤ s.now + d; omega, ht.gap, ht.miss⟩, ?_, hl⟩
          simp only [Ub.Wr] at hw ⊢
          cases hwr : s.wr with
          | none =>
            rw [hwr] at hw
            obtain ⟨w1, f, w2, w3, w4, w5⟩ := hw
            exact ⟨w1, f, by omega, w3, w4, w5⟩
          | some w =>
            rw [hwr] at hw g4
            simp only [decide_eq_true_eq] at g4
            obtain ⟨w1, w2, w3⟩ := hw
            exact ⟨w1, w2, by omega⟩
    · cases hs
  | startT d =>
    simp only [Ub.step] at hs
    split at hs
    · rename_i hg
      cases hs
      simp only [List.append_nil]
      refine ⟨hL, hF, ?_⟩
      rcases hH with ⟨h1, h2, h3, h4, h5, h6, h7, h8⟩ | ⟨h1, _⟩
      · refine Or.inr ⟨rfl, s.now, s.now, ⟨h2, rfl, ?_, ?_, ?_, ?_, Nat.le_refl _, Nat.le_refl _, Nat.le_add_right _ _, ?_⟩, ?_, ?_⟩
        · show 0 < s.tk.clock / 1000; omega
        · show s.tk.lastSend ≤ _; omega
        · have := hg.2; show s.now + d ≤ s.now + _; omega
        · show s.now ≤ s.now + d + n.J; omega
        · show s.misses < n.K; omega
        · simp only [Ub.Wr, h5]
          have := hg.2
          exact ⟨h4, s.now, Nat.le_refl _, Nat.le_add_right _ _, by omega, by omega⟩
        · intro hu r hr
          refine ⟨fun _ => by omega, fun hn => absurd h6 hn⟩
      · rw [h1] at hg; exact absurd hg.1 (by simp)
    · cases hs
  | startL d =>
    simp only [Ub.step] at hs
    split at hs
    · rename_i hg
      cases hs
      have e : heardAt (es ++ [.up s.now]) = some s.now := by rw [heardAt_append]; rfl
      have hc := hL.1
      refine ⟨⟨hL.1, fun h => by simp at h, fun _ => ⟨rfl, ?_, ?_, s.now, e, Nat.le_refl _, ?_, ?_⟩⟩, fun q hq => by simp at hq, ?_⟩
      · show s.now ≤ s.now + d + n.J; omega
      · have := hg.2; show s.now + d ≤ s.now + _; omega
      · show s.ls.clock / 1000 = _; rw [hc]
      · have := hg.2; show s.now + d ≤ _; omega
      · rcases hH with ⟨h1, h2, h3, h4, h5, h6, h7, h8⟩ | ⟨h1, B, D, ht, hw, hl⟩
        · exact Or.inl ⟨h1, h2, h3, h4, h5, rfl, h7, h8⟩
        · refine Or.inr ⟨h1, B, D, ⟨ht.clock, ht.ready, ht.recv, ht.lastSend, ht.due1, ht.due2, ht.db, ht.bn, ht.gap, ht.miss⟩, hw, ?_⟩
          intro _ r hr
          rw [e] at hr
          cases hr
          have e1 := ht.db; have e2 := ht.bn
          exact ⟨fun _ => by omega, fun h => absurd rfl h⟩
    · cases hs
  | send ar =>
    simp only [Ub.step] at hs
    split at hs
    · rename_i hu
      simp only [Option.map_eq_some_iff] at hs
      obtain ⟨s1, hs, he⟩ := hs
      cases he
      simp only [List.append_nil]
      rcases hH with ⟨h1, _⟩ | ⟨h1, B, D, ht, hw, hl⟩
      · rw [h1] at hu; cases hu
      · simp only [Ub.send] at hs
        split at hs
        · obtain ⟨k1, k2, k3, k4, k5, k6⟩ := Ub.write_half h1 ht (hw.now_le ht) hl hF hs
          refine ⟨?_, k2, k1⟩
          unfold Ub.Listen
          rw [k3, k4, k5, k6]
          exact hL
        · cases hs
          exact ⟨hL, hF, Or.inr ⟨h1, B, D, ⟨ht.clock, ht.ready, ht.recv, ht.lastSend, ht.due1, ht.due2, ht.db, ht.bn, ht.gap, ht.miss⟩, hw, hl⟩⟩
    · cases hs
  | sent ok ar =>
    simp only [Ub.step] at hs
    split at hs
    · cases hs
    · rename_i w hwr
      rcases hH with ⟨h1, h2, h3, h4, h5, _⟩ | ⟨h1, B, D, ht, hw, hl⟩
      · rw [h5] at hwr; cases hwr
      · have hwr' := hw
        simp only [Ub.Wr, hwr] at hw
        obtain ⟨w1, w2, w3⟩ := hw
        have e1 := ht.clock; have e2 := ht.lastSend; have e3 := ht.due1
        have hls : (if ok = true then s.tk.time else s.tk.lastSend) ≤ (s.now + a) / 1000 := by
          split
          · simp only [Hb.time]; omega
          · exact e2
        have ht1 : ∀ q, Ub.Talk cT n a { s with wr := none, tk := { s.tk with sending := false, lastSend := if ok = true then s.tk.time else s.tk.lastSend }, queue := q } B D := fun q =>
          ⟨ht.clock, ht.ready, ht.recv, hls, ht.due1, ht.due2, ht.db, ht.bn, ht.gap, ht.miss⟩
        split at hs
        · simp only [Option.map_eq_some_iff] at hs
          obtain ⟨s1, hs, he⟩ := hs
          cases he
          simp only [List.append_nil]
          obtain ⟨k1, k2, k3, k4, k5, k6⟩ := Ub.write_half (s := { s with wr := none, tk := { s.tk with sending := false, lastSend := if ok = true then s.tk.time else s.tk.lastSend }, queue := s.queue - 1 }) h1 (ht1 _)
            (hwr'.now_le ht) hl hF hs
          refine ⟨?_, k2, k1⟩
          unfold Ub.Listen
          rw [k3, k4, k5, k6]
          exact hL
        · cases hs
          simp only [List.append_nil]
          refine ⟨hL, hF, Or.inr ⟨h1, B, D, ht1 s.queue, ⟨rfl, s.now, Nat.le_refl _, w3, hls, by show s.dueT ≤ _; omega⟩, hl⟩⟩
  | heard =>
    simp only [Ub.step] at hs
    split at hs
    · rename_i hu
      cases hs
      simp only [List.append_nil]
      rcases hH with ⟨h1, _⟩ | ⟨h1, B, D, ht, hw, hl⟩
      · rw [h1] at hu; cases hu
      · have e1 := ht.clock
        exact ⟨hL, hF, Or.inr ⟨h1, B, D, ⟨ht.clock, ht.ready, by show 0 < s.tk.clock / 1000; omega, ht.lastSend, ht.due1, ht.due2, ht.db, ht.bn, ht.gap, ht.miss⟩, hw, hl⟩⟩
    · cases hs
  | checkT ar =>
    simp only [Ub.step] at hs
    split at hs
    · rename_i hg
      rcases hH with ⟨h1, _⟩ | ⟨h1, B, D, ht, hw, hl⟩
      · rw [h1] at hg; exact absurd hg.1 (by simp)
      · obtain ⟨h', ev, c1, c2, c3, c4, c5, c6, c7, c8, c9⟩ := Hb.check_udp hcT ht.recv ht.ready
        rw [c1] at hs
        simp only at hs
        have e1 := ht.clock; have e2 := ht.lastSend; have e3 := ht.recv
        have hrv : 0 < h'.lastRecv := by
          by_cases h : HbEv.timeout ∈ ev
          · rw [c7 h]; omega
          · rw [c8 h]; exact e3
        have hd2 : s.now ≤ s.now + 1000 * cT.interval + n.J := by omega
        have ht1 : Ub.Talk cT n a { s with tk := h', dueT := s.now + 1000 * cT.interval } B D :=
          ⟨c2.trans ht.clock, c3, hrv, by show h'.lastSend ≤ _; rw [c5]; exact e2, Nat.le_refl _, hd2, ht.db, ht.bn, ht.gap, ht.miss⟩
        have hnl := hw.now_le ht
        split at hs
        · simp only [Option.map_eq_some_iff] at hs
          obtain ⟨s1, hs, he⟩ := hs
          cases he
          have ee : heardAt (es ++ [.beat s.now]) = heardAt es := by rw [heardAt_append]; rfl
          have hl' : ∀ x, Ub.Link cT n x es D → Ub.Link cT n x (es ++ [.beat s.now]) D := fun x h => by unfold Ub.Link; rw [ee]; exact h
          have hL' : s.Listen cL n b (es ++ [.beat s.now]) := by unfold Ub.Listen; rw [ee]; exact hL
          simp only [Ub.send] at hs
          split at hs
          · obtain ⟨k1, k2, k3, k4, k5, k6⟩ := Ub.write_half (s := { s with tk := h', dueT := s.now + 1000 * cT.interval }) h1 ht1 hnl (hl' _ hl) hF hs
            refine ⟨?_, k2, k1⟩
            unfold Ub.Listen
            rw [k3, k4, k5, k6]
            exact hL'
          · rename_i w hwr
            cases hs
            refine ⟨hL', hF, Or.inr ⟨h1, B, D, ⟨ht1.clock, ht1.ready, ht1.recv, ht1.lastSend, ht1.due1, ht1.due2, ht1.db, ht1.bn, ht1.gap, ht1.miss⟩, ?_, hl' _ hl⟩⟩
            simp only [Ub.Wr, hwr] at hw ⊢
            rw [c4]
            exact hw
        · rename_i hnb
          cases hs
          simp only [List.append_nil]
          refine ⟨hL, hF, Or.inr ⟨h1, B, D, ht1, ?_, hl⟩⟩
          simp only [Ub.Wr] at hw ⊢
          cases hwr : s.wr with
          | some w =>
            rw [hwr] at hw
            show h'.sending = true ∧ _
            rw [c4]
            exact hw
          | none =>
            rw [hwr] at hw
            obtain ⟨w1, f, w2, w3, w4, w5⟩ := hw
            simp only
            refine ⟨by rw [c4]; exact w1, f, w2, w3, by rw [c5]; exact w4, ?_⟩
            have hns : ¬(s.tk.lastSend + cT.interval ≤ s.tk.clock / 1000) := fun h => hnb (c9.mpr (Or.inr ⟨h, w1⟩))
            omega
    · cases hs
  | checkL =>
    simp only [Ub.step] at hs
    split at hs
    · rename_i hg
      obtain ⟨l1, l2, l3, r, l4, l5, l6, l7⟩ := hL.2.2 hg.1
      have hc := hL.1
      obtain ⟨h', ev, c1, c2, c3, c4, c5, c6, c7, c8, c9⟩ := Hb.check_udp hcL (h := s.ls) (by omega) l1
      rw [c1] at hs
      simp only [Option.some.injEq, Prod.mk.injEq] at hs
      obtain ⟨rfl, rfl⟩ := hs
      have hd2 : s.now ≤ s.now + 1000 * cL.interval + n.J := by omega
      by_cases hto : HbEv.timeout ∈ ev
      · rw [if_pos hto]
        have e : heardAt (es ++ [.warn s.now]) = some s.now := by rw [heardAt_append]; rfl
        refine ⟨⟨c2.trans hL.1, fun h => by rw [h] at hg; exact absurd hg.1 (by simp), fun _ => ⟨c3, hd2, Nat.le_refl _, s.now, e, Nat.le_refl _, ?_, ?_⟩⟩, hF, ?_⟩
        · show h'.lastRecv = _; rw [c7 hto, hc]
        · show s.now + 1000 * cL.interval ≤ _; omega
        · rcases hH with ⟨h1, h2, h3, h4, h5, h6, h7, h8⟩ | ⟨h1, B, D, ht, hw, hl⟩
          · exact Or.inl ⟨h1, h2, h3, h4, h5, h6, h7, h8⟩
          · refine Or.inr ⟨h1, B, D, ⟨ht.clock, ht.ready, ht.recv, ht.lastSend, ht.due1, ht.due2, ht.db, ht.bn, ht.gap, ht.miss⟩, hw, ?_⟩
            intro _ r' hr
            rw [e] at hr
            cases hr
            have e1 := ht.db; have e2 := ht.bn
            refine ⟨fun _ => by omega, fun h => ?_⟩
            obtain ⟨q, hq⟩ := List.exists_mem_of_ne_nil _ h
            exact ⟨q, hq, by have := (hF q hq).1; omega⟩
      · rw [if_neg hto]
        simp only [List.append_nil]
        refine ⟨⟨c2.trans hL.1, hL.2.1, fun _ => ⟨c3, hd2, Nat.le_refl _, r, l4, l5, (c8 hto).trans l6, ?_⟩⟩, hF, ?_⟩
        · have : ¬(s.ls.lastRecv + cL.interval * cL.maxAbsence ≤ s.ls.clock / 1000) := fun h => hto (c6.mpr h)
          show s.now + 1000 * cL.interval ≤ _
          omega
        · rcases hH with ⟨h1, h2, h3, h4, h5, h6, h7, h8⟩ | ⟨h1, B, D, ht, hw, hl⟩
          · exact Or.inl ⟨h1, h2, h3, h4, h5, h6, h7, h8⟩
          · exact Or.inr ⟨h1, B, D, ⟨ht.clock, ht.ready, ht.recv, ht.lastSend, ht.due1, ht.due2, ht.db, ht.bn, ht.gap, ht.miss⟩, hw, hl⟩
    · cases hs
  | deliver i =>
    simp only [Ub.step] at hs
    split at hs
    · rename_i hg
      cases hs
      obtain ⟨l1, l2, l3, r, l4, l5, l6, l7⟩ := hL.2.2 hg.1
      have hc := hL.1
      have e : heardAt (es ++ [.got s.now]) = some s.now := by rw [heardAt_append]; rfl
      have hF' : ∀ q ∈ s.fly.eraseIdx i, q ≤ s.now ∧ (s.upL = true → s.now ≤ q + n.L) := fun q hq => hF q (List.mem_of_mem_eraseIdx hq)
      refine ⟨⟨hL.1, fun h => by rw [h] at hg; exact absurd hg.1 (by simp), fun _ => ⟨l1, l2, l3, s.now, e, Nat.le_refl _, ?_, ?_⟩⟩, hF', ?_⟩
      · show s.ls.clock / 1000 = _; rw [hc]
      · show s.dueL ≤ _; omega
      · rcases hH with ⟨h1, h2, h3, h4, h5, h6, h7, h8⟩ | ⟨h1, B, D, ht, hw, hl⟩
        · rw [h6] at hg; exact absurd hg.2 (by simp)
        · refine Or.inr ⟨h1, B, D, ⟨ht.clock, ht.ready, ht.recv, ht.lastSend, ht.due1, ht.due2, ht.db, ht.bn, ht.gap, ht.miss⟩, hw, ?_⟩
          intro _ r' hr
          rw [e] at hr
          cases hr
          have e1 := ht.db; have e2 := ht.bn
          refine ⟨fun _ => by omega, fun h => ?_⟩
          obtain ⟨q, hq⟩ := List.exists_mem_of_ne_nil _ h
          exact ⟨q, hq, by have := (hF' q hq).1; omega⟩
    · cases hs
  | stray =>
    simp only [Ub.step] at hs
    split at hs
    · rename_i hg
      cases hs
      obtain ⟨l1, l2, l3, r, l4, l5, l6, l7⟩ := hL.2.2 hg
      have hc := hL.1
      have e : heardAt (es ++ [.got s.now]) = some s.now := by rw [heardAt_append]; rfl
      refine ⟨⟨hL.1, fun h => Bool.noConfusion (hg.symm.trans h), fun _ => ⟨l1, l2, l3, s.now, e, Nat.le_refl _, ?_, ?_⟩⟩, hF, ?_⟩
      · show s.ls.clock / 1000 = _; rw [hc]
      · show s.dueL ≤ _; omega
      · rcases hH with ⟨h1, h2, h3, h4, h5, h6, h7, h8⟩ | ⟨h1, B, D, ht, hw, hl⟩
        · exact Or.inl ⟨h1, h2, h3, h4, h5, h6, h7, h8⟩
        · refine Or.inr ⟨h1, B, D, ⟨ht.clock, ht.ready, ht.recv, ht.lastSend, ht.due1, ht.due2, ht.db, ht.bn, ht.gap, ht.miss⟩, hw, ?_⟩
          intro _ r' hr
          rw [e] at hr
          cases hr
          have e1 := ht.db; have e2 := ht.bn
          refine ⟨fun _ => by omega, fun h => ?_⟩
          obtain ⟨q, hq⟩ := List.exists_mem_of_ne_nil _ h
          exact ⟨q, hq, by have := (hF q hq).1; omega⟩
    · cases hs

theorem Ub.inv_run {cT cL : HbCfg} (hcT : USettings cT) (hcL : USettings cL) {n : UbNet} (hK : 0 < n.K) {a b : Nat} (ha : 1000 ≤ a) (hb : 1000 ≤ b) {as : List UbAct} {s : Ub} {es : List UbEv}
    (hr : Ub.Run cT cL n (Ub.init a b) as s es) : s.Inv cT cL n a b es := by
  generalize he : Ub.init a b = s0 at hr
  induction hr with
  | nil =>
    subst he
    refine ⟨⟨by simp [Ub.init, Hb.init], fun _ => rfl, fun h => by cases h⟩, fun q hq => by simp [Ub.init] at hq, Or.inl ⟨rfl, by simp [Ub.init, Hb.init], rfl, rfl, rfl, rfl, rfl, Nat.zero_le _⟩⟩
  | snoc s1 s2 as a es fs _ hs ih => exact Ub.inv_step hcT hcL hK ha hb ih hs

/-- No longer silence than the settings and the network allow. -/
theorem Ub.Inv.silence {cT cL : HbCfg} {n : UbNet} {a b : Nat} {s : Ub} {es : List UbEv} (hi : s.Inv cT cL n a b es) {r : Nat} (hr : heardAt es = some r) : s.now ≤ r + longestSilence n cT.interval := by
  obtain ⟨hL, hF, hH⟩ := hi
  have hu : s.upL = true := by
    cases h : s.upL with
    | true => rfl
    | false => have := hL.2.1 h; rw [hr] at this; cases this
  simp only [longestSilence]
  rcases hH with ⟨h1, h2, h3, h4, h5, h6, h7, h8⟩ | ⟨h1, B, D, ht, hw, hl⟩
  · omega
  · obtain ⟨l1, l2⟩ := hl hu r hr
    have e1 := hw.now_le ht
    have e2 := ht.gap
    have hkm : s.misses * talkGap n cT.interval + talkGap n cT.interval ≤ n.K * talkGap n cT.interval := by
      have := Nat.mul_le_mul_right (talkGap n cT.interval) (Nat.succ_le_of_lt ht.miss)
      rwa [Nat.succ_mul] at this
    by_cases hfl : s.fly = []
    · have := l1 hfl; omega
    · obtain ⟨q, hq, h⟩ := l2 hfl
      have := (hF q hq).2 hu
      omega

theorem Ub.exec_run {cT cL : HbCfg} {n : UbNet} {s0 : Ub} {bs : List UbAct} {s : Ub} {ds : List UbEv} (h0 : Ub.Run cT cL n s0 bs s ds) {as : List UbAct} {s' : Ub} {es : List UbEv}
    (h : Ub.exec cT cL n s as = some (s', es)) : Ub.Run cT cL n s0 (bs ++ as) s' (ds ++ es) := by
  induction as generalizing bs s ds es with
  | nil =>
    simp only [Ub.exec, Option.some.injEq, Prod.mk.injEq] at h
    obtain ⟨rfl, rfl⟩ := h
    simpa using h0
  | cons a as ih =>
    simp only [Ub.exec, bind, Option.bind_eq_some_iff] at h
    obtain ⟨⟨s1, e1⟩, h1, ⟨s2, e2⟩, h2, h3⟩ := h
    simp only [Option.some.injEq, Prod.mk.injEq] at h3
    obtain ⟨rfl, rfl⟩ := h3
    have := ih (.snoc _ _ _ _ _ _ _ h0 h1) h2
    simpa using this

end StAsio
