import Verif.Lemmas.LinkEnd
import Verif.Spec.LinkEnd
/-!
C88: shutting down an SSL link or a websocket link ends in on_close.
-/
set_option autoImplicit false
namespace StAsio

variable {c : LendCfg} {s : Nat → Lend} {a : Nat → Option LendAct} {e : Nat → List HkEv}

/-- From some time on nothing is sent, asked for or shut down on a closed link. -/
theorem Lend.quiet (he : Exec (Lend.step c) s a e) (hn : ¬ Lend.Nagged s a) {n0 : Nat} (hcl : ∀ n, n0 ≤ n → (s n).hk.closing = true)
    (hup : ∀ n, n0 ≤ n → (s n).hk.connecting = false ∧ (s n).hk.hs = none) : ∃ N, n0 ≤ N ∧ ∀ n x, N ≤ n → a n = some x → (s n).Quiet x := by
  obtain ⟨N, hN, h1⟩ := he.settles (ok := fun _ _ => True) (n0 := n0) (fun _ _ _ _ => trivial) (I := fun t => t.hk.closing = true ∧ t.hk.connecting = false ∧ t.hk.hs = none)
    (fun n hn => ⟨hcl n hn, hup n hn⟩) (fun t => if t.hk.status = .connected then 1 else 0)
    (fun t t' x es h1 h2 _ hs => by
      have := (Lend.step_status h1.1 h1.2.1 h1.2.2 hs).1
      grind)
  have h2 : ∃ M, ∀ m, M ≤ m → ¬ ((s m).hk.closing = true ∧ (s m).hk.status = .connected ∧ (a m = some (.hk .send) ∨ a m = some .ask)) := by
    apply Classical.byContradiction
    intro hc
    apply hn
    intro n
    apply Classical.byContradiction
    intro hd
    exact hc ⟨n, fun m hm hp => hd ⟨m, hm, hp⟩⟩
  obtain ⟨M, h2⟩ := h2
  refine ⟨max N M, by omega, fun n x hx ha hst => ⟨?_, ?_, ?_⟩⟩
  · rintro rfl
    exact h2 n (by omega) ⟨hcl n (by omega), hst, .inl ha⟩
  · rintro rfl
    exact h2 n (by omega) ⟨hcl n (by omega), hst, .inr ha⟩
  · intro r hr
    obtain ⟨es, hs, _⟩ := he.next n x ha
    have h3 := h1 (n + 1) (by omega)
    have h4 := h1 n (by omega)
    have hu := hup n (by omega)
    have h5 := (Lend.step_status (hcl n (by omega)) hu.1 hu.2 hs).2
    simp only [hst] at h4 h3
    exact h5 (by grind) r hr

/-- A closed link comes to its on_close. -/
theorem Lend.closed_ends (he : Exec (Lend.step c) s a e) (hf : Lend.Fairly c s a) (hn : ¬ Lend.Nagged s a) {n : Nat} (hcl : (s n).hk.closing = true) : ∃ m es, n < m ∧ e m = e n ++ es ∧ .onClose ∈ es := by
  apply Classical.byContradiction
  intro hno
  have hno : ∀ k x es, n ≤ k → a k = some x → (s k).step c x = some (s (k + 1), es) → .onClose ∉ es := by
    intro k x es hk ha hs hm
    obtain ⟨es1, hs1, h1⟩ := he.next k x ha
    obtain ⟨es0, h0⟩ := he.grow_le hk
    rw [hs] at hs1
    simp only [Option.some.injEq, Prod.mk.injEq, true_and] at hs1
    subst hs1
    exact hno ⟨k + 1, es0 ++ es, by omega, by rw [h1, h0, List.append_assoc], List.mem_append_right _ hm⟩
  have h0 : ∀ k, n ≤ k → (s k).hk.closing = true := by
    intro k hk
    obtain ⟨d, rfl⟩ := Nat.exists_eq_add_of_le hk
    clear hk
    induction d with
    | zero => exact hcl
    | succ d ih =>
      rw [← Nat.add_assoc]
      cases ha : a (n + d) with
      | none => rw [(he.idle _ ha).1]; exact ih
      | some x =>
        obtain ⟨es, hs, _⟩ := he.next _ x ha
        rcases Lend.step_closing ih hs with h | h
        · exact h
        · exact absurd h (hno _ x es (by omega) ha hs)
  obtain ⟨N1, hN1, h1⟩ := he.drains (ok := fun _ _ => True) (n0 := n) (fun _ _ _ _ => trivial) (I := fun t => t.hk.closing = true) h0 hf.connect (fun t => t.hk.connecting.toNat)
    (fun t t' x es i1 i2 _ hs => (Lend.step_conn i1 i2 hs).1)
    (fun t t' x es i1 i2 hp _ hc hs => by
      have h3 := (Lend.step_conn i1 i2 hs).2
      split at hc
      · rw [h3 (.inl rfl)]; exact hp
      · rw [h3 (.inr ⟨_, _, rfl⟩)]; exact hp
      · cases hc)
    (fun t i1 hp => ⟨.hk .connectDone, rfl, by simp [Lend.step, Hk.step]; grind⟩)
  have h1 : ∀ k, N1 ≤ k → (s k).hk.connecting = false := fun k hk => by have := h1 k hk; grind
  obtain ⟨N2, hN2, h2⟩ := he.drains (ok := fun _ _ => True) (n0 := N1) (fun _ _ _ _ => trivial) (I := fun t => t.hk.closing = true ∧ t.hk.connecting = false)
    (fun k hk => ⟨h0 k (by omega), h1 k hk⟩) hf.hsAbort (fun t => t.hsLeft c)
    (fun t t' x es i1 i2 _ hs => (Lend.step_hs i1.1 i1.2 hs).1)
    (fun t t' x es i1 i2 hp _ hc hs => (Lend.step_hs i1.1 i1.2 hs).2 (by simpa using hc))
    (fun t i1 hp => ⟨.hsAbort, rfl, by simp [Lend.step, Hk.step, Lend.hsLeft] at *; grind⟩)
  have h2 : ∀ k, N2 ≤ k → (s k).hk.hs = none := fun k hk => by have := h2 k hk; unfold Lend.hsLeft at this; grind
  obtain ⟨N3, hN3, h3⟩ := Lend.quiet he hn (n0 := N2) (fun k hk => h0 k (by omega)) (fun k hk => ⟨h1 k (by omega), h2 k hk⟩)
  obtain ⟨N4, hN4, h4⟩ := he.drains (ok := Lend.Quiet) (n0 := N3) h3 (I := fun t => t.hk.closing = true) (fun k hk => h0 k (by omega)) hf.post (fun t => t.hk.atPost)
    (fun t t' x es i1 i2 hq hs => (Lend.step_post i1 hq hs).1)
    (fun t t' x es i1 i2 hp hq hc hs => (Lend.step_post i1 hq hs).2 (by simpa using hc))
    (fun t i1 hp => ⟨.hk .post, rfl, by simp [Lend.step, Hk.step]; grind⟩)
  obtain ⟨N5, hN5, h5⟩ := he.drains (ok := Lend.Quiet) (n0 := N4) (fun k x hk => h3 k x (by omega)) (I := fun t => t.hk.closing = true ∧ t.hk.hs = none) (fun k hk => ⟨h0 k (by omega), h2 k (by omega)⟩) hf.runShut
    (fun t => t.hk.shut)
    (fun t t' x es i1 i2 hq hs => (Lend.step_shutLeft i1.1 i1.2 hq hs).1)
    (fun t t' x es i1 i2 hp hq hc hs => (Lend.step_shutLeft i1.1 i1.2 hq hs).2 (by simpa using hc))
    (fun t i1 hp => ⟨.hk .runShut, rfl, by simp [Lend.step, Hk.step]; grind⟩)
  obtain ⟨N6, hN6, h6⟩ := he.drains (ok := Lend.Quiet) (n0 := N5) (fun k x hk => h3 k x (by omega)) (I := fun t => t.hk.closing = true ∧ t.hk.hs = none ∧ t.hk.atPost = 0)
    (fun k hk => ⟨h0 k (by omega), h2 k (by omega), h4 k (by omega)⟩) hf.runSend (fun t => t.hk.posted)
    (fun t t' x es i1 i2 hq hs => (Lend.step_posted i1.1 i1.2.1 i1.2.2 hs).1)
    (fun t t' x es i1 i2 hp hq hc hs => (Lend.step_posted i1.1 i1.2.1 i1.2.2 hs).2 (by simp at hc; grind))
    (fun t i1 hp => ⟨.hk (.runSend true), rfl, by simp [Lend.step, Hk.step]; grind⟩)
  obtain ⟨N7, hN7, h7⟩ := he.drains (ok := Lend.Quiet) (n0 := N6) (fun k x hk => h3 k x (by omega)) (I := fun t => t.hk.closing = true ∧ t.hk.shut = 0)
    (fun k hk => ⟨h0 k (by omega), h5 k (by omega)⟩) hf.shutAbort (fun t => t.out)
    (fun t t' x es i1 i2 hq hs => (Lend.step_out i1.1 i1.2 hs).1)
    (fun t t' x es i1 i2 hp hq hc hs => (Lend.step_out i1.1 i1.2 hs).2 (by simpa using hc))
    (fun t i1 hp => ⟨.shutAbort, rfl, by simp [Lend.step, Lend.shutEnds, Hk.step]; grind⟩)
  obtain ⟨N8, hN8, h8⟩ := he.drains (ok := Lend.Quiet) (n0 := N7) (fun k x hk => h3 k x (by omega)) (I := fun t => t.hk.closing = true)
    (fun k hk => h0 k (by omega)) hf.resume (fun t => t.idle.toNat)
    (fun t t' x es i1 i2 hq hs => (Lend.step_idle i1 hs).1)
    (fun t t' x es i1 i2 hp hq hc hs => by rw [(Lend.step_idle i1 hs).2 (by simpa using hc)]; exact hp)
    (fun t i1 hp => ⟨.resume, rfl, by simp [Lend.step]; grind⟩)
  obtain ⟨N9, hN9, h9⟩ := he.drains (ok := Lend.Quiet) (n0 := N8) (fun k x hk => h3 k x (by omega)) (I := fun t => t.hk.closing = true ∧ t.hk.hs = none)
    (fun k hk => ⟨h0 k (by omega), h2 k (by omega)⟩) hf.readEnd (fun t => t.reading.toNat)
    (fun t t' x es i1 i2 hq hs => (Lend.step_reading i1.1 i1.2 hq hs).1)
    (fun t t' x es i1 i2 hp hq hc hs => by rw [(Lend.step_reading i1.1 i1.2 hq hs).2 (by simpa using hc)]; exact hp)
    (fun t i1 hp => ⟨.readEnd, rfl, by simp [Lend.step, Lend.readFails, Hk.step]; grind⟩)
  obtain ⟨m, hm, x, hx, ha⟩ := hf.onClose (fun k => ⟨N9 + k, by omega, .hk (.onClose false), rfl, by
    have g0 := h0 (N9 + k) (by omega)
    have g1 := h1 (N9 + k) (by omega)
    have g2 := h2 (N9 + k) (by omega)
    have g4 := h4 (N9 + k) (by omega)
    have g5 := h5 (N9 + k) (by omega)
    have g6 := h6 (N9 + k) (by omega)
    have g7 := h7 (N9 + k) (by omega)
    have g8 := h8 (N9 + k) (by omega)
    have g9 := h9 (N9 + k) (by omega)
    simp only [Bool.toNat_eq_zero] at g8 g9
    simp [Lend.step, Hk.step, g0, g1, g2, g4, g5, g6, g7, g8, g9]⟩) N9
  obtain ⟨es, hs, _⟩ := he.next m x ha
  refine hno m x es (by omega) ha hs ?_
  simp only [Bool.or_eq_true, beq_iff_eq] at hx
  rcases hx with rfl | rfl <;> simp only [Lend.step, Hk.step] at hs <;> grind

/-- A started link with a pending forced shutdown is closed. -/
theorem Lend.force_closes (he : Exec (Lend.step c) s a e) (hf : Lend.Fairly c s a) (hi : ∀ n, (s n).Inv) {n : Nat} (hst : (s n).hk.started = true) (hfo : 0 < (s n).hk.force) : ∃ m, n ≤ m ∧ (s m).hk.closing = true :=
  he.leads (ok := fun _ _ => True) (n0 := n) (fun _ _ _ _ => trivial) (I := Lend.Inv) (fun m _ => hi m) hf.runForce (fun t => t.hk.started = true ∧ 0 < t.hk.force) (fun t => t.hk.closing = true)
    (fun t t' x es i1 i2 hp _ hs => by
      rcases Lend.step_started i1 hp.1 hs with h | h
      · rcases Lend.step_force i1 hp.1 hp.2 hs with h2 | h2
        · exact .inr h2
        · exact .inl ⟨h, h2.2⟩
      · exact .inr h)
    (fun t t' x es i1 i2 hp _ hc hs => by
      rcases Lend.step_force i1 hp.1 hp.2 hs with h2 | h2
      · exact h2
      · exact absurd (by simpa using hc) h2.1)
    (fun t i1 hp => ⟨.hk .runForce, rfl, by simp [Lend.step, Hk.step]; grind⟩) n (Nat.le_refl _) ⟨hst, hfo⟩

/-- Being shut down for ever. -/
abbrev Lend.Stuck (t : Lend) : Prop := t.Inv ∧ t.hk.closing = false ∧ t.hk.started = true ∧ t.hk.status = .gracefulDown ∧ t.hk.force = 0

/-- A link that is being shut down gracefully is closed. -/
theorem Lend.graceful_closes (he : Exec (Lend.step c) s a e) (hf : Lend.Fairly c s a) (hi : ∀ n, (s n).Inv) (hrd : ∀ n, (s n).ended = true → (s n).Reads) {n : Nat} (hst : (s n).hk.started = true)
    (hg : (s n).hk.status = .gracefulDown) : ∃ m, n ≤ m ∧ (s m).hk.closing = true := by
  apply Classical.byContradiction
  intro hno
  have hcl : ∀ m, n ≤ m → (s m).hk.closing = false := fun m hm => by
    have : ¬ (s m).hk.closing = true := fun h => hno ⟨m, hm, h⟩
    simpa using this
  have hs1 : ∀ m, n ≤ m → (s m).hk.started = true ∧ (s m).hk.status = .gracefulDown :=
    he.stays (ok := fun _ _ => True) (n0 := n) (fun _ _ _ _ => trivial) (J := fun t => t.Inv ∧ t.hk.closing = false) (fun m hm => ⟨hi m, hcl m hm⟩) (fun t => t.hk.started = true ∧ t.hk.status = .gracefulDown) ⟨hst, hg⟩
      (fun t t' x es i1 i2 hp _ hs => by
        have h1 := Lend.step_started i1.1 hp.1 hs
        have h2 := Lend.step_graceful i1.1 hp.1 hp.2 hs
        simp only [i2.2, Bool.false_eq_true, or_false, false_or] at h1 h2
        exact ⟨h1, h2⟩)
  have hfo : ∀ m, n ≤ m → (s m).hk.force = 0 := by
    intro m hm
    rcases Nat.eq_zero_or_pos (s m).hk.force with h | h
    · exact h
    · obtain ⟨k, hk, h1⟩ := Lend.force_closes he hf hi (hs1 m hm).1 h
      rw [hcl k (by omega)] at h1
      cases h1
  have hI : ∀ m, n ≤ m → (s m).Stuck := fun m hm => ⟨hi m, hcl m hm, (hs1 m hm).1, (hs1 m hm).2, hfo m hm⟩
  have h1 : ∀ m, n ≤ m → ¬ ((s m).ended = true ∧ (s m).reading = true) :=
    he.never (ok := fun _ _ => True) (n0 := n) (fun _ _ _ _ => trivial) (I := Lend.Stuck) hI hf.readEnd (fun t => t.ended = true ∧ t.reading = true)
      (fun t t' x es i1 i2 hp _ hc hs => by
        refine ⟨Lend.step_ended i1.1 i1.2.2.1 hp.1 hs, ?_⟩
        rcases Lend.step_ended_reading i1.1 hp.1 hp.2 hs with h | h
        · rw [i2.2.2.2.2] at h; cases h
        · exact h.2)
      (fun t t' x es i1 i2 hp _ hc hs => by
        rcases Lend.step_ended_reading i1.1 hp.1 hp.2 hs with h | h
        · rw [i2.2.2.2.2] at h; cases h
        · exact h.1 (by simpa using hc))
      (fun t i1 hp => ⟨.readEnd, rfl, by simp [Lend.step, Lend.readFails, Hk.step, hp.1, hp.2]⟩)
  have h2 : ∀ m, n ≤ m → ¬ ((s m).ended = true ∧ (s m).idle = true) := by
    intro m hm hp
    obtain ⟨k, hk, h3⟩ := he.leads (ok := fun _ _ => True) (n0 := n) (fun _ _ _ _ => trivial) (I := Lend.Stuck) hI hf.resume (fun t => t.ended = true ∧ t.idle = true) (fun t => t.ended = true ∧ t.reading = true)
      (fun t t' x es i1 i2 hp _ hs => by
        have h4 := Lend.step_ended i1.1 i1.2.2.1 hp.1 hs
        have h5 := Lend.step_ended_idle i1.1 i1.2.2.1 hp.2 hs
        split at h5
        · exact .inr ⟨h4, h5⟩
        · exact .inl ⟨h4, h5⟩)
      (fun t t' x es i1 i2 hp _ hc hs => by
        have h4 := Lend.step_ended i1.1 i1.2.2.1 hp.1 hs
        have h5 := Lend.step_ended_idle i1.1 i1.2.2.1 hp.2 hs
        rw [if_pos (by simpa using hc)] at h5
        exact ⟨h4, h5⟩)
      (fun t i1 hp => ⟨.resume, rfl, by simp [Lend.step, hp.2]⟩) m hm hp
    exact h1 k (by omega) h3
  have h3 : ∀ m, n ≤ m → (s m).ended = false := by
    intro m hm
    cases h4 : (s m).ended with
    | false => rfl
    | true =>
      rcases hrd m h4 (hs1 m hm).1 (.inr (hs1 m hm).2) with h5 | h5 | h5
      · exact absurd ⟨h4, h5⟩ (h1 m hm)
      · exact absurd ⟨h4, h5⟩ (h2 m hm)
      · rw [hfo m hm] at h5; cases h5
  have hI : ∀ m, n ≤ m → (s m).Stuck ∧ (s m).ended = false :=
    fun m hm => ⟨⟨hi m, hcl m hm, (hs1 m hm).1, (hs1 m hm).2, hfo m hm⟩, h3 m hm⟩
  have h4 : ∀ m, n ≤ m → ¬ (s m).hk.atimer = true :=
    he.never (ok := fun _ _ => True) (n0 := n) (fun _ _ _ _ => trivial) (I := fun t => t.Stuck ∧ t.ended = false) hI hf.tick (fun t => t.hk.atimer = true)
      (fun t t' x es i1 i2 hp _ hc hs => by
        rcases Lend.step_timer i1.1.1 i1.1.2.2.1 i1.1.2.2.2.1 hp hs with h | h | h | h
        · rw [i2.1.2.2.2.2] at h; cases h
        · rw [i2.2] at h; cases h
        · rw [i2.1.2.1] at h; cases h
        · exact h.2)
      (fun t t' x es i1 i2 hp _ hc hs => by
        rcases Lend.step_timer i1.1.1 i1.1.2.2.1 i1.1.2.2.2.1 hp hs with h | h | h | h
        · rw [i2.1.2.2.2.2] at h; cases h
        · rw [i2.2] at h; cases h
        · rw [i2.1.2.1] at h; cases h
        · exact h.1 (by simpa using hc))
      (fun t i1 hp => ⟨.hk .tick, rfl, by simp [Lend.step, Hk.step, hp]⟩)
  have h5 : ¬ 0 < (s n).hk.shut := by
    intro h0
    obtain ⟨k, hk, h6⟩ := he.leads (ok := fun _ _ => True) (n0 := n) (fun _ _ _ _ => trivial) (I := fun t => t.Stuck ∧ t.ended = false) hI hf.runShut (fun t => 0 < t.hk.shut) (fun t => t.hk.atimer = true)
      (fun t t' x es i1 i2 hp _ hs => by
        have h6 := Lend.step_shut i1.1.1 hp hs
        split at h6
        · exact .inr h6
        · exact .inl h6)
      (fun t t' x es i1 i2 hp _ hc hs => by
        have h6 := Lend.step_shut i1.1.1 hp hs
        rw [if_pos (by simpa using hc)] at h6
        exact h6)
      (fun t i1 hp => ⟨.hk .runShut, rfl, by simp [Lend.step, Hk.step]; grind⟩) n (Nat.le_refl _) h0
    exact h4 k (by omega) h6
  rcases (hi n).mon hst hg with h | h | h | h
  · exact h5 h
  · exact h4 n (Nat.le_refl _) h
  · rw [hfo n (Nat.le_refl _)] at h; cases h
  · rw [h3 n (Nat.le_refl _)] at h; cases h

/-- What holds at the beginning and is kept by all steps holds all the time. -/
theorem Lend.always {rc : Bool} {as : List LendAct} {es : List HkEv} (hr : Lend.Run c (Lend.init rc) as (s 0) es) (he : Exec (Lend.step c) s a e) : ∀ n, (s n).Inv := fun n =>
  he.stays (ok := fun _ _ => True) (n0 := 0) (fun _ _ _ _ => trivial) (J := fun _ => True) (fun _ _ => trivial) Lend.Inv (Lend.run_inv (Lend.init_inv rc) hr) (fun _ _ _ _ _ _ i1 _ hs => Lend.step_inv i1 hs) n (Nat.zero_le _)

theorem Lend.run_ssl {s0 s1 : Lend} {as : List LendAct} {es : List HkEv} (hw : c.ws = false) (h : s0.ended = false) (hr : Lend.Run c s0 as s1 es) : s1.ended = false := by
  induction hr with
  | nil => exact h
  | snoc _ _ _ _ _ _ _ hs ih => exact Lend.step_ssl hw ih hs

theorem Lend.run_reads {s0 s1 : Lend} {as : List LendAct} {es : List HkEv} (hp : c.passive = false) (h0 : s0.Inv) (h : s0.Reads) (ha : .recvEmpty ∉ as) (hr : Lend.Run c s0 as s1 es) : s1.Reads := by
  induction hr with
  | nil => exact h
  | snoc _ _ _ _ _ _ hr hs ih =>
    simp only [List.mem_append, List.mem_singleton, not_or] at ha
    exact Lend.step_reads (Lend.run_inv h0 hr) (ih ha.1) hp (fun h => ha.2 h.symm) hs

/-- Closing follows, then on_close. -/
theorem Lend.ends_of_closing (he : Exec (Lend.step c) s a e) (hf : Lend.Fairly c s a) (hn : ¬ Lend.Nagged s a) {n : Nat} (h : ∃ m, n + 1 ≤ m ∧ (s m).hk.closing = true) : ∃ m es, n < m ∧ e m = e n ++ es ∧ .onClose ∈ es := by
  obtain ⟨m, hm, h1⟩ := h
  obtain ⟨k, es, hk, h2, h3⟩ := Lend.closed_ends he hf hn h1
  obtain ⟨es0, h4⟩ := he.grow_le (show n ≤ m by omega)
  exact ⟨k, es0 ++ es, by omega, by rw [h2, h4, List.append_assoc], List.mem_append_right _ h3⟩

/-- Shutting down ends in on_close: SSL sockets in every mode, websockets if messages are received on their own and no message without content arrives, whatever the peer does or fails to do. -/
theorem C88_ends_partial {rc : Bool} {as : List LendAct} {es0 : List HkEv} (hr : Lend.Run c (Lend.init rc) as (s 0) es0) (he : Exec (Lend.step c) s a e) (hf : Lend.Fairly c s a) (hn : ¬ Lend.Nagged s a)
    (hws : c.ws = true → c.passive = false ∧ .recvEmpty ∉ as ∧ ∀ n, a n ≠ some .recvEmpty) {n : Nat} {r : Bool} (hst : (s n).hk.started = true) (ha : a n = some (.hk (.shutdown r))) :
    ∃ m es, n < m ∧ e m = e n ++ es ∧ .onClose ∈ es := by
  have hi := Lend.always hr he
  have hrd : ∀ n, (s n).ended = true → (s n).Reads := by
    intro n hen
    cases hw : c.ws with
    | false =>
      have := he.stays (ok := fun _ _ => True) (n0 := 0) (fun _ _ _ _ => trivial) (J := fun _ => True) (fun _ _ => trivial) (fun t => t.ended = false) (Lend.run_ssl hw rfl hr)
        (fun _ _ _ _ _ _ i1 _ hs => Lend.step_ssl hw i1 hs) n (Nat.zero_le _)
      rw [this] at hen
      cases hen
    | true =>
      obtain ⟨hp, has, hae⟩ := hws hw
      exact he.stays (ok := fun _ x => x ≠ .recvEmpty) (n0 := 0) (fun n x _ ha h => hae n (by rw [ha, h])) (J := Lend.Inv) (fun n _ => hi n) Lend.Reads
        (Lend.run_reads hp (Lend.init_inv rc) (fun h => by cases h) has hr) (fun _ _ _ _ j1 _ i1 hx hs => Lend.step_reads j1 i1 hp hx hs) n (Nat.zero_le _)
  obtain ⟨es, hs, _⟩ := he.next n _ ha
  apply Lend.ends_of_closing he hf hn
  have h1 : (s (n + 1)).hk.started = true ∧ ((s (n + 1)).hk.status = .gracefulDown ∨ 0 < (s (n + 1)).hk.force) := Lend.step_shutdown hst hs
  rcases h1.2 with h2 | h2
  · exact Lend.graceful_closes he hf hi hrd h1.1 h2
  · exact Lend.force_closes he hf hi h1.1 h2

/-- Shutting down a link that is not up (yet, or any more), in particular shutting down a second time, ends in on_close in every mode. -/
theorem C88_twice {rc : Bool} {as : List LendAct} {es0 : List HkEv} (hr : Lend.Run c (Lend.init rc) as (s 0) es0) (he : Exec (Lend.step c) s a e) (hf : Lend.Fairly c s a) (hn : ¬ Lend.Nagged s a)
    {n : Nat} {r : Bool} (hst : (s n).hk.started = true) (hx : (s n).hk.status ≠ .connected) (ha : a n = some (.hk (.shutdown r))) : ∃ m es, n < m ∧ e m = e n ++ es ∧ .onClose ∈ es := by
  obtain ⟨es, hs, _⟩ := he.next n _ ha
  have h1 := Lend.step_shutdown' hst hx hs
  exact Lend.ends_of_closing he hf hn (Lend.force_closes he hf (Lend.always hr he) h1.1 h1.2)

/-- Nothing is due any more: everything is disabled in the last state. -/
def Lend.Quiescent (t : Lend) : Bool :=
  t.hk.force == 0 && t.hk.shut == 0 && t.hk.posted == 0 && t.hk.atPost == 0 && !t.hk.atimer && !t.idle && !t.hk.closing && !t.hk.connecting && !(t.reading && t.ended)

theorem Lend.play_fairly (s0 : Lend) (as : List LendAct) (h : Lend.Quiescent (play (Lend.step c) s0 as as.length).1 = true) : Lend.Fairly c (fun n => (play (Lend.step c) s0 as n).1) (fun n => as[n]?) := by
  simp only [Lend.Quiescent, Bool.and_eq_true, beq_iff_eq, Bool.not_eq_true'] at h
  obtain ⟨⟨⟨⟨⟨⟨⟨⟨h1, h2⟩, h3⟩, h4⟩, h5⟩, h6⟩, h7⟩, h8⟩, h9⟩ := h
  constructor <;> apply play_fair <;> intro x hx <;> (try simp only [Bool.or_eq_true, beq_iff_eq] at hx)
  all_goals first
    | (rcases hx with rfl | rfl <;> simp [Lend.step, Hk.step, h3, h7]; done)
    | (subst hx; simp [Lend.step, Hk.step, h1, h2, h4, h5, h6, h7] <;> grind)
    | (split at hx <;> first | (simp [Lend.step, Hk.step, h8]; done) | cases hx)

/-- After the last of the actions nobody sends or asks any more. -/
theorem Lend.play_not_nagged (s0 : Lend) (as : List LendAct) : ¬ Lend.Nagged (fun n => (play (Lend.step c) s0 as n).1) (fun n => as[n]?) := by
  intro h
  obtain ⟨m, hm, _, _, h1⟩ := h as.length
  simp only [List.getElem?_eq_none hm] at h1
  rcases h1 with h1 | h1 <;> cases h1

private abbrev sslServer : LendCfg := { client := false, ws := false, passive := true, sync := false, L := 1 }
private abbrev wsClient : LendCfg := { client := true, ws := true, passive := false, sync := false, L := 1 }
private abbrev wsServer (passive : Bool) : LendCfg := { client := false, ws := true, passive, sync := false, L := 1 }

private abbrev silent : List LendAct := [.hk .start, .hk (.handshakeDone true), .hk (.runSend true), .hk (.shutdown false), .hk .runShut, .hk .tick, .hk .runForce, .shutAbort, .readEnd, .hk (.onClose false), .hk .runForce]

/-- The hypotheses of `C88_ends_partial` can be met: an SSL server in passive mode, the peer never answers. -/
theorem C88_demo_ssl : ∃ m es, 3 < m ∧ (play (Lend.step sslServer) (Lend.init false) silent m).2 = (play (Lend.step sslServer) (Lend.init false) silent 3).2 ++ es ∧ .onClose ∈ es :=
  C88_ends_partial (s := fun n => (play (Lend.step sslServer) (Lend.init false) silent n).1) (rc := false) (.nil _) (play_exec _ _ (by decide +kernel)) (Lend.play_fairly _ _ (by decide +kernel)) (Lend.play_not_nagged _ _)
    (fun h => by cases h) (r := false) (by decide +kernel) (by rfl)

private abbrev wsClose : List LendAct := [.hk .start, .hk .connectDone, .hk (.handshakeDone true), .hk (.runSend false), .recv false, .recv true, .hk (.shutdown false), .hk .runShut, .shutDone, .resume, .readEnd, .hk .runForce, .hk (.onClose false)]

/-- ... and a websocket client that shuts down while its receive buffer is full; the peer answers. -/
theorem C88_demo_ws : ∃ m es, 6 < m ∧ (play (Lend.step wsClient) (Lend.init true) wsClose m).2 = (play (Lend.step wsClient) (Lend.init true) wsClose 6).2 ++ es ∧ .onClose ∈ es :=
  C88_ends_partial (s := fun n => (play (Lend.step wsClient) (Lend.init true) wsClose n).1) (rc := true) (.nil _) (play_exec _ _ (by decide +kernel)) (Lend.play_fairly _ _ (by decide +kernel)) (Lend.play_not_nagged _ _)
    (fun _ => ⟨rfl, by decide, fun n => by
      intro h
      have : LendAct.recvEmpty ∈ wsClose := List.mem_of_getElem? h
      revert this
      decide⟩) (r := false) (by decide +kernel) (by rfl)

/-- What must not be: a started link is shut down, everything that is due happens, and on_close is never called. -/
def Lend.Hangs (c : LendCfg) (s : Nat → Lend) (a : Nat → Option LendAct) (e : Nat → List HkEv) : Prop :=
  Exec (Lend.step c) s a e ∧ Lend.Fairly c s a ∧ ¬ Lend.Nagged s a ∧ (∃ n r, (s n).hk.started = true ∧ a n = some (.hk (.shutdown r))) ∧ ∀ n, .onClose ∉ e n

private theorem Lend.play_hangs {s0 : Lend} {as : List LendAct} (h1 : ∀ i : Fin as.length, (Lend.step c (play (Lend.step c) s0 as i).1 as[i]).isSome = true) (h2 : Lend.Quiescent (play (Lend.step c) s0 as as.length).1 = true)
    (k : Nat) (r : Bool) (h3 : (play (Lend.step c) s0 as k).1.hk.started = true) (h4 : as[k]? = some (.hk (.shutdown r))) (h5 : ∀ i : Fin (as.length + 1), .onClose ∉ (play (Lend.step c) s0 as i).2) :
    Lend.Hangs c (fun n => (play (Lend.step c) s0 as n).1) (fun n => as[n]?) (fun n => (play (Lend.step c) s0 as n).2) := by
  refine ⟨play_exec _ _ h1, Lend.play_fairly _ _ h2, Lend.play_not_nagged _ _, ⟨k, r, h3, h4⟩, fun n => ?_⟩
  by_cases hn : as.length ≤ n
  · simp only [play_end s0 as n hn]
    exact h5 ⟨as.length, by omega⟩
  · exact h5 ⟨n, by omega⟩

/-- Websockets in passive mode: the user asks for no more messages and calls disconnect() (in on_msg_handle, say). async_close completes, which stops the timer; no read is outstanding, so nobody notices that the link ended.
on_close is never called. -/
theorem C88_fails_passive : ∃ s a e, s 0 = Lend.init false ∧ Lend.Hangs (wsServer true) s a e :=
  ⟨_, _, _, rfl, Lend.play_hangs (s0 := Lend.init false) (as := [.hk .start, .hk (.handshakeDone true), .hk (.runSend false), .recv false, .hk (.shutdown false), .hk .runShut, .shutDone])
    (by decide +kernel) (by decide +kernel) 4 false (by decide +kernel) rfl (by decide +kernel)⟩

/-- The same without passive mode, after a message without content in a release build (C69). -/
theorem C88_fails_empty : ∃ s a e, s 0 = Lend.init false ∧ Lend.Hangs (wsServer false) s a e :=
  ⟨_, _, _, rfl, Lend.play_hangs (s0 := Lend.init false) (as := [.hk .start, .hk (.handshakeDone true), .hk (.runSend false), .recvEmpty, .hk (.shutdown false), .hk .runShut, .shutDone])
    (by decide +kernel) (by decide +kernel) 4 false (by decide +kernel) rfl (by decide +kernel)⟩

/-- A link that broke, as found by a read or by the missing heartbeats, ends in on_close in every mode, without anybody shutting it down. -/
theorem C88_lost {rc : Bool} {as : List LendAct} {es0 : List HkEv} (hr : Lend.Run c (Lend.init rc) as (s 0) es0) (he : Exec (Lend.step c) s a e) (hf : Lend.Fairly c s a) (hn : ¬ Lend.Nagged s a)
    {n : Nat} (hst : (s n).hk.started = true) (ha : a n = some (.hk .heartbeatError) ∨ a n = some .readError) : ∃ m es, n < m ∧ e m = e n ++ es ∧ .onClose ∈ es := by
  suffices h : (s (n + 1)).hk.started = true ∧ 0 < (s (n + 1)).hk.force from Lend.ends_of_closing he hf hn (Lend.force_closes he hf (Lend.always hr he) h.1 h.2)
  rcases ha with ha | ha <;> obtain ⟨es, hs, _⟩ := he.next n _ ha
  · simp only [Lend.step, Hk.step, Option.map_some, Option.some.injEq, Prod.mk.injEq] at hs
    rw [← hs.1]; exact ⟨hst, Nat.succ_pos _⟩
  · simp only [Lend.step] at hs
    split at hs
    · simp only [Lend.readFails, Hk.step, Option.map_some, Option.some.injEq, Prod.mk.injEq] at hs
      rw [← hs.1]; exact ⟨hst, Nat.succ_pos _⟩
    · cases hs

private abbrev wsTwice : List LendAct := [.hk .start, .hk .connectDone, .hk (.handshakeDone true), .hk (.runSend false), .recv false, .hk (.shutdown true), .hk .runShut, .shutDone, .readEnd, .hk .runForce, .hk (.onClose false),
  .hk .connectDone, .hk (.handshakeDone true), .hk (.runSend false), .recv false, .recv false, .hk (.setReconnect false), .hk .heartbeatError, .hk .runForce, .readEnd, .hk .runForce, .hk (.onClose false)]

/-- The hypotheses of `C88_lost` can be met: a websocket client that is shut down, connects again and receives again, then loses its link. -/
theorem C88_demo_lost : ∃ m es, 17 < m ∧ (play (Lend.step wsClient) (Lend.init true) wsTwice m).2 = (play (Lend.step wsClient) (Lend.init true) wsTwice 17).2 ++ es ∧ .onClose ∈ es :=
  C88_lost (s := fun n => (play (Lend.step wsClient) (Lend.init true) wsTwice n).1) (rc := true) (.nil _) (play_exec _ _ (by decide +kernel)) (Lend.play_fairly _ _ (by decide +kernel)) (Lend.play_not_nagged _ _)
    (by decide +kernel) (Or.inl rfl)

end StAsio
