import Verif.Props.C30_Shutdown
import Verif.Lemmas.Fair
/-!
# C30: a shutdown that was asked for is not put off for ever
-/
set_option autoImplicit false
namespace StAsio

/-- `Lnk.step` without events. -/
def Lnk.stepE (client : Bool) (N : Nat) (s : Lnk) (a : LkAct) : Option (Lnk × List Unit) := (s.step client N a).map (·, [])

/-- The timer of a graceful shutdown and the forced shutdowns asked for. -/
def LkAct.drives : LkAct → Bool
  | .tick => true
  | .runForce => true
  | _ => false

def LkAct.isGraceful : LkAct → Bool
  | .runGraceful _ => true
  | _ => false

private theorem stepE_iff {client : Bool} {N : Nat} {s s' : Lnk} {a : LkAct} {es : List Unit} : s.stepE client N a = some (s', es) ↔ s.step client N a = some s' ∧ es = [] := by
  simp only [Lnk.stepE, Option.map_eq_some_iff, Prod.mk.injEq]
  constructor
  · rintro ⟨x, h, rfl, rfl⟩; exact ⟨h, rfl⟩
  · rintro ⟨h, rfl⟩; exact ⟨s', h, rfl, rfl⟩

private def Lnk.rest (s : Lnk) : Nat := if s.status = .gracefulDown then s.atimer.getD 0 + 1 else 0

private theorem asked_step {client : Bool} {N : Nat} {s s' : Lnk} {a : LkAct} (hi : s.Inv client N) (ha : a ≠ .lateConnected) (hc : s.status = .connected)
    (hs : s.step client N a = some s') : ((s'.status = .connected ∧ s.force ≤ s'.force ∧ s.grace ≤ s'.grace) ∨ s'.status = .gracefulDown ∨ s'.status = .forceDown) ∧
      (a = .runForce ∨ a.isGraceful = true → s'.status = .gracefulDown ∨ s'.status = .forceDown) := by
  have h1 := hi.up; have h3 := hi.conn; have h7 := hi.timer
  cases a <;> simp only [LkAct.isGraceful, reduceCtorEq, Bool.false_eq_true, or_self, false_implies, and_true, true_or, or_true, forall_const, ne_eq, not_true_eq_false] at ha ⊢ <;>
    simp only [Lnk.step, Lnk.forceShutdown, Lnk.gracefulShutdown, Lnk.shutdown, Lnk.close, Lnk.tick] at hs <;> grind

private theorem down_step {client : Bool} {N : Nat} (hN' : N < 2 ^ 64) {s s' : Lnk} {a : LkAct} (hi : s.Inv client N) (ha : a ≠ .lateConnected) (hc : s.status = .gracefulDown ∨ s.status = .forceDown)
    (hs : s.step client N a = some s') : (s'.status = .gracefulDown ∨ s'.status = .forceDown ∨ (s'.status = .broken ∧ s'.started = false)) ∧ s'.rest ≤ s.rest ∧ (0 < s.rest → a.drives = true → s'.rest < s.rest) ∧
      (s.status = .forceDown → a ≠ .onClose → s'.status = .forceDown) ∧ (s.status = .forceDown → a = .onClose → s'.status = .broken) := by
  have h1 := hi.up; have h3 := hi.conn; have h4 := hi.fd; have h7 := hi.timer
  cases a with
  | tick =>
    simp only [Lnk.step] at hs
    split at hs
    · cases hs
    · next n hn =>
      have h8 := h7 n hn
      have h9 : n < 2 ^ 64 := by omega
      have h10 : (n + 2 ^ 64 - 1) % 2 ^ 64 = n - 1 := by omega
      simp only [Lnk.tick, h8.1, if_true, h10, Option.some.injEq] at hs
      split at hs <;> cases hs <;> simp only [Lnk.rest, h8.1, hn, if_true, Option.getD_some, Option.getD_none, reduceCtorEq, false_implies, and_true, true_or, true_and] <;> omega
  | _ =>
    simp only [LkAct.drives, reduceCtorEq, Bool.false_eq_true, false_implies, ne_eq, not_true_eq_false, not_false_eq_true, forall_const, implies_true, and_true, true_and] at ha ⊢
    try simp only [Lnk.step, Lnk.forceShutdown, Lnk.gracefulShutdown, Lnk.shutdown, Lnk.close] at hs
    try grind [Lnk.rest]

/-- **C30** (no starvation): once a forced or graceful shutdown of a connected socket was asked for, or is under way, the link ends broken and closed, on_close having been called, in every infinite execution, whatever else is done to the socket for ever, if the requests asked for, the
timer of the graceful shutdown and on_close are not put off for ever. Not covered: connecting attempts that succeed after the socket was closed (C30_fails_late_connect). -/
theorem C30_no_starvation {client : Bool} {N : Nat} (hN : 1 ≤ N) (hN' : N < 2 ^ 64) {s : Nat → Lnk} {a : Nat → Option LkAct} {e : Nat → List Unit} {as : List LkAct} (hr : Lnk.Run client N Lnk.init as (s 0))
    (ha : ∀ x ∈ as, x ≠ .lateConnected) (he : Exec (Lnk.stepE client N) s a e) (ha' : ∀ n, a n ≠ some .lateConnected)
    (hf1 : Fair (Lnk.stepE client N) s a LkAct.drives) (hf2 : Fair (Lnk.stepE client N) s a LkAct.isGraceful) (hf3 : Fair (Lnk.stepE client N) s a (· == .runForce)) (hf4 : Fair (Lnk.stepE client N) s a (· == .onClose))
    {n : Nat} (hd : (s n).status = .connected ∧ (0 < (s n).force ∨ 0 < (s n).grace) ∨ (s n).status = .gracefulDown ∨ (s n).status = .forceDown) :
    ∃ m, n ≤ m ∧ (s m).status = .broken ∧ (s m).started = false := by
  have hok : ∀ n x, 0 ≤ n → a n = some x → x ≠ .lateConnected := fun n x _ hx hc => ha' n (hc ▸ hx)
  have hI : ∀ n, 0 ≤ n → (s n).Inv client N := he.stays (ok := fun _ x => x ≠ .lateConnected) hok (J := fun _ => True) (fun _ _ => trivial) (fun t => t.Inv client N) (Lnk.run_inv hN hN' (Lnk.init_inv client N) ha hr)
    (fun t t' x es _ _ hi hb hs => (Lnk.step_inv hN hN' hi hb (stepE_iff.mp hs).1).1)
  have hdown : ∃ m, n ≤ m ∧ ((s m).status = .gracefulDown ∨ (s m).status = .forceDown) := by
    rcases hd with ⟨h1, h2 | h2⟩ | h1
    · exact he.leads (ok := fun _ x => x ≠ .lateConnected) (n0 := 0) hok hI hf3 (fun t => t.status = .connected ∧ 0 < t.force) (fun t => t.status = .gracefulDown ∨ t.status = .forceDown)
        (fun t t' x es hi _ hp hb hs => by
          rcases (asked_step hi hb hp.1 (stepE_iff.mp hs).1).1 with h | h
          · exact .inl ⟨h.1, Nat.lt_of_lt_of_le hp.2 h.2.1⟩
          · exact .inr h)
        (fun t t' x es hi _ hp hb hc hs => (asked_step hi hb hp.1 (stepE_iff.mp hs).1).2 (.inl (by simpa using hc)))
        (fun t _ hp => ⟨.runForce, rfl, by simp [Lnk.stepE, Lnk.step, hp.2]⟩) n (Nat.zero_le _) ⟨h1, h2⟩
    · exact he.leads (ok := fun _ x => x ≠ .lateConnected) (n0 := 0) hok hI hf2 (fun t => t.status = .connected ∧ 0 < t.grace) (fun t => t.status = .gracefulDown ∨ t.status = .forceDown)
        (fun t t' x es hi _ hp hb hs => by
          rcases (asked_step hi hb hp.1 (stepE_iff.mp hs).1).1 with h | h
          · exact .inl ⟨h.1, Nat.lt_of_lt_of_le hp.2 h.2.2⟩
          · exact .inr h)
        (fun t t' x es hi _ hp hb hc hs => (asked_step hi hb hp.1 (stepE_iff.mp hs).1).2 (.inr hc))
        (fun t _ hp => ⟨.runGraceful false, rfl, by simp [Lnk.stepE, Lnk.step, hp.2]⟩) n (Nat.zero_le _) ⟨h1, h2⟩
    · exact ⟨n, Nat.le_refl _, h1⟩
  obtain ⟨m, hm, hdm⟩ := hdown
  apply Classical.byContradiction
  intro hno
  have hno : ∀ k, n ≤ k → ¬ ((s k).status = .broken ∧ (s k).started = false) := fun k hk hq => hno ⟨k, hk, hq⟩
  have hall : ∀ k, m ≤ k → (s k).status = .gracefulDown ∨ (s k).status = .forceDown := by
    refine he.stays (ok := fun _ x => x ≠ .lateConnected) (fun n x hn hx => hok n x (Nat.zero_le _) hx) (J := fun t => t.Inv client N ∧ ¬ (t.status = .broken ∧ t.started = false))
      (fun k hk => ⟨hI k (Nat.zero_le _), hno k (by omega)⟩) (fun t => t.status = .gracefulDown ∨ t.status = .forceDown) hdm (fun t t' x es hj hj' hp hb hs => ?_)
    rcases (down_step hN' hj.1 hb hp (stepE_iff.mp hs).1).1 with h | h | h
    · exact .inl h
    · exact .inr h
    · exact absurd h hj'.2
  obtain ⟨N1, hN1, hz⟩ := he.drains (ok := fun _ x => x ≠ .lateConnected) (n0 := m) (fun n x hn hx => hok n x (Nat.zero_le _) hx) (I := fun t => t.Inv client N ∧ (t.status = .gracefulDown ∨ t.status = .forceDown))
    (fun k hk => ⟨hI k (Nat.zero_le _), hall k hk⟩) hf1 Lnk.rest
    (fun t t' x es hj _ hb hs => (down_step hN' hj.1 hb hj.2 (stepE_iff.mp hs).1).2.1)
    (fun t t' x es hj _ hp hb hc hs => (down_step hN' hj.1 hb hj.2 (stepE_iff.mp hs).1).2.2.1 hp hc)
    (fun t hj hp => by
      have hg : t.status = .gracefulDown := by
        apply Classical.byContradiction
        intro hg
        simp [Lnk.rest, hg] at hp
      rcases hj.1.grace hg with ⟨k, hk, _⟩ | hk
      · exact ⟨.tick, rfl, by simp [Lnk.stepE, Lnk.step, hk]⟩
      · exact ⟨.runForce, rfl, by simp [Lnk.stepE, Lnk.step, hk]⟩)
  have hfd : ∀ k, N1 ≤ k → (s k).status = .forceDown := fun k hk => by
    have h1 := hz k hk
    rcases hall k (by omega) with h | h
    · simp [Lnk.rest, h] at h1
    · exact h
  refine he.never (ok := fun _ x => x ≠ .lateConnected) (n0 := N1) (fun n x hn hx => hok n x (Nat.zero_le _) hx) (I := fun t => t.Inv client N ∧ t.status = .forceDown) (fun k hk => ⟨hI k (Nat.zero_le _), hfd k hk⟩) hf4 (fun _ => True)
    (fun _ _ _ _ _ _ _ _ _ _ => trivial)
    (fun t t' x es hj hj' _ hb hc hs => by
      have := (down_step hN' hj.1 hb (.inr hj.2) (stepE_iff.mp hs).1).2.2.2.2 hj.2 (by simpa using hc)
      rw [hj'.2] at this
      cases this)
    (fun t hj _ => ⟨.onClose, rfl, by
      have h1 := hj.1.fd hj.2
      have h2 : t.connecting = false := by
        cases hcn : t.connecting with
        | false => rfl
        | true => have := (hj.1.conn hcn).1; rw [hj.2] at this; cases this
      simp [Lnk.stepE, Lnk.step, h1.2, h2]⟩) N1 (Nat.le_refl _) trivial

/-- Not vacuous: a client connects, is asked for a graceful shutdown, and the peer does not react: the timer runs out. -/
theorem C30_fair_demo : ∃ m, 3 ≤ m ∧ (play (Lnk.stepE true 2) Lnk.init [.start, .connected, .askGraceful, .runGraceful false, .askGraceful, .tick, .tick, .runForce, .runGraceful false, .onClose] m).1.status = .broken := by
  obtain ⟨m, h1, h2, _⟩ := C30_no_starvation (client := true) (N := 2) (by omega) (by omega) (as := [])
    (s := fun n => (play (Lnk.stepE true 2) Lnk.init [.start, .connected, .askGraceful, .runGraceful false, .askGraceful, .tick, .tick, .runForce, .runGraceful false, .onClose] n).1)
    (.nil _) (by simp) (play_exec _ _ (by decide +kernel)) (fun n h => absurd (List.mem_of_getElem? h) (by decide))
    (play_fair _ _ _ (by intro x hx; cases x <;> simp [LkAct.drives] at hx <;> decide +kernel))
    (play_fair _ _ _ (by intro x hx; cases x <;> simp [LkAct.isGraceful] at hx; rename_i b; cases b <;> decide +kernel))
    (play_fair _ _ _ (by intro x hx; cases x <;> simp at hx <;> decide +kernel))
    (play_fair _ _ _ (by intro x hx; cases x <;> simp at hx <;> decide +kernel))
    (n := 3) (by decide +kernel)
  exact ⟨m, h1, h2⟩

end StAsio
