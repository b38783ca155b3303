import Verif.Props.C29_Lifecycle
import Verif.Lemmas.Fair
/-!
# C29: on_close is not put off for ever
-/
set_option autoImplicit false
namespace StAsio

/-- The end of close() and the closing timer. -/
def LAct.closing : LAct → Bool
  | .closeEnd => true
  | .dcExpire => true
  | .dcCheck => true
  | .dcOnClose => true
  | _ => false

/-- An asynchronous call begins. -/
def LAct.begins : LAct → Bool
  | .spawn => true
  | .extern => true
  | _ => false

private theorem closing_run {es : List LEv} {p : LPhase} (h : LPhase.closing.run es = some p) (hp : p ≠ .closing) : ∃ n, LEv.onClose n ∈ es := by
  induction es with
  | nil => simp only [LPhase.run, Option.some.injEq] at h; exact absurd h.symm hp
  | cons e es ih =>
    cases e with
    | onClose n => exact ⟨n, List.mem_cons_self⟩
    | closeFalse =>
      obtain ⟨n, hn⟩ := ih (by simpa [LPhase.run, LPhase.step] using h)
      exact ⟨n, List.mem_cons_of_mem _ hn⟩
    | obsoleted =>
      obtain ⟨n, hn⟩ := ih (by simpa [LPhase.run, LPhase.step] using h)
      exact ⟨n, List.mem_cons_of_mem _ hn⟩
    | _ => simp [LPhase.run, LPhase.step] at h

private def Life.togo (s : Life) : Nat :=
  if s.lock = .closer2 then 4 else match s.dc with
    | .armed => 3
    | .due => 2
    | .checked => 1
    | _ => 0

private theorem togo_pos {s : Life} (h : s.phase = .closing) : 0 < s.togo := by
  revert h
  obtain ⟨started, lock, chk, spin, dc, fin, refs, obsoleted, stopped, calling⟩ := s
  cases started <;> cases lock <;> cases dc <;> simp [Life.phase, Life.togo]

private theorem refs_step {tr : Bool} {s s' : Life} {a : LAct} {es : List LEv} (ha : a.begins = false) (hs : s.step tr a = some (s', es)) : s'.refs ≤ s.refs ∧ (a = .finish → s'.refs < s.refs) := by
  cases a <;> simp only [LAct.begins, Bool.true_eq_false, reduceCtorEq, false_implies, and_true, forall_const] at ha ⊢ <;> simp only [Life.step, Life.tryStart] at hs <;> grind

private theorem togo_step {tr : Bool} {s s' : Life} {a : LAct} {es : List LEv} (hi : s.Inv) (hp : s.phase = .closing) (hp' : s'.phase = .closing) (hr : s.refs = 0) (hst : s.stopped = false) (ha : a ≠ .startCheck)
    (hs : s.step tr a = some (s', es)) : s'.togo ≤ s.togo ∧ (a.closing = true → s'.togo < s.togo) := by
  have h1 := hi.chk; have h2 := hi.st_dc; have h3 := hi.starter; have h4 := hi.c1; have h5 := hi.c2
  cases a <;> simp only [LAct.closing, Bool.false_eq_true, false_implies, and_true, forall_const] <;> simp only [Life.step, Life.tryStart, Life.isClosing] at hs <;>
    grind [Life.phase, Life.togo]

/-- **C29** (no starvation): a close() that succeeded is followed by on_close in every infinite execution, whatever else is done to the socket for ever (start, close, pending calls that end), if the service keeps running, only finitely many asynchronous calls
begin, each of them ends, and the end of close() and the closing timer are not put off for ever. -/
theorem C29_no_starvation {tracked : Bool} {s : Nat → Life} {a : Nat → Option LAct} {e : Nat → List LEv} {as : List LAct} {es0 : List LEv} (hr : Life.Run tracked Life.init as (s 0) es0) (ha : ∀ x ∈ as, x ≠ .startCheck)
    (he : Exec (Life.step tracked) s a e) (ha' : ∀ n, a n ≠ some .startCheck ∧ a n ≠ some .pumpStop) (h0 : (s 0).stopped = false)
    (hf : Fair (Life.step tracked) s a LAct.closing) (hf' : Fair (Life.step tracked) s a (· == .finish)) {N : Nat} (hN : ∀ n x, N ≤ n → a n = some x → x.begins = false)
    {n : Nat} (hcl : LPhase.down.run (es0 ++ e n) = some .closing) : ∃ m es k, n ≤ m ∧ e m = e n ++ es ∧ LEv.onClose k ∈ es := by
  have hst : ∀ n x, 0 ≤ n → a n = some x → x ≠ .startCheck ∧ x ≠ .pumpStop := fun n x _ hx => ⟨fun hc => (ha' n).1 (hc ▸ hx), fun hc => (ha' n).2 (hc ▸ hx)⟩
  have hI : ∀ n, (s n).Inv ∧ (s n).stopped = false ∧ LPhase.down.run (es0 ++ e n) = some (s n).phase := by
    have hinit := Life.run_inv Life.init_inv ha hr
    have hphase : Life.init.phase = .down := rfl
    apply he.holds (fun t es => t.Inv ∧ t.stopped = false ∧ LPhase.down.run (es0 ++ es) = some t.phase)
    · rw [List.append_nil]; exact ⟨hinit.1, h0, hphase ▸ hinit.2⟩
    · intro n x fs hx ⟨i1, i2, i3⟩ hs
      have hok := hst n x (Nat.zero_le _) hx
      have h1 := Life.step_inv i1 hok.1 hs
      refine ⟨h1.1, ?_, ?_⟩
      · have h2 := hok.2
        revert hs h2 i2
        generalize s n = t
        generalize s (n + 1) = t'
        intro i2 hs h2
        cases x <;> simp only [Life.step, Life.tryStart] at hs <;> grind
      · rw [← List.append_assoc, LPhase.run_append, i3]; exact h1.2
  have hph : (s n).phase = .closing := by
    have := (hI n).2.2
    rw [hcl] at this
    exact (Option.some.inj this).symm
  apply Classical.byContradiction
  intro hno
  have hall : ∀ m, n ≤ m → (s m).phase = .closing := by
    intro m hm
    obtain ⟨es, hes⟩ := he.grow_le hm
    apply Classical.byContradiction
    intro hne
    have h1 := (hI m).2.2
    rw [hes, ← List.append_assoc, LPhase.run_append, hcl] at h1
    obtain ⟨k, hk⟩ := closing_run h1 hne
    exact hno ⟨m, es, k, hm, hes, hk⟩
  obtain ⟨N1, hN1, hz⟩ := he.drains (ok := fun _ x => x.begins = false) (n0 := max n N) (fun n x hn hx => hN n x (by omega) hx) (I := fun _ => True) (fun _ _ => trivial) hf' Life.refs
    (fun t t' x es _ _ hb hs => (refs_step hb hs).1)
    (fun t t' x es _ _ _ hb hc hs => (refs_step hb hs).2 (by simpa using hc))
    (fun t _ hp => ⟨.finish, rfl, by simp [Life.step, hp]⟩)
  obtain ⟨N2, hN2, hz2⟩ := he.drains (ok := fun _ x => x ≠ .startCheck) (n0 := N1) (fun n x _ hx => (hst n x (Nat.zero_le _) hx).1)
    (I := fun t => t.Inv ∧ t.phase = .closing ∧ t.refs = 0 ∧ t.stopped = false) (fun m hm => ⟨(hI m).1, hall m (by omega), hz m hm, (hI m).2.1⟩) hf Life.togo
    (fun t t' x es h1 h2 hb hs => (togo_step h1.1 h1.2.1 h2.2.1 h1.2.2.1 h1.2.2.2 hb hs).1)
    (fun t t' x es h1 h2 _ hb hc hs => (togo_step h1.1 h1.2.1 h2.2.1 h1.2.2.1 h1.2.2.2 hb hs).2 hc)
    (fun t h1 _ => by
      obtain ⟨hi, hp, hrf, hsp⟩ := h1
      obtain ⟨started, lock, chk, spin, dc, fin, refs, obsoleted, stopped, calling⟩ := t
      simp only at hrf hsp
      subst hrf; subst hsp
      by_cases hl : lock = .closer2
      · refine ⟨.closeEnd, rfl, ?_⟩
        subst hl
        have := (hi.c2 rfl).2
        simp only at this
        subst this
        simp [Life.step]
      · cases dc with
        | armed => exact ⟨.dcExpire, rfl, by simp [Life.step]⟩
        | due => exact ⟨.dcCheck, rfl, by simp [Life.step]⟩
        | checked => exact ⟨.dcOnClose, rfl, by simp [Life.step]⟩
        | _ => exfalso; revert hp; cases started <;> simp [Life.phase, hl])
  have := togo_pos (hall N2 (by omega))
  rw [hz2 N2 (Nat.le_refl _)] at this
  omega

/-- Not vacuous: a call is pending when the socket is closed; the closing timer finds it first, then it ends. -/
theorem C29_fair_demo : ∃ m es k, 5 ≤ m ∧ (play (Life.step true) Life.init [.start, .spawn, .startEnd true, .closeCall, .closeLock, .closeClear, .closeEnd, .dcExpire, .dcCheck, .finish, .start, .closeCall, .closeLock, .dcExpire, .dcCheck, .dcOnClose] m).2 =
      (play (Life.step true) Life.init [.start, .spawn, .startEnd true, .closeCall, .closeLock, .closeClear, .closeEnd, .dcExpire, .dcCheck, .finish, .start, .closeCall, .closeLock, .dcExpire, .dcCheck, .dcOnClose] 6).2 ++ es ∧ LEv.onClose k ∈ es := by
  obtain ⟨m, es, k, h1, h2, h3⟩ := C29_no_starvation (tracked := true) (as := []) (es0 := [])
    (s := fun n => (play (Life.step true) Life.init [.start, .spawn, .startEnd true, .closeCall, .closeLock, .closeClear, .closeEnd, .dcExpire, .dcCheck, .finish, .start, .closeCall, .closeLock, .dcExpire, .dcCheck, .dcOnClose] n).1)
    (.nil _) (by simp) (play_exec _ _ (by decide +kernel))
    (fun n => by
      constructor <;> intro h <;> exact absurd (List.mem_of_getElem? h) (by decide))
    rfl
    (play_fair _ _ _ (by intro x hx; cases x <;> simp [LAct.closing] at hx <;> decide +kernel))
    (play_fair _ _ _ (by intro x hx; cases x <;> simp at hx <;> decide +kernel))
    (N := 16) (fun n x hn hx => by rw [List.getElem?_eq_none (by simpa using hn)] at hx; cases hx) (n := 6) (by decide +kernel)
  exact ⟨m, es, k, by omega, h2, h3⟩

end StAsio
