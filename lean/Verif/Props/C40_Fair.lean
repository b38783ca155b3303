import Verif.Lemmas.Fair
import Verif.Props.C40_Reconnect

/-!
# C40 for ever: a client that reconnects never stops trying

Infinite executions: nobody bounds the number of failures, of lost connections or of anything else.
-/

set_option autoImplicit false

namespace StAsio

/-- What the client and the service do by themselves, without the connection breaking. -/
def CliAct.own (x : CliAct) : Bool := x.internal && x != .lost

section
variable {s : Nat → Cli} {a : Nat → Option CliAct} {e : Nat → List CliEv}

theorem attempts_prefix {e : Nat → List CliEv} (he : Exec Cli.step s a e) {n m : Nat} (h : n ≤ m) : attempts (e n) ≤ attempts (e m) := by
  obtain ⟨es, h1⟩ := he.grow_le h
  rw [h1, attempts_append]
  omega

theorem Cli.going_own {t : Cli} {c : CliSt} (h : t.Going c) (hl : t.op ≠ .link) : ∃ x, x.own = true ∧ (t.step x).isSome = true := by
  obtain ⟨x, t', fs, h1, h2⟩ := Cli.going_enabled h hl
  refine ⟨x, ?_, by rw [h2]; rfl⟩
  simp only [CliAct.own, h1, Bool.true_and, bne_iff_ne]
  intro hx
  subst hx
  simp only [Cli.step] at h2
  split at h2
  · rename_i h3; exact hl (by grind)
  · cases h2

theorem Cli.going_for_ever (he : Exec Cli.step s a e) {c : CliSt} (h0 : (s 0).Going c) (hi : ∀ n x, a n = some x → x.internal = true) : ∀ n, ∃ c, (s n).Going c :=
  he.holds (fun t _ => ∃ c, t.Going c) ⟨c, h0⟩ (fun n x _ hx ⟨_, h⟩ hs => (Cli.going_step h (hi n x hx) hs).1)

theorem CliOp.noTimer_or (o : CliOp) : o.noTimer = o ∨ o.noTimer = .none := by cases o <;> simp [CliOp.noTimer]

theorem Cli.connected_link {t t' : Cli} {x : CliAct} {fs : List CliEv} (hs : t.step x = some (t', fs)) (h : .connected ∈ fs) : t'.op = .link := by
  have hnt := CliOp.noTimer_or t.op
  cases x <;> simp only [Cli.step, Cli.start, Cli.forceShutdown, Cli.gracefulShutdown, Cli.shutdown, Cli.close] at hs <;> grind

theorem Cli.unlinked_step {t t' : Cli} {x : CliAct} {fs : List CliEv} (hs : t.step x = some (t', fs)) (h : t.op ≠ .link) (hx : x ≠ .connectDone true) : t'.op ≠ .link := by
  have hnt := CliOp.noTimer_or t.op
  cases x <;> simp only [Cli.step, Cli.start, Cli.forceShutdown, Cli.gracefulShutdown, Cli.shutdown, Cli.close] at hs <;> grind

/-- A connection, or the wait for one, begins with an attempt. -/
theorem Cli.quiet_step {t t' : Cli} {x : CliAct} {fs : List CliEv} (hs : t.step x = some (t', fs)) (h : t.op ≠ .link ∧ t.op ≠ .connecting) (ha : attempts fs = 0) : t'.op ≠ .link ∧ t'.op ≠ .connecting := by
  have hnt := CliOp.noTimer_or t.op
  cases x <;> simp only [Cli.step, Cli.start, Cli.forceShutdown, Cli.gracefulShutdown, Cli.shutdown, Cli.close] at hs <;> grind [attempts]

/-- From every moment on, another attempt or a connection follows. -/
theorem Cli.tries (he : Exec Cli.step s a e) (hg : ∀ n, ∃ c, (s n).Going c) (hi : ∀ n x, a n = some x → x.internal = true) (hf : Fair Cli.step s a CliAct.own) (n : Nat) :
    ∃ m, n ≤ m ∧ ((s m).op = .link ∨ attempts (e n) < attempts (e m)) := by
  generalize hr : (s n).rank = r
  induction r using Nat.strongRecOn generalizing n with
  | _ r ih =>
    apply Classical.byContradiction
    intro hno
    have hno : ∀ m, n ≤ m → (s m).op ≠ .link ∧ attempts (e m) = attempts (e n) := by
      intro m hm
      have := attempts_prefix he hm
      refine ⟨fun h => hno ⟨m, hm, .inl h⟩, ?_⟩
      by_cases h : attempts (e n) < attempts (e m)
      · exact absurd ⟨m, hm, .inr h⟩ hno
      · omega
    obtain ⟨m, hm, x, hx, ha⟩ := hf (fun k => by
      obtain ⟨c, hc⟩ := hg (max k n)
      exact ⟨max k n, by omega, Cli.going_own hc (hno _ (by omega)).1⟩) n
    -- the rank does not grow up to `m`, and gets smaller there
    have hle : ∀ k, (s (n + k)).rank ≤ r ∧ ∀ x, a (n + k) = some x → (s (n + k + 1)).rank < (s (n + k)).rank := by
      have hdec : ∀ k x, a (n + k) = some x → (s (n + k + 1)).rank < (s (n + k)).rank := by
        intro k x hx
        obtain ⟨c, hc⟩ := hg (n + k)
        obtain ⟨fs, h1, h2⟩ := he.next _ x hx
        rcases (Cli.going_step hc (hi _ x hx) h1).2 with h | h | h
        · have h3 := (hno (n + k) (by omega)).2
          have h4 := (hno (n + k + 1) (by omega)).2
          rw [h2, attempts_append] at h4
          omega
        · exfalso
          refine (hno (n + k + 1) (by omega)).1 ?_
          exact Cli.connected_link h1 h
        · exact h
      intro k
      refine ⟨?_, hdec k⟩
      induction k with
      | zero => exact Nat.le_of_eq hr
      | succ k ih =>
        cases hk : a (n + k) with
        | none => rw [← Nat.add_assoc, (he.idle _ hk).1]; exact ih
        | some x => have := hdec k x hk; rw [← Nat.add_assoc]; omega
    obtain ⟨k, rfl⟩ := Nat.exists_eq_add_of_le hm
    have h1 := hle k
    have h2 := h1.2 x ha
    obtain ⟨m', h3, h4⟩ := ih (s (n + k + 1)).rank (by omega) (n + k + 1) rfl
    have h5 := hno m' (by omega)
    have h6 := hno (n + k + 1) (by omega)
    rcases h4 with h4 | h4
    · exact h5.1 h4
    · omega

/-- Without an attempt there is no connection. -/
theorem Cli.tries_first (he : Exec Cli.step s a e) {n m : Nat} (hm : n ≤ m) (h : (s n).op ≠ .link ∧ (s n).op ≠ .connecting) (hq : attempts (e m) = attempts (e n)) : (s m).op ≠ .link ∧ (s m).op ≠ .connecting := by
  obtain ⟨k, rfl⟩ := Nat.exists_eq_add_of_le hm
  clear hm
  induction k with
  | zero => exact h
  | succ k ih =>
    have h1 := attempts_prefix he (show n ≤ n + k by omega)
    have h2 := attempts_prefix he (show n + k ≤ n + (k + 1) by omega)
    have h3 := ih (by omega)
    rw [← Nat.add_assoc] at hq ⊢
    cases ha : a (n + k) with
    | none => rw [(he.idle _ ha).1]; exact h3
    | some x =>
      obtain ⟨fs, h4, h5⟩ := he.next _ x ha
      refine Cli.quiet_step h4 h3 ?_
      rw [h5, attempts_append] at hq
      omega

/-- **C40** (for ever): a client that has been started, has reconnecting enabled and is then left to itself never stops trying. Whatever happens for ever - refused or broken connections, slow answers, posted shutdown requests still to be carried out - at every
moment it is connected, or an attempt is under way, or another attempt will be made. Assumes that nothing the client or the service can do is put off for ever, that bind() succeeds, that prepare_reconnect does not give up, and (for the history before) that
reconnecting was not enabled by set_reconnect(true) on a client already at rest. -/
theorem C40_for_ever_partial {need : Bool} {as : List CliAct} {es0 : List CliEv} (hr : Cli.Run (Cli.init need) as (s 0) es0) (hb : ∀ x ∈ as, x.bindOk = true ∧ x ≠ .setReconnectIdle) (hw : .started ∈ es0)
    (hn : (s 0).need = true) (hst : (s 0).stopped = false) (he : Exec Cli.step s a e) (hi : ∀ n x, a n = some x → x.internal = true) (hf : Fair Cli.step s a CliAct.own) (n : Nat) :
    (s n).op = .link ∨ (s n).op = .connecting ∨ ∃ m, n ≤ m ∧ attempts (e n) < attempts (e m) := by
  have hu := Cli.busy_run hr hb
  obtain ⟨c, _, hv⟩ := Cli.inv_run hr
  have hg := Cli.going_for_ever he ⟨hv, hn, hst, hu.once hst hw hn, hu.pend⟩ hi
  by_cases h : (s n).op ≠ .link ∧ (s n).op ≠ .connecting
  · obtain ⟨m, hm, h1⟩ := Cli.tries he hg hi hf n
    right; right
    refine ⟨m, hm, ?_⟩
    rcases h1 with h1 | h1
    · by_cases h2 : attempts (e m) = attempts (e n)
      · exact absurd h1 (Cli.tries_first he hm h h2).1
      · have := attempts_prefix he hm
        omega
    · exact h1
  · grind

/-- **C40** (for ever, unreachable server): while the server refuses every attempt, the number of attempts grows beyond every bound. -/
theorem C40_retries_partial {need : Bool} {as : List CliAct} {es0 : List CliEv} (hr : Cli.Run (Cli.init need) as (s 0) es0) (hb : ∀ x ∈ as, x.bindOk = true ∧ x ≠ .setReconnectIdle) (hw : .started ∈ es0)
    (hn : (s 0).need = true) (hst : (s 0).stopped = false) (h0 : (s 0).op ≠ .link) (he : Exec Cli.step s a e) (hi : ∀ n x, a n = some x → x.internal = true) (hf : Fair Cli.step s a CliAct.own)
    (hno : ∀ n, a n ≠ some (.connectDone true)) (k : Nat) : ∃ n, k ≤ attempts (e n) := by
  have hu := Cli.busy_run hr hb
  obtain ⟨c, _, hv⟩ := Cli.inv_run hr
  have hg := Cli.going_for_ever he ⟨hv, hn, hst, hu.once hst hw hn, hu.pend⟩ hi
  have hl : ∀ n, (s n).op ≠ .link := he.holds (fun t _ => t.op ≠ .link) h0 (fun n x fs hx h hs => by
    have hx1 : x ≠ .connectDone true := fun h => hno n (h ▸ hx)
    exact Cli.unlinked_step hs h hx1)
  obtain ⟨n, _, h⟩ := reaches (f := fun n => attempts (e n)) (t := k) (fun n _ => by
    obtain ⟨m, hm, h⟩ := Cli.tries he hg hi hf n
    rcases h with h | h
    · exact absurd h (hl m)
    · exact ⟨m, hm, h⟩) 0
  exact ⟨n, h⟩

end

/-! ### such executions exist -/

/-- A server that is never there. -/
def cliRefused : List CliAct := [.fireConnect true, .connectDone false, .fireDelay 500]

def cliRefusedState (r : Nat) : Cli := match Cli.exec (Cli.init true) (.userStart true :: cliRefused ++ cliRefused.take r) with
  | some (t, _) => t
  | none => Cli.init true

def cliRefusedEvents (r : Nat) : List CliEv := match cliRefused[r]? with
  | some x => match (cliRefusedState r).step x with
    | some (_, es) => es
    | none => []
  | none => []

def cliRefusedTrace : Nat → List CliEv
  | 0 => []
  | n + 1 => cliRefusedTrace n ++ cliRefusedEvents (n % 3)

theorem cliRefused_step (r : Nat) (hr : r < 3) : ∃ x, cliRefused[r]? = some x ∧ x.internal = true ∧ x ≠ .connectDone true ∧ (cliRefusedState r).step x = some (cliRefusedState ((r + 1) % 3), cliRefusedEvents r) := by
  match r, hr with
  | 0, _ => exact ⟨_, rfl, rfl, by decide, by decide⟩
  | 1, _ => exact ⟨_, rfl, rfl, by decide, by decide⟩
  | 2, _ => exact ⟨_, rfl, rfl, by decide, by decide⟩

/-- The premises of `C40_for_ever_partial` and `C40_retries_partial` are met by a client whose server is never there; it makes a million attempts. -/
theorem C40_fair_exists : ∃ (s : Nat → Cli) (a : Nat → Option CliAct) (e : Nat → List CliEv) (as : List CliAct) (es0 : List CliEv), Cli.Run (Cli.init true) as (s 0) es0 ∧ (∀ x ∈ as, x.bindOk = true ∧ x ≠ .setReconnectIdle) ∧ .started ∈ es0 ∧
    (s 0).need = true ∧ (s 0).stopped = false ∧ (s 0).op ≠ .link ∧ Exec Cli.step s a e ∧ (∀ n x, a n = some x → x.internal = true) ∧ Fair Cli.step s a CliAct.own ∧ (∀ n, a n ≠ some (.connectDone true)) ∧ ∃ n, 1000000 ≤ attempts (e n) := by
  let s : Nat → Cli := fun n => cliRefusedState (n % 3)
  let a : Nat → Option CliAct := fun n => cliRefused[n % 3]?
  have hr : Cli.Run (Cli.init true) (.userStart true :: cliRefused) (s 0) [.started, .attempt 50, .failed, .asked 500] := Cli.exec_run rfl
  have hex : Exec Cli.step s a cliRefusedTrace := by
    refine ⟨rfl, fun n hn => ?_, fun n x hx => ?_⟩
    · obtain ⟨x, hx, _⟩ := cliRefused_step (n % 3) (Nat.mod_lt _ (by decide))
      exact absurd (hx.symm.trans hn) (by simp)
    · obtain ⟨y, hy, _, _, hs⟩ := cliRefused_step (n % 3) (Nat.mod_lt _ (by decide))
      have : x = y := Option.some.inj (hx.symm.trans hy)
      subst this
      refine ⟨_, ?_, rfl⟩
      show (cliRefusedState (n % 3)).step x = some (cliRefusedState ((n + 1) % 3), _)
      rw [hs, show (n + 1) % 3 = (n % 3 + 1) % 3 by omega]
  have hi : ∀ n x, a n = some x → x.internal = true := by
    intro n x hx
    obtain ⟨y, hy, h1, _⟩ := cliRefused_step (n % 3) (Nat.mod_lt _ (by decide))
    rw [Option.some.inj (hx.symm.trans hy)]
    exact h1
  have hno : ∀ n, a n ≠ some (.connectDone true) := by
    intro n hx
    obtain ⟨y, hy, _, h1, _⟩ := cliRefused_step (n % 3) (Nat.mod_lt _ (by decide))
    exact h1 (Option.some.inj (hx.symm.trans hy)).symm
  have hf : Fair Cli.step s a CliAct.own := fair_periodic 3 0 (.fireConnect true) (by decide) rfl (fun k => by
    show cliRefused[(3 * k + 0) % 3]? = _
    rw [show (3 * k + 0) % 3 = 0 by omega]
    rfl)
  have hb : ∀ x ∈ CliAct.userStart true :: cliRefused, x.bindOk = true ∧ x ≠ .setReconnectIdle := by decide
  refine ⟨s, a, cliRefusedTrace, _, _, hr, hb, by decide, rfl, rfl, by decide, hex, hi, hf, hno, ?_⟩
  exact C40_retries_partial hr hb (by decide) rfl rfl (by decide) hex hi hf hno 1000000

end StAsio
