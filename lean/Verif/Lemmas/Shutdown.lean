import Verif.Spec.Shutdown
set_option autoImplicit false
namespace StAsio

/-- `N` is positive (config.h:1185) and fits into size_t. -/
structure Lnk.Inv (client : Bool) (N : Nat) (s : Lnk) : Prop where
  up : s.status = .connected ∨ s.status = .gracefulDown → s.started = true ∧ s.closing = false ∧ s.connecting = false
  ex : s.started = true → s.closing = false
  conn : s.connecting = true → s.status = .broken ∧ (s.started = true ∨ s.closing = true)
  fd : s.status = .forceDown → s.started = false ∧ s.closing = true
  server : client = false → s.connecting = false ∧ (s.started = true → s.status ≠ .broken)
  grace : s.status = .gracefulDown → (∃ n, s.atimer = some n ∧ 1 ≤ n ∧ n ≤ N) ∨ 0 < s.force
  timer : ∀ n, s.atimer = some n → s.status = .gracefulDown ∧ 1 ≤ n ∧ n ≤ N

theorem Lnk.step_inv {client : Bool} {N : Nat} (hN : 1 ≤ N) (hN' : N < 2 ^ 64) {s s' : Lnk} {a : LkAct} (h : s.Inv client N) (ha : a ≠ .lateConnected) (hs : s.step client N a = some s') :
    s'.Inv client N ∧ s.status.Moves s'.status := by
  have h1 := h.up; have h2 := h.ex; have h3 := h.conn; have h4 := h.fd; have h5 := h.server; have h6 := h.grace; have h7 := h.timer
  have h8 : s.status = .connected ∨ s.status = .forceDown ∨ s.status = .gracefulDown ∨ s.status = .broken := by cases s.status <;> simp
  cases a with
  | tick =>
    simp only [Lnk.step] at hs
    cases hat : s.atimer with
    | none => simp [hat] at hs
    | some n =>
      simp only [hat, Option.some.injEq, Lnk.tick] at hs
      have := h7 n hat
      have e : (n + 2 ^ 64 - 1) % 2 ^ 64 = n - 1 := by omega
      rw [e] at hs
      refine ⟨⟨?_, ?_, ?_, ?_, ?_, ?_, ?_⟩, ?_⟩
      all_goals grind [Link.Moves]
  | _ =>
    simp only [Lnk.step, Lnk.forceShutdown, Lnk.gracefulShutdown, Lnk.shutdown, Lnk.close] at hs
    refine ⟨⟨?_, ?_, ?_, ?_, ?_, ?_, ?_⟩, ?_⟩
    all_goals grind (splits := 14) [Link.Moves]

theorem Lnk.init_inv (client : Bool) (N : Nat) : Lnk.init.Inv client N :=
  ⟨by simp [Lnk.init], by simp [Lnk.init], by simp [Lnk.init], by simp [Lnk.init], by simp [Lnk.init], by simp [Lnk.init], by simp [Lnk.init]⟩

theorem Lnk.run_inv {client : Bool} {N : Nat} (hN : 1 ≤ N) (hN' : N < 2 ^ 64) {s0 s : Lnk} {as : List LkAct} (h0 : s0.Inv client N) (ha : ∀ a ∈ as, a ≠ .lateConnected)
    (hr : Lnk.Run client N s0 as s) : s.Inv client N := by
  induction hr with
  | nil => exact h0
  | snoc s1 s2 as a hr hs ih => exact (Lnk.step_inv hN hN' (ih (fun x hx => ha x (by simp [hx]))) (ha a (by simp)) hs).1

theorem Lnk.run_trans {client : Bool} {N : Nat} {s s1 s2 : Lnk} {as bs : List LkAct} (h1 : Lnk.Run client N s as s1) (h2 : Lnk.Run client N s1 bs s2) : Lnk.Run client N s (as ++ bs) s2 := by
  induction h2 with
  | nil => simpa using h1
  | snoc s2 s3 bs a _ hs ih =>
    rw [← List.append_assoc]
    exact Lnk.Run.snoc _ _ _ _ _ ih hs

theorem Lnk.run_one {client : Bool} {N : Nat} {s s1 : Lnk} {a : LkAct} (h : s.step client N a = some s1) : Lnk.Run client N s [a] s1 :=
  Lnk.Run.snoc _ _ _ [] _ (Lnk.Run.nil s) h

theorem Lnk.exec_run {client : Bool} {N : Nat} {s s' : Lnk} {as : List LkAct} (h : Lnk.exec client N s as = some s') : Lnk.Run client N s as s' := by
  induction as generalizing s with
  | nil => simp [Lnk.exec] at h; subst h; exact Lnk.Run.nil _
  | cons a as ih =>
    simp only [Lnk.exec, Option.bind_eq_bind] at h
    rw [Option.bind_eq_some_iff] at h
    obtain ⟨s1, h1, h2⟩ := h
    exact Lnk.run_trans (Lnk.run_one h1) (ih h2)

/-- `k` ticks after the graceful shutdown began. -/
def Lnk.Grace (N k : Nat) (s : Lnk) : Prop := s.status = .gracefulDown ∧ ((k < N ∧ s.atimer = some (N - k)) ∨ (k = N ∧ s.atimer = none ∧ 0 < s.force))

theorem Lnk.step_grace {client : Bool} {N k : Nat} (hN' : N < 2 ^ 64) {s s' : Lnk} {a : LkAct} (hi : s.Inv client N) (h : s.Grace N k) (hs : s.step client N a = some s') (hg : s'.status = .gracefulDown) :
    s'.Grace N (if a = .tick then k + 1 else k) := by
  have h1 := hi.up (Or.inr h.1)
  cases a with
  | tick =>
    simp only [Lnk.step] at hs
    rcases h with ⟨h0, ⟨hk, hat⟩ | ⟨hk, hat, hf⟩⟩
    · simp only [hat, Option.some.injEq, Lnk.tick, h0, if_true] at hs
      have e : (N - k + 2 ^ 64 - 1) % 2 ^ 64 = N - (k + 1) := by omega
      rw [e] at hs
      simp only [if_true]
      by_cases hz : 0 < N - (k + 1)
      · rw [if_pos hz] at hs; subst hs
        exact ⟨rfl, Or.inl ⟨by omega, rfl⟩⟩
      · rw [if_neg hz] at hs; subst hs
        exact ⟨rfl, Or.inr ⟨by omega, rfl, by simp⟩⟩
    · simp [hat] at hs
  | _ =>
    simp only [Lnk.step, Lnk.forceShutdown, Lnk.gracefulShutdown, Lnk.shutdown, Lnk.close] at hs
    unfold Lnk.Grace at h ⊢
    grind

end StAsio
