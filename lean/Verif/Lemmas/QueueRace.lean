import Verif.Model.QueueRace
/-!
Invariants of the uses of the two queues.
-/
set_option autoImplicit false
namespace StAsio

theorem Qr.exec_reach {cfg : QrCfg} {s s' : Qr} {as : List QrAct} (h : Qr.Reach cfg s) (he : s.exec cfg as = some s') : Qr.Reach cfg s' := by
  induction as generalizing s with
  | nil => simp only [Qr.exec, Option.some.injEq] at he; exact he ▸ h
  | cons a as ih =>
    simp only [Qr.exec, Option.bind_eq_some_iff] at he
    obtain ⟨t, h1, h2⟩ := he
    exact ih (.step a h h1) h2

theorem QrPc.back_uses (k : Option (Nat × Bool)) : (QrPc.back k).uses = none := by
  cases k <;> rfl

/-- With locks, a thread in a container holds its lock. -/
def Qr.LockInv (cfg : QrCfg) (s : Qr) : Prop :=
  (cfg.lockS = true → ∀ c k, s.use c = some (.send, k) → k ≠ .count → s.heldS = some c) ∧
  (cfg.lockR = true → ∀ c k, s.use c = some (.recv, k) → k ≠ .count → s.heldR = some c)

theorem Qr.lockInv_step {cfg : QrCfg} {s s' : Qr} {a : QrAct} (h : s.LockInv cfg) (hs : s.step cfg a = some s') : s'.LockInv cfg := by
  simp only [Qr.LockInv, Qr.use] at *
  obtain ⟨h1, h2⟩ := h
  have a1 := fun hl => h1 hl .conn .change
  have a2 := fun hl => h1 hl .rw .change
  have a3 := fun hl => h1 hl .dis .change
  have a4 := fun hl i => h1 hl (.app i) .change
  have a5 := fun hl => h1 hl .rw .look
  have b1 := fun hl => h2 hl .rw .change
  have b2 := fun hl => h2 hl .dis .change
  cases a <;> simp only [Qr.step, Qr.lockS, Qr.lockR, Qr.unlockS, Qr.unlockR, Qr.sendMsg, Qr.at_] at hs <;>
    (try split at hs) <;> (try split at hs) <;> (try split at hs) <;> simp only [Option.map_eq_some_iff, Option.some.injEq, reduceCtorEq] at hs <;>
    first
    | done
    | (obtain ⟨t, rfl, rfl⟩ := hs; grind [QrPc.uses, QrPc.back_uses])
    | (subst hs; grind [QrPc.uses, QrPc.back_uses])
    | grind [QrPc.uses, QrPc.back_uses]

theorem Qr.lockInv {cfg : QrCfg} {s : Qr} (h : Qr.Reach cfg s) : s.LockInv cfg := by
  induction h with
  | init => exact ⟨fun _ c k hk _ => by simp [Qr.use, Qr.init, QrPc.uses] at hk, fun _ c k hk _ => by simp [Qr.use, Qr.init, QrPc.uses] at hk⟩
  | step a _ hs ih => exact Qr.lockInv_step ih hs

/-- Nothing of a link is left. -/
def Qr.quiet (s : Qr) : Prop :=
  s.pc .rw = .idle ∧ s.pc .timer = .idle ∧ s.rwPend = 0 ∧ s.reading = false ∧ s.writing = false ∧ s.checkTm = false

/-- Where the threads may be if on_connect sends one message at most, and on_msg_handle and other threads none. -/
structure Qr.SendInv (cfg : QrCfg) (s : Qr) : Prop where
  app : ∀ i, s.pc (.app i) = .idle ∨ (cfg.status = true ∧ (s.pc (.app i) = .countS ∨ s.pc (.app i) = .count))
  dis : s.pc .dis = .idle ∨ s.pc .dis = .toDeq ∨ s.pc .dis = .deq ∨ ∃ l, s.pc .dis = .user 0 l
  timer : s.pc .timer = .idle ∨ s.pc .timer = .count
  rw : s.pc .rw ≠ .countS
  conn : s.pc .conn = .idle ∨ (s.opened = true ∧ ∃ l, s.pc .conn = .user 0 l) ∨ (s.opened = true ∧ s.quiet ∧ ∃ l, s.pc .conn = .user 1 l ∨ s.pc .conn = .enq 0 l)
  fresh : s.opened = false → s.quiet

theorem QrPc.back_cases (k : Option (Nat × Bool)) : QrPc.back k ≠ .countS := by
  cases k <;> simp [QrPc.back]

theorem Qr.sendInv_step {cfg : QrCfg} {s s' : Qr} {a : QrAct} (hg : cfg.greet ≤ 1) (ha : cfg.app = false) (hr : cfg.replies = false ∨ (s.pc .dis = .idle ∧ s.disPend = 0)) (h : s.SendInv cfg) (hs : s.step cfg a = some s') : s'.SendInv cfg := by
  obtain ⟨h1, h2, h3, h4, h5, h6⟩ := h
  simp only [Qr.quiet] at h5 h6
  cases a
  case connect n =>
    simp only [Qr.step, Qr.at_] at hs
    split at hs
    · simp only [Option.some.injEq] at hs
      subst hs
      have hn : n = 0 ∨ n = 1 := by omega
      rcases hn with rfl | rfl <;> constructor <;> grind [Qr.quiet]
    · cases hs
  case disDone =>
    simp only [Qr.step, Qr.at_] at hs
    split at hs
    · simp only [Option.some.injEq] at hs
      subst hs
      constructor <;> grind [Qr.quiet]
    · simp only [Option.some.injEq] at hs
      subst hs
      constructor <;> grind [Qr.quiet]
    · cases hs
  all_goals
    simp only [Qr.step, Qr.lockS, Qr.lockR, Qr.unlockS, Qr.unlockR, Qr.sendMsg, Qr.at_] at hs
    constructor <;> grind [QrPc.back_cases, Qr.quiet, Option.map_eq_some_iff]

/-- What is to be done still when the callback goes on does not include leaving messages. -/
def QrPc.tidy : QrPc → Bool
  | .user _ l => !l
  | .enq _ l => !l
  | .toOut k => k.all (fun p => !p.2)
  | .out k => k.all (fun p => !p.2)
  | .toEmpty k => k.all (fun p => !p.2)
  | .empty k => k.all (fun p => !p.2)
  | .into => false
  | .deq => false
  | .toDeq => false
  | _ => true

theorem QrPc.back_tidy (k : Option (Nat × Bool)) : (QrPc.back k).tidy = k.all (fun p => !p.2) := by
  cases k <;> rfl

theorem QrPc.tidy_recv (p : QrPc) (h : p.tidy = true) : p.uses ≠ some (.recv, .change) := by
  cases p <;> simp_all [QrPc.tidy, QrPc.uses]

/-- With ST_ASIO_SYNC_DISPATCH and an on_msg that leaves nothing, nothing is ever dispatched otherwise. -/
def Qr.RecvInv (s : Qr) : Prop :=
  (s.pc .rw).tidy = true ∧ s.pc .dis = .idle ∧ s.disPend = 0 ∧ s.disTm = false ∧ (s.pc .timer).tidy = true ∧ (s.pc .conn).tidy = true ∧ ∀ i, (s.pc (.app i)).tidy = true

theorem Qr.recvInv_step {cfg : QrCfg} {s s' : Qr} {a : QrAct} (hy : cfg.sync = true) (hl : cfg.leaves = false) (h : s.RecvInv) (hs : s.step cfg a = some s') : s'.RecvInv := by
  simp only [Qr.RecvInv] at *
  obtain ⟨h1, h2, h3, h4, h5, h6, h7⟩ := h
  cases a <;> simp only [Qr.step, Qr.lockS, Qr.lockR, Qr.unlockS, Qr.unlockR, Qr.sendMsg, Qr.at_, h2, hy] at hs <;>
    grind [QrPc.tidy, QrPc.back_tidy, Option.map_eq_some_iff]

theorem Qr.recvInv {cfg : QrCfg} {s : Qr} (hy : cfg.sync = true) (hl : cfg.leaves = false) (h : Qr.Reach cfg s) : s.RecvInv := by
  induction h with
  | init => simp [Qr.RecvInv, Qr.init, QrPc.tidy]
  | step a _ hs ih => exact Qr.recvInv_step hy hl ih hs

theorem Qr.sendInv {cfg : QrCfg} {s : Qr} (hg : cfg.greet ≤ 1) (ha : cfg.app = false) (hr : cfg.replies = false ∨ (cfg.sync = true ∧ cfg.leaves = false)) (h : Qr.Reach cfg s) : s.SendInv cfg := by
  induction h with
  | init => constructor <;> simp [Qr.init, Qr.quiet]
  | step a hp hs ih => exact Qr.sendInv_step hg ha (hr.imp id (fun h => ⟨(Qr.recvInv h.1 h.2 hp).2.1, (Qr.recvInv h.1 h.2 hp).2.2.1⟩)) ih hs

/-- Where each thread can be at all. -/
structure Qr.Where (s : Qr) : Prop where
  conn : s.pc .conn = .idle ∨ (∃ n l, s.pc .conn = .user n l) ∨ ∃ n l, s.pc .conn = .enq n l
  rw : s.pc .rw ≠ .countS ∧ s.pc .rw ≠ .deq
  dis : s.pc .dis = .idle ∨ s.pc .dis = .toDeq ∨ s.pc .dis = .deq ∨ (∃ n l, s.pc .dis = .user n l) ∨ ∃ n l, s.pc .dis = .enq n l
  timer : s.pc .timer = .idle ∨ s.pc .timer = .count
  app : ∀ i, s.pc (.app i) = .idle ∨ s.pc (.app i) = .countS ∨ s.pc (.app i) = .count ∨ ∃ n l, s.pc (.app i) = .enq n l

theorem QrPc.back_not (k : Option (Nat × Bool)) : QrPc.back k ≠ .countS ∧ QrPc.back k ≠ .deq := by
  cases k <;> simp [QrPc.back]

theorem Qr.where_step {cfg : QrCfg} {s s' : Qr} {a : QrAct} (h : s.Where) (hs : s.step cfg a = some s') : s'.Where := by
  obtain ⟨h1, h2, h3, h4, h5⟩ := h
  cases a <;> simp only [Qr.step, Qr.lockS, Qr.lockR, Qr.unlockS, Qr.unlockR, Qr.sendMsg, Qr.at_] at hs <;>
    (try split at hs) <;> (try split at hs) <;> (try split at hs) <;> simp only [Option.map_eq_some_iff, Option.some.injEq, reduceCtorEq] at hs <;>
    first
    | done
    | (obtain ⟨t, rfl, rfl⟩ := hs; constructor <;> grind [QrPc.back_not])
    | (subst hs; constructor <;> grind [QrPc.back_not])
    | (constructor <;> grind [QrPc.back_not])

theorem Qr.where_ {cfg : QrCfg} {s : Qr} (h : Qr.Reach cfg s) : s.Where := by
  induction h with
  | init => constructor <;> simp [Qr.init]
  | step a _ hs ih => exact Qr.where_step ih hs

/-- Who holds a lock is in the container. -/
def Qr.HeldInv (s : Qr) : Prop :=
  (∀ c, s.heldS = some c → ∃ k, s.use c = some (.send, k) ∧ k ≠ .count) ∧ (∀ c, s.heldR = some c → ∃ k, s.use c = some (.recv, k) ∧ k ≠ .count)

theorem Qr.heldInv_step {cfg : QrCfg} {s s' : Qr} {a : QrAct} (hl : s.LockInv cfg) (hu : (cfg.lockS = false → s.heldS = none) ∧ (cfg.lockR = false → s.heldR = none)) (h : s.HeldInv)
    (hs : s.step cfg a = some s') : s'.HeldInv := by
  simp only [Qr.LockInv, Qr.HeldInv, Qr.use] at *
  obtain ⟨g1, g2⟩ := hl
  obtain ⟨h1, h2⟩ := h
  have a1 := fun hl => g1 hl .conn .change
  have a2 := fun hl => g1 hl .rw .change
  have a3 := fun hl => g1 hl .dis .change
  have a4 := fun hl i => g1 hl (.app i) .change
  have a5 := fun hl => g1 hl .rw .look
  have b1 := fun hl => g2 hl .rw .change
  have b2 := fun hl => g2 hl .dis .change
  cases a <;> simp only [Qr.step, Qr.lockS, Qr.lockR, Qr.unlockS, Qr.unlockR, Qr.sendMsg, Qr.at_] at hs <;>
    (try split at hs) <;> (try split at hs) <;> (try split at hs) <;> simp only [Option.map_eq_some_iff, Option.some.injEq, reduceCtorEq] at hs <;>
    first
    | done
    | (obtain ⟨t, rfl, rfl⟩ := hs; grind [QrPc.uses, QrPc.back_uses])
    | (subst hs; grind [QrPc.uses, QrPc.back_uses])
    | grind [QrPc.uses, QrPc.back_uses]

theorem Qr.unlocked {cfg : QrCfg} {s : Qr} (h : Qr.Reach cfg s) : (cfg.lockS = false → s.heldS = none) ∧ (cfg.lockR = false → s.heldR = none) := by
  induction h with
  | init => exact ⟨fun _ => rfl, fun _ => rfl⟩
  | step a _ hs ih =>
    cases a <;> simp only [Qr.step, Qr.lockS, Qr.lockR, Qr.unlockS, Qr.unlockR, Qr.sendMsg, Qr.at_] at hs <;>
      (try split at hs) <;> (try split at hs) <;> (try split at hs) <;> simp only [Option.map_eq_some_iff, Option.some.injEq, reduceCtorEq] at hs <;>
      first
      | done
      | (obtain ⟨t, rfl, rfl⟩ := hs; grind)
      | (subst hs; grind)
      | grind

theorem Qr.heldInv {cfg : QrCfg} {s : Qr} (h : Qr.Reach cfg s) : s.HeldInv := by
  induction h with
  | init => simp [Qr.HeldInv, Qr.init]
  | step a hp hs ih => exact Qr.heldInv_step (Qr.lockInv hp) (Qr.unlocked hp) ih hs

end StAsio
