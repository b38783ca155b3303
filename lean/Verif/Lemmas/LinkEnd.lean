import Verif.Model.LinkEnd
import Verif.Lemmas.Fair
/-!
Lemmas for C88.
-/
set_option autoImplicit false
namespace StAsio

/-- What holds in every reachable state. -/
structure Lend.Inv (s : Lend) : Prop where
  one : s.hk.started = true → s.hk.closing = false
  frc : s.hk.started = true → s.hk.status ≠ .forceDown
  off : s.hk.started = false → s.hk.closing = false → s.hk.status = .broken ∧ s.hk.hs = none ∧ s.hk.connecting = false
  ex : s.hk.connecting = true → s.hk.hs = none
  up : s.hk.started = true → s.hk.status = .connected ∨ s.hk.status = .gracefulDown → s.hk.connecting = false ∧ s.hk.hs = none
  /-- somebody cares for a link that is being shut down -/
  mon : s.hk.started = true → s.hk.status = .gracefulDown → 0 < s.hk.shut ∨ s.hk.atimer = true ∨ 0 < s.hk.force ∨ s.ended = true

theorem Lend.init_inv (rc : Bool) : (Lend.init rc).Inv := by constructor <;> simp [Lend.init, Hk.init]

set_option hygiene false in
/-- Go through all actions, unfold the step, let grind do the rest. -/
local macro "lend" : tactic => `(tactic| (
  obtain ⟨hk, rd, id, out, en⟩ := s
  obtain ⟨st, sd, cl, cn, hh, rc, fo, sh, at_, ap, po⟩ := hk
  cases a with
  | hk b => cases b <;> simp only [Lend.step, Hk.step, Hk.start, Hk.forceShutdown, Hk.close, Hk.userShutdown, Hk.tcpForce, Hk.handleHandshake, Option.map_eq_some_iff] at hs <;> grind [Lend.Inv]
  | _ => simp only [Lend.step, Lend.readFails, Lend.shutEnds, Hk.step, Hk.start, Hk.close, Hk.userShutdown, Hk.tcpForce, Hk.handleHandshake] at hs <;> grind [Lend.Inv]))

variable {c : LendCfg} {s s' : Lend} {a : LendAct} {es : List HkEv}

theorem Lend.step_inv (h : s.Inv) (hs : s.step c a = some (s', es)) : s'.Inv := by
  obtain ⟨h1, h2, h3, h4, h5, h6⟩ := h
  lend

theorem Lend.run_inv {s0 : Lend} {as : List LendAct} (h : s0.Inv) (hr : Lend.Run c s0 as s es) : s.Inv := by
  induction hr with
  | nil => exact h
  | snoc _ _ _ _ _ _ _ hs ih => exact Lend.step_inv ih hs

/-- In active mode the link is being read, or will be again, as long as it is up. -/
def Lend.Reads (s : Lend) : Prop := s.hk.started = true → s.hk.status = .connected ∨ s.hk.status = .gracefulDown → s.reading = true ∨ s.idle = true ∨ 0 < s.hk.force

theorem Lend.step_reads (h : s.Inv) (hr : s.Reads) (hp : c.passive = false) (ha : a ≠ .recvEmpty) (hs : s.step c a = some (s', es)) : s'.Reads := by
  obtain ⟨h1, h2, h3, h4, h5, h6⟩ := h
  unfold Lend.Reads at *
  lend

/-! ### until close() -/

theorem Lend.step_started (h : s.Inv) (hx : s.hk.started = true) (hs : s.step c a = some (s', es)) : s'.hk.started = true ∨ s'.hk.closing = true := by
  obtain ⟨h1, h2, h3, h4, h5, h6⟩ := h
  lend

theorem Lend.step_force (h : s.Inv) (hx : s.hk.started = true) (hf : 0 < s.hk.force) (hs : s.step c a = some (s', es)) : s'.hk.closing = true ∨ a ≠ .hk .runForce ∧ 0 < s'.hk.force := by
  obtain ⟨h1, h2, h3, h4, h5, h6⟩ := h
  lend

theorem Lend.step_graceful (h : s.Inv) (hx : s.hk.started = true) (hg : s.hk.status = .gracefulDown) (hs : s.step c a = some (s', es)) : s'.hk.closing = true ∨ s'.hk.status = .gracefulDown := by
  obtain ⟨h1, h2, h3, h4, h5, h6⟩ := h
  lend

theorem Lend.step_ended (h : s.Inv) (hx : s.hk.started = true) (he : s.ended = true) (hs : s.step c a = some (s', es)) : s'.ended = true := by
  obtain ⟨h1, h2, h3, h4, h5, h6⟩ := h
  lend

theorem Lend.step_ended_reading (h : s.Inv) (he : s.ended = true) (hr : s.reading = true) (hs : s.step c a = some (s', es)) :
    0 < s'.hk.force ∨ a ≠ .readEnd ∧ s'.reading = true := by
  obtain ⟨h1, h2, h3, h4, h5, h6⟩ := h
  lend

theorem Lend.step_ended_idle (h : s.Inv) (hx : s.hk.started = true) (hr : s.idle = true) (hs : s.step c a = some (s', es)) : if a = .resume then s'.reading = true else s'.idle = true := by
  obtain ⟨h1, h2, h3, h4, h5, h6⟩ := h
  lend

theorem Lend.step_timer (h : s.Inv) (hx : s.hk.started = true) (hg : s.hk.status = .gracefulDown) (ht : s.hk.atimer = true) (hs : s.step c a = some (s', es)) :
    0 < s'.hk.force ∨ s'.ended = true ∨ s'.hk.closing = true ∨ a ≠ .hk .tick ∧ s'.hk.atimer = true := by
  obtain ⟨h1, h2, h3, h4, h5, h6⟩ := h
  lend

theorem Lend.step_shut (h : s.Inv) (hx : 0 < s.hk.shut) (hs : s.step c a = some (s', es)) : if a = .hk .runShut then s'.hk.atimer = true else 0 < s'.hk.shut := by
  obtain ⟨h1, h2, h3, h4, h5, h6⟩ := h
  lend

theorem Lend.step_shutdown {r : Bool} (hx : s.hk.started = true) (hs : s.step c (.hk (.shutdown r)) = some (s', es)) :
    s'.hk.started = true ∧ (s'.hk.status = .gracefulDown ∨ 0 < s'.hk.force) := by
  simp only [Lend.step, Hk.step, Hk.userShutdown, Hk.tcpForce, Option.map_some] at hs
  grind

theorem Lend.step_shutdown' {r : Bool} (hx : s.hk.started = true) (hy : s.hk.status ≠ .connected) (hs : s.step c (.hk (.shutdown r)) = some (s', es)) : s'.hk.started = true ∧ 0 < s'.hk.force := by
  simp only [Lend.step, Hk.step, Hk.userShutdown, Hk.tcpForce, Option.map_some] at hs
  grind

/-- Only websockets end this way. -/
theorem Lend.step_ssl (hw : c.ws = false) (hx : s.ended = false) (hs : s.step c a = some (s', es)) : s'.ended = false := by lend

/-! ### after close() -/

/-- What must not go on for ever on a closed link that still looks connected. -/
def Lend.Quiet (s : Lend) (a : LendAct) : Prop := s.hk.status = .connected → a ≠ .hk .send ∧ a ≠ .ask ∧ ∀ r, a ≠ .hk (.shutdown r)

def Lend.hsLeft (c : LendCfg) (s : Lend) : Nat := match s.hk.hs with
  | none => 0
  | some i => c.L - i + 1

theorem Lend.step_closing (hx : s.hk.closing = true) (hs : s.step c a = some (s', es)) : s'.hk.closing = true ∨ .onClose ∈ es := by lend

theorem Lend.step_conn (hx : s.hk.closing = true) (hy : s'.hk.closing = true) (hs : s.step c a = some (s', es)) :
    s'.hk.connecting.toNat ≤ s.hk.connecting.toNat ∧ (a = .hk .connectDone ∨ (∃ b d, a = .hk (.connectFail b d)) → s'.hk.connecting = false) := by lend

theorem Lend.step_hs (hx : s.hk.closing = true) (h0 : s.hk.connecting = false) (hs : s.step c a = some (s', es)) :
    s'.hsLeft c ≤ s.hsLeft c ∧ (a = .hsAbort → s'.hsLeft c < s.hsLeft c) := by
  unfold Lend.hsLeft
  lend

theorem Lend.step_status (hx : s.hk.closing = true) (h0 : s.hk.connecting = false) (h1 : s.hk.hs = none) (hs : s.step c a = some (s', es)) :
    (s'.hk.status = .connected → s.hk.status = .connected) ∧ (s'.hk.status = .connected → ∀ r, a ≠ .hk (.shutdown r)) := by lend

theorem Lend.step_post (hx : s.hk.closing = true) (hq : s.Quiet a) (hs : s.step c a = some (s', es)) :
    s'.hk.atPost ≤ s.hk.atPost ∧ (a = .hk .post → s'.hk.atPost < s.hk.atPost) := by
  unfold Lend.Quiet at hq
  lend

theorem Lend.step_shutLeft (hx : s.hk.closing = true) (h1 : s.hk.hs = none) (hq : s.Quiet a) (hs : s.step c a = some (s', es)) :
    s'.hk.shut ≤ s.hk.shut ∧ (a = .hk .runShut → s'.hk.shut < s.hk.shut) := by
  unfold Lend.Quiet at hq
  lend

theorem Lend.step_posted (hx : s.hk.closing = true) (h1 : s.hk.hs = none) (h2 : s.hk.atPost = 0) (hs : s.step c a = some (s', es)) :
    s'.hk.posted ≤ s.hk.posted ∧ ((∃ b, a = .hk (.runSend b)) → s'.hk.posted < s.hk.posted) := by lend

theorem Lend.step_out (hx : s.hk.closing = true) (h1 : s.hk.shut = 0) (hs : s.step c a = some (s', es)) :
    s'.out ≤ s.out ∧ (a = .shutAbort → s'.out < s.out) := by lend

theorem Lend.step_idle (hx : s.hk.closing = true) (hs : s.step c a = some (s', es)) :
    s'.idle.toNat ≤ s.idle.toNat ∧ (a = .resume → s'.idle = false) := by lend

theorem Lend.step_reading (hx : s.hk.closing = true) (h1 : s.hk.hs = none) (hq : s.Quiet a) (hs : s.step c a = some (s', es)) :
    s'.reading.toNat ≤ s.reading.toNat ∧ (a = .readEnd → s'.reading = false) := by
  unfold Lend.Quiet at hq
  lend

end StAsio
