import Verif.Model.LinkEnd
import Verif.Spec.Fair
/-!
What C88 assumes of the scheduling: every thing that is due happens some time. Nothing is assumed of what users and peers do: they may, but need not, send, close, ask, fail for ever.
-/
set_option autoImplicit false
namespace StAsio

structure Lend.Fairly (c : LendCfg) (s : Nat → Lend) (a : Nat → Option LendAct) : Prop where
  /-- posted things are run -/
  runForce : Fair (Lend.step c) s a (· == .hk .runForce)
  runShut : Fair (Lend.step c) s a (· == .hk .runShut)
  runSend : Fair (Lend.step c) s a (fun x => x == .hk (.runSend true) || x == .hk (.runSend false))
  /-- a thread in send_msg() goes on -/
  post : Fair (Lend.step c) s a (· == .hk .post)
  /-- timers fire -/
  tick : Fair (Lend.step c) s a (· == .hk .tick)
  resume : Fair (Lend.step c) s a (· == .resume)
  onClose : Fair (Lend.step c) s a (fun x => x == .hk (.onClose true) || x == .hk (.onClose false))
  /-- connecting succeeds or fails -/
  connect : Fair (Lend.step c) s a (fun x => match x with | .hk .connectDone => true | .hk (.connectFail _ _) => true | _ => false)
  /-- what is outstanding completes after close(), reading also after async_close completed -/
  readEnd : Fair (Lend.step c) s a (· == .readEnd)
  shutAbort : Fair (Lend.step c) s a (· == .shutAbort)
  hsAbort : Fair (Lend.step c) s a (· == .hsAbort)

/-- The user goes on for ever to send to, or ask for messages of, a link that came up while it was being closed. -/
def Lend.Nagged (s : Nat → Lend) (a : Nat → Option LendAct) : Prop :=
  Often fun n => (s n).hk.closing = true ∧ (s n).hk.status = .connected ∧ (a n = some (.hk .send) ∨ a n = some .ask)

end StAsio
