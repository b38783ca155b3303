import Verif.Model.UdpSend

/-!
# The KCP socket (include/udp/reliable_socket.h)

Around Model/UdpSend in connected mode: congestion control is decided by the backlog of KCP, and a message goes to KCP if there is a KCP control block.
KCP itself is modelled by its number of waiting segments (nsnd_que): ikcp_send either fails or adds segments, ikcp_update and ikcp_input may take segments away.
Simplifications: nsnd_que does not overflow its 32 bits; the mutex makes each access to KCP one step; create_kcpcb's `started()` is represented by `ready` (set by do_start, cleared by reset); reception (pre_handle_msg) only matters for the backlog.
-/

set_option autoImplicit false

namespace StAsio

structure Kc where
  ux : Ux
  /-- `none`: kcp is NULL; otherwise nsnd_que -/
  kcp : Option Nat
  /-- max_nsnd_que -/
  max : Nat
  /-- ikcp_send was called with this message; did it take it? -/
  given : List (UMsg × Bool)
  deriving DecidableEq, Repr

def Kc.init (max : Nat) : Kc := ⟨Ux.init, none, max, []⟩

inductive KAct where
  /-- what does not depend on KCP: threads, the kernel, the user (see Model/UdpSend) -/
  | u (a : UAct)
  /-- a step of do_send_msg; `segs`: the result of ikcp_send, if it is called: an error or the number of segments added -/
  | strand (segs : Option Nat)
  /-- ikcp_update or ikcp_input take `n` segments away -/
  | update (n : Nat)
  /-- TIMER_CC finds the backlog within the limit -/
  | timerCC
  /-- TIMER_CC finds the backlog above the limit -/
  | poll
  | create
  | close
  | setMax (n : Nat)
  deriving DecidableEq, Repr

/-- check_send_cc, reliable_socket.h:113-121. -/
def Kc.ccOk (s : Kc) : Bool := match s.kcp with
  | none => true
  | some n => n ≤ s.max

/-- The message a step of do_send_msg takes from the queue. -/
def kHanded : List UEv → Option UMsg
  | [.handOff m] => some m
  | _ => none

def Kc.step (s : Kc) : KAct → Option (Kc × List UEv)
  | .u a => match a with
    | .strand _ _ | .timerCC | .onClose => none
    | a => (s.ux.step true a).map (fun r => ({ s with ux := r.1 }, r.2))
  | .strand segs => -- udp/socket.h:330-353 with check_send_cc and do_send_msg, reliable_socket.h:113-137
    (s.ux.step true (.strand s.ccOk s.kcp.isSome)).map (fun r =>
      match s.kcp, kHanded r.2 with
      | some n, some m => ({ s with ux := r.1, kcp := some (n + segs.getD 0), given := s.given ++ [(m, segs.isSome)] }, r.2)
      | _, _ => ({ s with ux := r.1 }, r.2))
  | .update n => -- reliable_socket.h:133, 150, 186
    match s.kcp with
    | none => none
    | some k => some ({ s with kcp := some (k - n) }, [])
  | .timerCC => -- reliable_socket.h:170-181
    match s.kcp with
    | none => none
    | some n => if n > s.max then none else (s.ux.step true .timerCC).map (fun r => ({ s with ux := r.1 }, r.2))
  | .poll => -- reliable_socket.h:174-175, continue CC
    match s.kcp with
    | none => none
    | some n => if n > s.max ∧ s.ux.ccTimer = true then some (s, []) else none
  | .create => -- create_kcpcb, reliable_socket.h:42
    if s.ux.ready then none else some ({ s with kcp := some 0 }, [])
  | .close => -- on_close, reliable_socket.h:111
    (s.ux.step true .onClose).map (fun r => ({ s with ux := r.1, kcp := none }, r.2))
  | .setMax n => some ({ s with max := n }, []) -- reliable_socket.h:45

inductive Kc.Run : Kc → List KAct → Kc → List UEv → Prop where
  | nil (s : Kc) : Kc.Run s [] s []
  | snoc (s s1 s2 : Kc) (as : List KAct) (a : KAct) (es es' : List UEv) :
      Kc.Run s as s1 es → Kc.step s1 a = some (s2, es') → Kc.Run s (as ++ [a]) s2 (es ++ es')

def Kc.exec : Kc → List KAct → Option (Kc × List UEv)
  | s, [] => some (s, [])
  | s, a :: as => do
    let (s, es) ← s.step a
    let (s, es') ← Kc.exec s as
    return (s, es ++ es')

end StAsio
