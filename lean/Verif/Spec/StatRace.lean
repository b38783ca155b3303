/-!
When two threads use one member of a socket's statistic at the same time.
-/
set_option autoImplicit false
namespace StAsio

/-- The members of struct statistic that a TCP socket keeps (base.h:500-520); send_msg_sum and send_byte_sum, recv_msg_sum and recv_byte_sum are taken together. -/
inductive SrMember where
  | establish
  | break_
  | lastSend
  | lastRecv
  | sendSums
  | sendDelay
  | sendTime
  | pack
  | recvSums
  | dispDelay
  /-- with the flag is_recv_idle() returns -/
  | recvIdle
  | handle
  | unpack
  deriving DecidableEq, Repr

/-- Two different threads are using the member `m` at the same time, and at least one of them changes it. `at_ t`: the member the thread `t` is using now, if any; true: it changes it. -/
def StatOverlap {T : Type} (at_ : T → Option (SrMember × Bool)) (m : SrMember) : Prop :=
  ∃ t t' w, t ≠ t' ∧ at_ t = some (m, true) ∧ at_ t' = some (m, w)

end StAsio
