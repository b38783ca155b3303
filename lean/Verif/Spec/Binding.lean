/-!
Addresses, and what a program sees of opening, binding and listening.
-/
set_option autoImplicit false
namespace StAsio

/-- IPv4, IPv6 and unix domain (a file). -/
inductive Fam where
  | v4
  | v6
  | file
  deriving DecidableEq, Repr

/-- `any`: port 0 of the unspecified address, or an empty path: the kernel chooses. `key` stands for ip and port, or for the path. -/
structure Addr where
  fam : Fam
  any : Bool
  key : Nat
  deriving DecidableEq, Repr

inductive BdEv where
  /-- set_server_addr() or set_local_addr() was called -/
  | set (a : Addr)
  /-- result of start_listen(); of started() after start() -/
  | ret (ok : Bool)
  /-- stop_listen(), or the UDP socket was closed -/
  | stopped
  deriving DecidableEq, Repr

/-- The address configured, and the address promised: the one configured when starting last said yes, as long as it is not stopped. -/
def bdNote : (Addr × Option Addr) → BdEv → (Addr × Option Addr)
  | p, .set a => (a, p.2)
  | (a, none), .ret ok => (a, if ok then some a else none)
  | p, .ret _ => p
  | p, .stopped => (p.1, none)

def bdNotes (a : Addr) (es : List BdEv) : Addr × Option Addr := es.foldl bdNote (a, none)

/-- The address at which the program has been told that it can be reached. -/
def promised (a : Addr) (es : List BdEv) : Option Addr := (bdNotes a es).2

end StAsio
