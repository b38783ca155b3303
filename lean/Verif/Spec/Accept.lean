/-!
# What can be seen of a TCP server's accept loop

Nothing here refers to the model.
-/

set_option autoImplicit false

namespace StAsio

inductive AccEv
  | listen                    -- start_listen succeeded
  | stop                      -- stop_listen
  | issue (isOpen : Bool)     -- an asynchronous accept is issued; whether the acceptor is open
  | got                       -- an accept has succeeded: its handler begins
  | gotErr (aborted : Bool)   -- an accept has failed: its handler begins
  | added                     -- the accepted socket is in the object pool
  | refused                   -- the accepted socket is dropped, the pool does not take it
  | rejected                  -- the accepted socket is dropped, on_accept does not want it
  | left                      -- a socket leaves the object pool
  deriving Repr, DecidableEq

/-- The number of accepts that were issued and whose handlers have not begun. -/
def outstanding : List AccEv → Int
  | [] => 0
  | .issue _ :: es => outstanding es + 1
  | .got :: es => outstanding es - 1
  | .gotErr _ :: es => outstanding es - 1
  | _ :: es => outstanding es

/-- The number of accepts issued. -/
def issues : List AccEv → Nat
  | [] => 0
  | .issue _ :: es => issues es + 1
  | _ :: es => issues es

/-- The number of sockets in the pool. -/
def inPool : List AccEv → Int
  | [] => 0
  | .added :: es => inPool es + 1
  | .left :: es => inPool es - 1
  | _ :: es => inPool es

end StAsio
