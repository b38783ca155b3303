import Verif.Spec.Bytes

/-!
# SOCKS4, SOCKS5 (RFC 1928) and its user name/password negotiation (RFC 1929), as the proxy reads and writes them

Each reader returns `none` unless the bytes are exactly one message.
-/

set_option autoImplicit false

namespace StAsio

/-- A destination. -/
inductive SocksTarget
  | ip4 (a : Bytes)
  | ip6 (a : Bytes)
  | name (a : Bytes)
  deriving Repr, DecidableEq

/-- SOCKS4: VN = 4, CD = 1, DSTPORT, DSTIP, USERID, NUL; gives address, port and user. -/
def readSocks4 : Bytes → Option (Bytes × Nat × Bytes)
  | 4 :: 1 :: p1 :: p2 :: a :: b :: c :: d :: rest =>
    match rest.reverse with
    | 0 :: user => if 0 ∈ user then none else some ([a, b, c, d], beVal [p1, p2], user.reverse)
    | _ => none
  | _ => none

/-- RFC 1928, 3: VER = 5, NMETHODS, METHODS. -/
def readGreeting : Bytes → Option Bytes
  | 5 :: n :: ms => if ms.length = n.toNat ∧ 1 ≤ n.toNat then some ms else none
  | _ => none

/-- RFC 1929: VER = 1, ULEN, UNAME, PLEN, PASSWD; both lengths from 1 to 255. -/
def readAuth : Bytes → Option (Bytes × Bytes)
  | 1 :: n :: rest =>
    match rest.drop n.toNat with
    | m :: pass => if 1 ≤ n.toNat ∧ n.toNat ≤ rest.length ∧ 1 ≤ m.toNat ∧ pass.length = m.toNat then some (rest.take n.toNat, pass) else none
    | [] => none
  | _ => none

/-- RFC 1928, 4: VER = 5, CMD = CONNECT, RSV = 0, ATYP, DST.ADDR, DST.PORT. -/
def readRequest : Bytes → Option (SocksTarget × Nat)
  | 5 :: 1 :: 0 :: atyp :: rest =>
    if atyp = 1 then if rest.length = 6 then some (.ip4 (rest.take 4), beVal (rest.drop 4)) else none
    else if atyp = 4 then if rest.length = 18 then some (.ip6 (rest.take 16), beVal (rest.drop 16)) else none
    else if atyp = 3 then
      match rest with
      | n :: rest => if 1 ≤ n.toNat ∧ rest.length = n.toNat + 2 then some (.name (rest.take n.toNat), beVal (rest.drop n.toNat)) else none
      | [] => none
    else none
  | _ => none

/-- RFC 1928, 6: a complete reply that reports success: VER, REP = 0, RSV, ATYP, BND.ADDR, BND.PORT. -/
def goodReply : Bytes → Bool
  | _ :: rep :: _ :: atyp :: rest =>
    decide (rep = 0) &&
      (if atyp = 1 then decide (rest.length = 6)
       else if atyp = 4 then decide (rest.length = 18)
       else if atyp = 3 then match rest with | n :: rest => decide (rest.length = n.toNat + 2) | [] => false
       else false)
  | _ => false

/-! ## What can be seen of a SOCKS4 client -/

inductive S4Ev
  | target (ip : Bytes) (port : Nat)  -- set_target_addr returned true
  | noTarget                          -- set_target_addr returned false
  | wrote (bs : Bytes)                -- written to the proxy
  | reply (bs : Bytes)                -- read from the proxy
  | app                               -- the application protocol begins
  | direct                            -- the application protocol begins without talking to the proxy
  | failed                            -- the link is shut down
  deriving Repr, DecidableEq

/-- The target in force after a history. -/
def s4Target : List S4Ev → Option (Bytes × Nat) → Option (Bytes × Nat)
  | [], t => t
  | .target ip port :: es, _ => s4Target es (some (ip, port))
  | .noTarget :: es, _ => s4Target es none
  | _ :: es, t => s4Target es t

/-- Whether no reply was read since the target was configured. -/
def s4Fresh : List S4Ev → Bool → Bool
  | [], f => f
  | .target _ _ :: es, _ => s4Fresh es true
  | .reply _ :: es, _ => s4Fresh es false
  | _ :: es, f => s4Fresh es f

/-! ## What can be seen of a SOCKS5 client -/

inductive S5Ev
  | target (t : SocksTarget) (port : Nat)  -- set_target_addr returned true
  | noTarget                               -- set_target_addr returned false
  | auth (u p : Bytes)                     -- set_auth returned true
  | wrote (bs : Bytes)                     -- written to the proxy
  | got (bs : Bytes)                       -- read from the proxy
  | app                                    -- the application protocol begins
  | direct                                 -- the application protocol begins without talking to the proxy
  | failed                                 -- the link is shut down
  deriving Repr, DecidableEq

/-- Whether the last call of set_target_addr succeeded. -/
def s5Set : List S5Ev → Bool → Bool
  | [], b => b
  | .target _ _ :: es, _ => s5Set es true
  | .noTarget :: es, _ => s5Set es false
  | _ :: es, b => s5Set es b

/-- Where a client that follows the RFCs stands; the bytes are everything read since the last message was written. -/
inductive S5St
  | free
  | greeted (acc : Bytes)
  | authed (acc : Bytes)
  | asked (acc : Bytes)
  deriving Repr, DecidableEq

/-- What the client knows: the target and the credentials configured last. -/
structure S5Conf where
  target : Option (SocksTarget × Nat)
  auth : Option (Bytes × Bytes)
  deriving Repr, DecidableEq

/-- The conversation the RFCs prescribe; `good` says which replies let the application protocol begin. If the proxy selects user name/password although it was not offered, the RFCs do not say what to write. -/
def s5Next (good : Bytes → Bool) (c : S5Conf) : S5St → S5Ev → Option (S5Conf × S5St)
  | .free, .target t p => some ({ c with target := some (t, p) }, .free)
  | .free, .noTarget => some ({ c with target := none }, .free)
  | .free, .auth u p => some ({ c with auth := some (u, p) }, .free)
  | .free, .direct => if c.target = none then some (c, .free) else none
  | .free, .wrote bs => if c.target ≠ none ∧ readGreeting bs = some (if c.auth = none then [0] else [0, 2]) then some (c, .greeted []) else none
  | .greeted acc, .got bs => some (c, .greeted (acc ++ bs))
  | .greeted [_, 0], .wrote bs => if readRequest bs = c.target then some (c, .asked []) else none
  | .greeted [_, 2], .wrote bs => if c.auth = none ∨ readAuth bs = c.auth then some (c, .authed []) else none
  | .authed acc, .got bs => some (c, .authed (acc ++ bs))
  | .authed [_, 0], .wrote bs => if readRequest bs = c.target then some (c, .asked []) else none
  | .asked acc, .got bs => some (c, .asked (acc ++ bs))
  | .asked acc, .app => if good acc then some (c, .free) else none
  | .greeted _, .failed => some (c, .free)
  | .authed _, .failed => some (c, .free)
  | .asked _, .failed => some (c, .free)
  | _, _ => none

/-- The conversation over a history. -/
def s5Run (good : Bytes → Bool) : S5Conf → S5St → List S5Ev → Option (S5Conf × S5St)
  | c, m, [] => some (c, m)
  | c, m, e :: es => match s5Next good c m e with | some (c, m) => s5Run good c m es | none => none

end StAsio
