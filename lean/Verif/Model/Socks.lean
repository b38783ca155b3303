import Verif.Spec.Socks

/-!
# SOCKS4 and SOCKS5 clients (include/tcp/proxy/socks.h)

`char buff[]` is a byte string of fixed length, written with bounds check: a write outside of it would be undefined behaviour and is no step. How a text is recognised as an address (make_address, client_socket.h:31-53) is not modelled: the calls take the result, 4 or 16 address bytes or a
text that is no address. async_write, async_read and async_read_some are asio's: a write hands over the given bytes; a read delivers at most as many bytes as the buffer has room for. set_target_addr and set_auth are called only while no negotiation is going on. After the application
protocol began or the link was shut down the client may connect again (generic_client_socket, Model/Reconnect).
-/

set_option autoImplicit false

namespace StAsio

/-- Writes bs to the buffer, at off. -/
def poke (buf : Bytes) (off : Nat) (bs : Bytes) : Option Bytes := if off + bs.length ≤ buf.length then some (buf.take off ++ bs ++ buf.drop (off + bs.length)) else none

/-- What goes on between the client and the proxy: nothing; async_write; a read to be stored at off. -/
inductive SocksPhase
  | free
  | writing
  | reading (off : Nat)
  deriving Repr, DecidableEq

/-! ## SOCKS4 -/

/-- socks.h:98-102; target_addr is only written. -/
structure S4 where
  buf : Bytes
  reqLen : Nat
  phase : SocksPhase
  deriving Repr, DecidableEq

/-- "st_asio" without its NUL. -/
def stAsio : Bytes := [115, 116, 95, 97, 115, 105, 111]

/-- socks.h:31-32, 99; what the buffer contains does not matter. -/
def S4.init : S4 := ⟨List.replicate 16 0, 0, .free⟩

inductive S4Act
  | setTarget (port : Nat) (t : SocksTarget)  -- set_target_addr, socks.h:37-55
  | tcpUp                                     -- connect_handler, no error, socks.h:59-68
  | tcpFail                                   -- connect_handler, error: the client retries, socks.h:61-62
  | writeDone (ok : Bool)                     -- send_handler, socks.h:70-80
  | readDone (bs : Bytes)                     -- recv_handler, no error, socks.h:82-96
  | readErr                                   -- recv_handler, error
  deriving Repr, DecidableEq

/-- set_target_addr, socks.h:43-52. -/
def S4.fill (s : S4) (port : Nat) (ip : Bytes) : Option S4 := do
  let b ← poke s.buf 0 [4]
  let b ← poke b 1 [1]
  let b ← poke b 2 (be 2 port)
  let b ← poke b 4 ip
  let b ← poke b 8 (stAsio ++ [0])
  pure { s with buf := b, reqLen := 8 + (stAsio.length + 1) }

/-- One step. -/
def S4.step (s : S4) : S4Act → Option (S4 × List S4Ev)
  | .setTarget port t =>
    if s.phase = .free ∧ port < 65536 then
      let s := { s with reqLen := 0 }
      match t with
      | .ip4 ip => if ip.length = 4 then (if port = 0 then some (s, [.noTarget]) else (s.fill port ip).map (·, [.target ip port])) else none
      | .ip6 ip => if ip.length = 16 then some (s, [.noTarget]) else none
      | .name _ => some (s, [.noTarget])
    else none
  | .tcpUp =>
    if s.phase = .free then
      if s.reqLen = 0 then some (s, [.direct]) else some ({ s with phase := .writing }, [.wrote (s.buf.take s.reqLen)])
    else none
  | .tcpFail => if s.phase = .free then some (s, []) else none
  | .writeDone ok =>
    if s.phase = .writing then
      if ok then some ({ s with phase := .reading 0 }, []) else some ({ s with phase := .free }, [.failed])
    else none
  | .readDone bs =>
    if s.phase = .reading 0 ∧ bs.length = 8 then do
      let b ← poke s.buf 0 bs
      if b[1]? ≠ some 90 then some ({ s with buf := b, phase := .free }, [.reply bs, .failed]) else some ({ s with buf := b, phase := .free }, [.reply bs, .app])
    else none
  | .readErr => if s.phase = .reading 0 then some ({ s with phase := .free }, [.failed]) else none

/-- Runs of the SOCKS4 client. -/
inductive S4.Run : S4 → List S4Act → S4 → List S4Ev → Prop
  | nil (s : S4) : S4.Run s [] s []
  | snoc (s s1 s2 : S4) (as : List S4Act) (a : S4Act) (es fs : List S4Ev) : S4.Run s as s1 es → s1.step a = some (s2, fs) → S4.Run s (as ++ [a]) s2 (es ++ fs)

/-- Executes a list of steps. -/
def S4.exec (s : S4) : List S4Act → Option (S4 × List S4Ev)
  | [] => some (s, [])
  | a :: as => do
    let (s1, e1) ← s.step a
    let (s2, e2) ← S4.exec s1 as
    pure (s2, e1 ++ e2)

/-! ## SOCKS5 -/

/-- socks.h:367-375; `addr` is target_addr with its port. -/
structure S5 where
  buf : Bytes
  reqLen : Nat
  resLen : Nat
  step : Int
  addr : SocksTarget × Nat
  domain : Bytes
  tport : Nat
  user : Bytes
  pass : Bytes
  phase : SocksPhase
  deriving Repr, DecidableEq

/-- socks.h:118-119; a default endpoint is 0.0.0.0:0. -/
def S5.init : S5 := ⟨List.replicate 64 0, 0, 0, -1, (.ip4 [0, 0, 0, 0], 0), [], 0, [], [], .free⟩

/-- send_method, socks.h:173-193. -/
def S5.sendMethod (s : S5) : Option (S5 × List S5Ev) := do
  let b ← poke s.buf 0 [5]
  if s.user = [] ∧ s.pass = [] then
    let b ← poke b 1 [1]
    let b ← poke b 2 [0]
    pure ({ s with buf := b, resLen := 0, reqLen := 3, phase := .writing }, [.wrote (b.take 3)])
  else
    let b ← poke b 1 [2]
    let b ← poke b 3 [2]
    let b ← poke b 2 [0]
    pure ({ s with buf := b, resLen := 0, reqLen := 4, phase := .writing }, [.wrote (b.take 4)])

/-- send_auth, socks.h:195-208. -/
def S5.sendAuth (s : S5) : Option (S5 × List S5Ev) := do
  let b ← poke s.buf 0 [1]
  let b ← poke b 1 [UInt8.ofNat s.user.length]
  let b ← poke b 2 s.user
  let b ← poke b (2 + s.user.length) [UInt8.ofNat s.pass.length]
  let b ← poke b (3 + s.user.length) s.pass
  let n := 1 + 1 + s.user.length + 1 + s.pass.length
  pure ({ s with buf := b, resLen := 0, reqLen := n, phase := .writing }, [.wrote (b.take n)])

/-- send_request, socks.h:210-250. -/
def S5.sendRequest (s : S5) : Option (S5 × List S5Ev) := do
  let b ← poke s.buf 0 [5]
  let b ← poke b 1 [1]
  let b ← poke b 2 [0]
  if s.domain ≠ [] then
    let n := min s.domain.length (64 - 7)
    let b ← poke b 3 [3]
    let b ← poke b 4 [UInt8.ofNat n]
    let b ← poke b 5 (s.domain.take n)
    let b ← poke b (5 + n) (be 2 s.tport)
    pure ({ s with buf := b, resLen := 0, reqLen := 7 + n, phase := .writing }, [.wrote (b.take (7 + n))])
  else
    match s.addr with
    | (.ip4 ip, port) =>
      let b ← poke b 3 [1]
      let b ← poke b 4 ip
      let b ← poke b 8 (be 2 port)
      pure ({ s with buf := b, resLen := 0, reqLen := 10, phase := .writing }, [.wrote (b.take 10)])
    | (.ip6 ip, port) =>
      let b ← poke b 3 [4]
      let b ← poke b 4 ip
      let b ← poke b 20 (be 2 port)
      pure ({ s with buf := b, resLen := 0, reqLen := 22, phase := .writing }, [.wrote (b.take 22)])
    | (.name _, _) => none

/-- A char as int: signed on some platforms, unsigned on others. -/
def charVal (signed : Bool) (b : Byte) : Int := if signed ∧ 128 ≤ b.toNat then (b.toNat : Int) - 256 else b.toNat

/-- What recv_handler makes of the bytes. -/
inductive S5Verdict
  | more
  | fail
  | ok
  | auth
  | request (skip : Bool)  -- send_request; skip: ++step before
  deriving Repr, DecidableEq

/-- recv_handler, socks.h:277-350: the decision; size_t has 64 bits. -/
def S5.parse (signed : Bool) (s : S5) : S5Verdict :=
  if s.step = 1 then
    if s.resLen < 2 then .more
    else if s.resLen > 2 then .fail
    else if s.buf.getD 1 0 = 0 then .request true
    else if s.buf.getD 1 0 = 2 then .auth
    else .fail
  else if s.step = 2 then
    if s.resLen < 2 then .more
    else if s.resLen > 2 then .fail
    else if s.buf.getD 1 0 = 0 then .request false
    else .fail
  else if s.step = 3 then
    if s.resLen < 6 then .more
    else if s.buf.getD 1 0 = 0 then
      let len : Nat :=
        if s.buf.getD 3 0 = 1 then 6 + 4
        else if s.buf.getD 3 0 = 3 then ((6 + (1 + charVal signed (s.buf.getD 4 0))) % 2 ^ 64).toNat
        else if s.buf.getD 3 0 = 4 then 6 + 16
        else 6
      if s.resLen < len then .more
      else if s.resLen > len then .fail
      else .ok
    else .fail
  else .fail

/-- recv_handler without error, socks.h:267-365. -/
def S5.recv (signed : Bool) (s : S5) : Option (S5 × List S5Ev) :=
  match s.parse signed with
  | .request skip => S5.sendRequest { s with step := s.step + (if skip then 1 else 0) }
  | .auth => s.sendAuth
  | .fail => some ({ s with phase := .free }, [.failed])
  | .ok => some ({ s with phase := .free }, [.app])
  | .more => if s.resLen ≥ 64 then some ({ s with phase := .free }, [.failed]) else some ({ s with phase := .reading s.resLen }, [])

inductive S5Act
  | setTarget (port : Nat) (t : SocksTarget)       -- set_target_addr, socks.h:124-145; an address only if no name was set before
  | setTargetStale (port : Nat) (t : SocksTarget)  -- set_target_addr with an address after a name was set
  | setAuth (u p : Bytes)                          -- set_auth, socks.h:148-159
  | tcpUp                                          -- connect_handler, no error, socks.h:162-171
  | tcpFail                                        -- connect_handler, error
  | writeDone (ok : Bool)                          -- send_handler, socks.h:252-265
  | readSome (bs : Bytes)                          -- recv_handler, no error, socks.h:267-365
  | readErr                                        -- recv_handler, error
  deriving Repr, DecidableEq

/-- set_target_addr, socks.h:124-145. -/
def S5.setTarget (s : S5) (port : Nat) (t : SocksTarget) : S5 × List S5Ev :=
  let s := { s with step := -1 }
  match t with
  | .name d =>
    if port = 0 ∨ d = [] then (s, [.noTarget])
    else if d.length > 64 - 7 then (s, [.noTarget])
    else ({ s with domain := d, tport := port, step := 0 }, [.target t port])
  | _ => if port = 0 then (s, [.noTarget]) else ({ s with addr := (t, port), step := 0 }, [.target t port])

/-- What make_address recognises has 4 or 16 bytes. -/
def SocksTarget.sized : SocksTarget → Bool
  | .ip4 a => decide (a.length = 4)
  | .ip6 a => decide (a.length = 16)
  | .name _ => true

def SocksTarget.isName : SocksTarget → Bool
  | .name _ => true
  | _ => false

/-- One step. -/
def S5.step1 (signed : Bool) (s : S5) : S5Act → Option (S5 × List S5Ev)
  | .setTarget port t => if s.phase = .free ∧ port < 65536 ∧ t.sized ∧ (t.isName ∨ s.domain = []) then some (s.setTarget port t) else none
  | .setTargetStale port t => if s.phase = .free ∧ port < 65536 ∧ t.sized ∧ t.isName = false ∧ s.domain ≠ [] then some (s.setTarget port t) else none
  | .setAuth u p =>
    if s.phase = .free then
      if u = [] ∨ p = [] ∨ u.length + p.length > 60 then some (s, []) else some ({ s with user := u, pass := p }, [.auth u p])
    else none
  | .tcpUp =>
    if s.phase = .free then
      if s.step = -1 then some (s, [.direct]) else S5.sendMethod { s with step := 0 }
    else none
  | .tcpFail => if s.phase = .free then some (s, []) else none
  | .writeDone ok =>
    if s.phase = .writing then
      if ok then some ({ s with step := s.step + 1, phase := .reading 0 }, []) else some ({ s with phase := .free }, [.failed])
    else none
  | .readSome bs => match s.phase with
    | .reading off =>
      if off + bs.length ≤ 64 then do
        let b ← poke s.buf off bs
        let (s', es) ← S5.recv signed { s with buf := b, resLen := s.resLen + bs.length }
        pure (s', .got bs :: es)
      else none
    | _ => none
  | .readErr => match s.phase with
    | .reading _ => some ({ s with phase := .free }, [.failed])
    | _ => none

/-- Runs of the SOCKS5 client. -/
inductive S5.Run (signed : Bool) : S5 → List S5Act → S5 → List S5Ev → Prop
  | nil (s : S5) : S5.Run signed s [] s []
  | snoc (s s1 s2 : S5) (as : List S5Act) (a : S5Act) (es fs : List S5Ev) : S5.Run signed s as s1 es → s1.step1 signed a = some (s2, fs) → S5.Run signed s (as ++ [a]) s2 (es ++ fs)

/-- Executes a list of steps. -/
def S5.exec (signed : Bool) (s : S5) : List S5Act → Option (S5 × List S5Ev)
  | [] => some (s, [])
  | a :: as => do
    let (s1, e1) ← s.step1 signed a
    let (s2, e2) ← S5.exec signed s1 as
    pure (s2, e1 ++ e2)

/-- No address is configured after a name. -/
def S5Act.fresh : S5Act → Bool
  | .setTargetStale _ _ => false
  | _ => true

end StAsio
