import Verif.Model.SendBuffer
import Verif.Spec.SendApi
/-!
The send functions of a TCP socket with ext::packer, together with the caller's messages: include/base.h:703-797 (send_msg, send_native_msg, safe_send_msg, safe_send_native_msg), 824-924 (their synchronous variants), include/socket.h:538-577 and 580-657 (do_direct_send_msg,
do_direct_sync_send_msg), include/container.h:106-192. Model/SendBuffer has the decision whether a message is taken; here the messages are byte strings and what becomes of the caller's variables is modelled, too.

`none` is a failed assertion or a read outside of the caller's memory. Simplification: containers do not throw except where `fits = false` says so (enqueue of one message).
-/
set_option autoImplicit false
namespace StAsio

structure ApiOut where
  /-- the caller's variables afterwards -/
  args : SendArgs
  /-- the send buffer afterwards -/
  q : Q Bytes
  ret : Bool
  discarded : Option (List Bytes)
  deriving DecidableEq, Repr

/-- The variables after their content was swapped out of them. -/
def SendArgs.taken : SendArgs → SendArgs
  | .one m byRef => .one (if byRef then [] else m) byRef
  | .two m1 m2 byRef => .two (if byRef then [] else m1) (if byRef then [] else m2) byRef
  | .list _ => .list []
  | .array arr => .array arr

/-- What pack_msg leaves in the caller's variables; a const message is copied first (base.h:244-245). -/
def SendArgs.left : SendArgs → List Bytes → SendArgs
  | .one m byRef, l => .one (if byRef then l.headD [] else m) byRef
  | .two m1 m2 byRef, l => .two (if byRef then l.headD [] else m1) (if byRef then (l.drop 1).headD [] else m2) byRef
  | .list _, l => .list l
  | .array arr, _ => .array arr

/-- packer()->pack_msg of the overload that belongs to the arguments, base.h:712, 724, 739, 754, 766; not for arrays. -/
def SendArgs.pack (c : Cfg) (nd : Bool) : SendArgs → Option Packed
  | .one m _ => packOne c nd m []
  | .two m1 m2 _ => packTwo c nd m1 m2 []
  | .list ms => packList c nd ms []
  | .array _ => none

/-- The elements of the list in which native functions put the messages, base.h:733-736, 748-751, 762. do_direct_send_msg(list) swaps the content out of the list's elements (socket.h:571), which stay in it, empty. -/
def SendArgs.pieces : SendArgs → List Bytes
  | .one m _ => [m]
  | .two m1 m2 _ => [m1, m2]
  | .list ms => ms
  | .array _ => []

/-- A native list keeps its elements, but they are empty (socket.h:568-572). -/
def SendArgs.drained : SendArgs → SendArgs
  | .list ms => .list (ms.map (fun _ => []))
  | a => a.taken

/-- The check at the beginning of each send function: `if (!can_overflow && !shrink_send_buffer())`, base.h:706 etc. -/
def apiCheck (sc : SendCfg) (canOverflow : Bool) (q : Q Bytes) : Q Bytes × Option (List Bytes) × Bool := if canOverflow then (q, none, true) else shrinkSendBuffer List.length sc q

/-- send_msg (`native = false`) and send_native_msg (`native = true`), base.h:704-779. -/
def apiSend (c : Cfg) (nd : Bool) (sc : SendCfg) (native canOverflow prior fits : Bool) (args : SendArgs) (q : Q Bytes) : Option ApiOut :=
  let s := apiCheck sc canOverflow q
  if s.2.2 = false then some { args, q := s.1, ret := false, discarded := s.2.1 }
  else
    match args with
    | .array arr => do -- lines 770-779: the result of pack_msg is not looked at
      let r ← packArray c native arr
      return { args, q := (doDirectOne List.length s.1 r.2 prior fits).1, ret := true, discarded := s.2.1 }
    | .one m byRef =>
      if native then -- lines 708-709, socket.h:538-562
        let r := doDirectOne List.length s.1 m prior fits
        some { args := if r.2 then SendArgs.taken (.one m byRef) else .one m byRef, q := r.1, ret := true, discarded := s.2.1 }
      else do
        let p ← packOne c nd m []
        if p.ok then return { args := (SendArgs.one m byRef).left p.left, q := ← doDirectList List.length s.1 p.can prior, ret := true, discarded := s.2.1 }
        else return { args := (SendArgs.one m byRef).left p.left, q := s.1, ret := false, discarded := s.2.1 }
    | a =>
      if native then do -- lines 733-736, 762-763, socket.h:564-577
        return { args := a.drained, q := ← doDirectList List.length s.1 a.pieces prior, ret := true, discarded := s.2.1 }
      else do
        let p ← a.pack c nd
        if p.ok then return { args := a.left p.left, q := ← doDirectList List.length s.1 p.can prior, ret := true, discarded := s.2.1 }
        else return { args := a.left p.left, q := s.1, ret := false, discarded := s.2.1 }

/-- safe_send_msg, safe_send_native_msg, base.h:784-797: each attempt finds the send buffer as other threads left it. Result: `none` while still looping; all calls made. -/
def apiSafeSend (c : Cfg) (nd : Bool) (sc : SendCfg) (native canOverflow prior fits : Bool) : SendArgs → List (Attempt Bytes) → Option (Option Bool × SendArgs × List ApiOut)
  | args, [] => some (none, args, [])
  | args, a :: rest => do
    let o ← apiSend c nd sc native canOverflow prior fits args a.q
    if o.ret then return (some true, o.args, [o])
    else if a.ready then
      let (r, args, os) ← apiSafeSend c nd sc native canOverflow prior fits o.args rest
      return (r, args, o :: os)
    else return (some false, o.args, [o])

structure SyncOut where
  args : SendArgs
  q : Q Bytes
  ret : WaitRes
  deriving DecidableEq, Repr

/-- do_direct_sync_send_msg(msg), socket.h:580-628. `stopped`: the io_context is stopped. `wait`: what waiting for the promise ends with. -/
def syncOne (q : Q Bytes) (m : Bytes) (prior fits stopped : Bool) (wait : WaitRes) : Q Bytes × WaitRes × Bool :=
  if stopped then (q, .notApplicable, false)
  else if m = [] then (q, .success, false)
  else
    let r := if prior then q.enqueueFront List.length m fits else q.enqueue List.length m fits
    (r.1, if r.2 then wait else .notApplicable, true)

/-- do_direct_sync_send_msg(list), socket.h:630-657; the last component: was the content of the list taken? -/
def syncList (q : Q Bytes) (ms : List Bytes) (prior stopped : Bool) (wait : WaitRes) : Option (Q Bytes × WaitRes × Bool) :=
  if stopped then some (q, .notApplicable, false)
  else if ms = [] then some (q, .success, false)
  else (doDirectList List.length q ms prior).map (fun q => (q, wait, true))

/-- sync_send_msg and sync_send_native_msg, base.h:825-900. `in_msg unused(msg, true)` takes the content of a non-const message (socket.h:615) before it is enqueued; packing takes it before stopped() is looked at. -/
def apiSync (c : Cfg) (nd : Bool) (sc : SendCfg) (native canOverflow prior fits stopped : Bool) (wait : WaitRes) (args : SendArgs) (q : Q Bytes) : Option SyncOut :=
  let s := apiCheck sc canOverflow q
  if s.2.2 = false then some { args, q := s.1, ret := .notApplicable }
  else
    match args with
    | .array arr => do
      let p ← packArray c native arr
      let r := syncOne s.1 p.2 prior fits stopped wait
      return { args, q := r.1, ret := r.2.1 }
    | .one m byRef =>
      if native then
        let r := syncOne s.1 m prior fits stopped wait
        some { args := if r.2.2 then SendArgs.taken (.one m byRef) else .one m byRef, q := r.1, ret := r.2.1 }
      else do
        let p ← packOne c nd m []
        if p.ok then
          let r ← syncList s.1 p.can prior stopped wait
          return { args := (SendArgs.one m byRef).left p.left, q := r.1, ret := r.2.1 }
        else return { args := (SendArgs.one m byRef).left p.left, q := s.1, ret := .notApplicable }
    | .two m1 m2 byRef =>
      if native then do -- lines 853-858, 868-873: the messages are put into a list first
        let r ← syncList s.1 [m1, m2] prior stopped wait
        return { args := SendArgs.taken (.two m1 m2 byRef), q := r.1, ret := r.2.1 }
      else do
        let p ← packTwo c nd m1 m2 []
        if p.ok then
          let r ← syncList s.1 p.can prior stopped wait
          return { args := (SendArgs.two m1 m2 byRef).left p.left, q := r.1, ret := r.2.1 }
        else return { args := (SendArgs.two m1 m2 byRef).left p.left, q := s.1, ret := .notApplicable }
    | .list ms =>
      if native then do
        let r ← syncList s.1 ms prior stopped wait
        return { args := if r.2.2 then SendArgs.drained (.list ms) else .list ms, q := r.1, ret := r.2.1 }
      else do
        let p ← packList c nd ms []
        if p.ok then
          let r ← syncList s.1 p.can prior stopped wait
          return { args := (SendArgs.list ms).left p.left, q := r.1, ret := r.2.1 }
        else return { args := (SendArgs.list ms).left p.left, q := s.1, ret := .notApplicable }

/-- One attempt of a synchronous safe send. -/
structure ApiAttempt where
  q : Q Bytes
  stopped : Bool
  wait : WaitRes
  ready : Bool
  deriving DecidableEq, Repr

/-- sync_safe_send_msg, sync_safe_send_native_msg, base.h:905-924. -/
def apiSyncSafe (c : Cfg) (nd : Bool) (sc : SendCfg) (native canOverflow prior fits : Bool) : SendArgs → List ApiAttempt → Option (Option WaitRes × SendArgs × List SyncOut)
  | args, [] => some (none, args, [])
  | args, a :: rest => do
    let o ← apiSync c nd sc native canOverflow prior fits a.stopped a.wait args a.q
    if o.ret = .success then return (some .success, o.args, [o])
    else if a.ready then
      let (r, args, os) ← apiSyncSafe c nd sc native canOverflow prior fits o.args rest
      return (r, args, o :: os)
    else return (some .notApplicable, o.args, [o])

end StAsio
