import Verif.Spec.FileClient
import Verif.Model.FileTransfer

/-!
# file_client as a whole (file_client/file_client.h)

The list of files, the links and the timer UPDATE_PROGRESS. What is sent and received has been modelled in Model/FileTransfer, here only the numbers of bytes matter.
Simplifications: transmit_file is one step (it holds file_list_mutex, and what links do in the meantime only concerns links); the server is honest: lengths it reports are those of the files, and a file does not change while it is transferred; file_client's own fopen is given by `FcEnv.can`, other failures are choices of the actions.
A link which is lost in the middle of a transfer stays as it is: on_close does not touch `state`, reset() is not called for a reconnection (client_socket.h:172), the answer or the bytes it waits for belonged to the old connection, and a file_unpacker has been reset (socket.h:805), so that nothing can be received with it any more (unpacker.h:20, 37-45); an order which was still in the send buffer would go out over the new connection, that is as if nothing had happened.
-/

set_option autoImplicit false

namespace StAsio

/-- state and file of a link, and what is left of its part (total_len of file_unpacker or file_buffer). -/
inductive FcPh where
  | idle                  -- TRANS_IDLE
  | getAsked              -- TRANS_PREPARE, file opened, order 0 sent
  | putAsked              -- TRANS_PREPARE, no file, order 10 sent
  | putOffered (rest : Nat)  -- TRANS_PREPARE, file opened, order 11 sent
  | getting (rest : Nat)     -- TRANS_BUSY, receiving
  | putting (rest : Nat)     -- TRANS_BUSY, sending; `rest` is not read yet
  deriving DecidableEq, Repr

structure FcLink where
  ph : FcPh
  /-- the file it works on -/
  f : Nat
  /-- the connection was lost while the link was not idle -/
  stuck : Bool
  deriving DecidableEq, Repr

/-- file_client.h:359-494 and the globals file_size (`none`: -1) and transmit_size, file_client.cpp:28-30. -/
structure Fc where
  links : List FcLink
  list : List FileReq
  /-- is_timer(UPDATE_PROGRESS) -/
  timer : Bool
  /-- invocations of update_progress_handler that wait for is_end, file_client.h:479 -/
  spin : Nat
  /-- invocations of transmit_file to come -/
  calls : Nat
  size : Option Nat
  moved : Nat
  deriving DecidableEq, Repr

/-- add_socket of file_client.cpp:32-45: link i gets index i. -/
def Fc.init (env : FcEnv) : Fc := ⟨List.replicate env.n ⟨.idle, 0, false⟩, [], false, 0, 0, none, 0⟩

/-- The length of the part of link i, file_client.h:99-104 and 273-277. -/
def FcEnv.part (env : FcEnv) (f i : Nat) : Nat := (filePart (env.len f) env.n i).2.toNat

/-- get_file and truncate_file for link i, file_client.h:38-84: the link and what is returned. get_file is called with master_only true and false, which together reach every link once, truncate_file with true only. -/
def FcLink.ask (env : FcEnv) (r : FileReq) (i : Nat) (l : FcLink) : FcLink × Bool :=
  if r.put then
    if i = 0 then
      if l.ph = .idle then ({ l with ph := .putAsked, f := r.f }, true) else (l, false)
    else (l, true)
  else if l.ph = .idle then
    if env.can r.f i then ({ l with ph := .getAsked, f := r.f }, true) else (l, false)
  else (l, false)

/-- do_something_to_all in transmit_file, file_client.h:417-424; the links from number `i` on. -/
def FcLink.askFrom (env : FcEnv) (r : FileReq) : Nat → List FcLink → List FcLink × Bool
  | _, [] => ([], true)
  | i, l :: ls => ((l.ask env r i).1 :: (FcLink.askFrom env r (i + 1) ls).1, (l.ask env r i).2 && (FcLink.askFrom env r (i + 1) ls).2)

/-- The loop of transmit_file, file_client.h:406-434: what can be seen, the links, the list, and whether a transfer began. -/
def Fc.takeNext (env : FcEnv) : List FcLink → List FileReq → List FcEv × List FcLink × List FileReq × Bool
  | ls, [] => ([], ls, [], false)
  | ls, r :: rs =>
    if (FcLink.askFrom env r 0 ls).2 then ([.began r], (FcLink.askFrom env r 0 ls).1, rs, true)
    else
      let q := Fc.takeNext env (FcLink.askFrom env r 0 ls).1 rs
      (.failed r :: q.1, q.2)

/-- file_client::put_file for all links, file_client.h:86-126 and 396; the links from number `i` on. A part of length 0 ends at once (trans_end). -/
def FcLink.offerFrom (env : FcEnv) (f : Nat) : Nat → List FcLink → List FcLink
  | _, [] => []
  | i, l :: ls => (if env.can f i ∧ env.part f i > 0 then { l with ph := .putOffered (env.part f i), f := f } else { l with ph := .idle }) :: FcLink.offerFrom env f (i + 1) ls

/-- is_end, file_client.h:388-393. -/
def Fc.isEnd (s : Fc) : Bool := s.links.all (fun l => decide (l.ph = .idle))

/-- The link goes idle: trans_end, file_client.h:223-230. -/
def FcLink.transEnd (l : FcLink) : FcLink := { l with ph := .idle }

inductive FcAct where
  /-- get_file or put_file put files on the list, file_client.h:368-386 -/
  | add (rs : List FileReq)
  /-- transmit_file -/
  | enter
  /-- the answer to order 0; `ok`: the server has the file -/
  | info (i : Nat) (ok : Bool)
  /-- link i receives bytes of its part -/
  | bytes (i k : Nat)
  /-- link i sees that its part has been received -/
  | over (i : Nat)
  /-- the answer to order 10 -/
  | trunc (i : Nat) (ok : Bool)
  /-- the answer to order 11; `good`: fread succeeds -/
  | putReply (i : Nat) (ok good : Bool)
  /-- on_msg_send for the chunk of link i; `good`: fread succeeds -/
  | sent (i : Nat) (good : Bool)
  /-- the connection of link i is lost -/
  | lose (i : Nat)
  /-- UPDATE_PROGRESS -/
  | tick
  /-- update_progress_handler waited long enough -/
  | spun
  deriving DecidableEq, Repr

/-- file_buffer::read in file_buffer.h:26-46 for link `i`, which has `rest` bytes to read; an error ends the transfer of the link (file_client.h:188-189, 338-342). -/
def Fc.readChunk (s : Fc) (i : Nat) (l : FcLink) (rest : Nat) (good : Bool) : Fc × List FcEv :=
  let k := min maxTransfer rest
  if good then ({ s with links := s.links.set i { l with ph := .putting (rest - k) }, moved := s.moved + k }, [.moved l.f k])
  else ({ s with links := s.links.set i l.transEnd }, [])

def Fc.step (env : FcEnv) (s : Fc) : FcAct → Option (Fc × List FcEv)
  | .add rs => some ({ s with list := s.list ++ rs, calls := s.calls + 1 }, [.given rs])
  | .enter => -- transmit_file, file_client.h:399-435
    if s.calls = 0 then none
    else if s.timer then some ({ s with calls := s.calls - 1 }, [])
    else
      let q := Fc.takeNext env s.links s.list
      let s1 := { s with links := q.2.1, list := q.2.2.1, calls := s.calls - 1, timer := q.2.2.2 }
      some (if s.list = [] then s1 else { s1 with size := none, moved := 0 }, q.1)
  | .info i ok => match s.links[i]? with -- handle_msg, case 0, file_client.h:257-297
    | some l =>
      if l.ph = .getAsked ∧ l.stuck = false then
        if ok = false then some ({ s with links := s.links.set i l.transEnd }, [])
        else some ({ s with
            size := if i = 0 then some (env.len l.f) else s.size
            links := s.links.set i (if env.part l.f i > 0 then { l with ph := .getting (env.part l.f i) } else l.transEnd) }, [])
      else none
    | none => none
  | .bytes i k => match s.links[i]? with -- unpacker.h:21-34
    | some l => match l.ph with
      | .getting rest =>
        if 0 < k ∧ k ≤ rest ∧ l.stuck = false then
          some ({ s with links := s.links.set i { l with ph := .getting (rest - k) }, moved := s.moved + k }, [.moved l.f k])
        else none
      | _ => none
    | none => none
  | .over i => match s.links[i]? with -- handle_msg, file_client.h:234-248
    | some l => if l.ph = .getting 0 ∧ l.stuck = false then some ({ s with links := s.links.set i l.transEnd }, []) else none
    | none => none
  | .trunc i ok => match s.links[i]? with -- handle_msg, case 10, file_client.h:298-315
    | some l =>
      if l.ph = .putAsked ∧ l.stuck = false then
        if ok = false then some ({ s with links := s.links.set i l.transEnd }, [])
        else some ({ s with links := FcLink.offerFrom env l.f 0 s.links, size := if env.can l.f 0 then some (env.len l.f) else s.size }, [])
      else none
    | none => none
  | .putReply i ok good => match s.links[i]? with -- handle_msg, case 11, file_client.h:316-345
    | some l => match l.ph with
      | .putOffered rest =>
        if l.stuck then none
        else if ok = false then some ({ s with links := s.links.set i l.transEnd }, [])
        else some (s.readChunk i l rest good)
      | _ => none
    | none => none
  | .sent i good => match s.links[i]? with -- on_msg_send, file_client.h:183-198
    | some l => match l.ph with
      | .putting rest =>
        if l.stuck then none
        else if rest = 0 then some ({ s with links := s.links.set i l.transEnd }, [])
        else some (s.readChunk i l rest good)
      | _ => none
    | none => none
  | .lose i => match s.links[i]? with
    | some l => if l.ph = .idle then some (s, []) else some ({ s with links := s.links.set i { l with stuck := true } }, [])
    | none => none
  | .tick => -- update_progress_handler, file_client.h:437-483
    if s.timer = false then none
    else match s.size with
      | none => if s.isEnd then some ({ s with timer := false, calls := s.calls + 1 }, [.quiet]) else some (s, [])
      | some n =>
        if s.moved < n then
          if s.isEnd then some ({ s with timer := false, calls := s.calls + 1 }, [.quiet]) else some (s, [])
        else some ({ s with timer := false, spin := s.spin + 1 }, [.done])
  | .spun => if 0 < s.spin ∧ s.isEnd then some ({ s with spin := s.spin - 1, calls := s.calls + 1 }, [.quiet]) else none

inductive Fc.Run (env : FcEnv) (p : Fc → FcAct → Bool) : Fc → List FcAct → Fc → List FcEv → Prop where
  | nil (s : Fc) : Fc.Run env p s [] s []
  | snoc (s s1 s2 : Fc) (as : List FcAct) (a : FcAct) (es es' : List FcEv) :
      Fc.Run env p s as s1 es → p s1 a = true → s1.step env a = some (s2, es') → Fc.Run env p s (as ++ [a]) s2 (es ++ es')

def Fc.exec (env : FcEnv) (p : Fc → FcAct → Bool) : Fc → List FcAct → Option (Fc × List FcEv)
  | s, [] => some (s, [])
  | s, a :: as =>
    if p s a then do
      let (s1, es) ← s.step env a
      let (s2, es') ← Fc.exec env p s1 as
      return (s2, es ++ es')
    else none

/-- Anything. -/
def Fc.any (_ : Fc) (_ : FcAct) : Bool := true

/-- No command of the user gets to transmit_file between "100%" and the end of the last link. -/
def Fc.noCommand (s : Fc) : FcAct → Bool
  | .enter => decide (s.spin = 0)
  | _ => true

/-- No connection is lost. -/
def Fc.noLoss (_ : Fc) : FcAct → Bool
  | .lose _ => false
  | _ => true

end StAsio
