import Verif.Lemmas.LinkCut2
import Verif.Props.C93_Protocols
/-!
# C94: the last messages before the end of a link

`Cut.init (P.codec nd junk raw) = some s0`: a link was just established whose two ends use the pair `P` (see C93). `Cut.Run tracked cwf batch limit s0 as s es`: the
actions `as` lead to `s`, `es` is what the applications observe. Besides everything that can happen on a link (C93), the sender can end the stream (`.fin`), the link
can break (`.brk`), the receiver can shut it down (`.shutdown`), its async_read can fail (`.readEnd`) and its closing timer can expire (`.tick`). `tracked`:
ST_ASIO_DELAY_CLOSE is 0. `cutSeen es`: the messages sent and handled; `CutEv.closed`: on_close of the receiver. Spec/LinkCut.lean, Spec/Protocols.lean.
-/
set_option autoImplicit false
namespace StAsio

theorem CutAct.allowed_send {P : Proto} {as : List CutAct} (ha : ∀ a ∈ as, a.Allowed P) : ∀ a ∈ as, ∀ call fits, a = .pipe (.send call fits) → P.Sendable call := by
  intro a h call fits hc
  have := ha a h
  subst hc
  exact this

theorem Cut.start {P : Proto} (hv : P.Valid) {nd : Bool} {junk : Nat → Bytes} (hj : ∀ n, (junk n).length = n) {raw : Bytes} (hraw : raw.length = P.rawLen) {tracked cwf : Bool}
    {batch limit : Nat} {s0 s : Cut (P.codec nd junk raw)} {as : List CutAct} {es : List CutEv} (h0 : Cut.init (P.codec nd junk raw) = some s0)
    (ha : ∀ a ∈ as, a.Allowed P) (h : Cut.Run tracked cwf batch limit s0 as s es) :
    ∃ Inv, (P.codec nd junk raw).Reads cwf P.wire P.Ok P.Shown Inv ∧ (P.codec nd junk raw).Cuts Inv ∧ s.Good tracked P.wire P.Ok Inv batch limit es := by
  obtain ⟨Inv, hK, hC⟩ := P.reads_cut hv nd cwf junk hj raw hraw
  obtain ⟨s1, h1, hg⟩ := Cut.init_good hK tracked batch limit
  rw [h0] at h1
  cases h1
  have hg := Cut.run_good hK hC (P.packs hv nd junk raw) hg (CutAct.allowed_send ha) h
  rw [List.nil_append] at hg
  exact ⟨Inv, hK, hC, hg⟩

/-- C94, only whole messages: however a link ends, and whenever, what on_msg_handle accepted is a beginning of what was sent, message by message; a message of which only a part
arrived is not shown, and nothing bad happens: no failing assertion, no access outside of a buffer, no unpack error. -/
theorem C94_only_whole (P : Proto) (hv : P.Valid) (nd : Bool) (junk : Nat → Bytes) (hj : ∀ n, (junk n).length = n) (raw : Bytes) (hraw : raw.length = P.rawLen) (tracked cwf : Bool)
    (batch limit : Nat) (s0 s : Cut (P.codec nd junk raw)) (as : List CutAct) (es : List CutEv) (h0 : Cut.init (P.codec nd junk raw) = some s0) (ha : ∀ a ∈ as, a.Allowed P)
    (h : Cut.Run tracked cwf batch limit s0 as s es) :
    P.Beginning (sentItems (cutSeen es)) (handledItems (cutSeen es)) ∧ s.p.bad = false ∧ s.p.tx.bad = false ∧ s.p.rx.bad = false ∧ RxEvent.unpackError ∉ s.p.conn.log := by
  obtain ⟨Inv, hK, hC, hg⟩ := Cut.start hv hj hraw h0 ha h
  obtain ⟨o1, o2⟩ := hg.core.order hK
  refine ⟨?_, hg.core.bad, hg.core.tx_inv.bad, hg.core.rx_inv.bad, o2⟩
  rw [List.append_assoc] at o1
  exact P.shown_prefix o1

/-- C94, nothing that arrived is lost: when on_close was called (ST_ASIO_DELAY_CLOSE 0), on_msg_handle has accepted every message contained completely in the bytes
read, unless it refused a message when it was called last. Then it has accepted all messages before this one. Missing: the refused message and those after it,
`C94_fails_refused`; ST_ASIO_DELAY_CLOSE other than 0, `C94_fails_delay`. -/
theorem C94_handled_partial (P : Proto) (hv : P.Valid) (nd : Bool) (junk : Nat → Bytes) (hj : ∀ n, (junk n).length = n) (raw : Bytes) (hraw : raw.length = P.rawLen) (cwf : Bool)
    (batch limit : Nat) (s0 s : Cut (P.codec nd junk raw)) (as : List CutAct) (es : List CutEv) (h0 : Cut.init (P.codec nd junk raw) = some s0) (ha : ∀ a ∈ as, a.Allowed P)
    (h : Cut.Run true cwf batch limit s0 as s es) (hc : CutEv.closed ∈ es) :
    match lastRefused (cutSeen es) with
    | none => P.Shown (sentItems (cutSeen es)) s.p.off (handledItems (cutSeen es))
    | some m => ∃ rest, P.Shown (sentItems (cutSeen es)) s.p.off (handledItems (cutSeen es) ++ m :: rest) := by
  obtain ⟨Inv, hK, hC, hg⟩ := Cut.start hv hj hraw h0 ha h
  exact hg.complete hK rfl hc

/-- C94, on_close is the end: it is called once, after the socket was taken down, and (ST_ASIO_DELAY_CLOSE 0) on_msg_handle is not called after it. -/
theorem C94_close_last (P : Proto) (hv : P.Valid) (nd : Bool) (junk : Nat → Bytes) (hj : ∀ n, (junk n).length = n) (raw : Bytes) (hraw : raw.length = P.rawLen) (tracked cwf : Bool)
    (batch limit : Nat) (s0 s : Cut (P.codec nd junk raw)) (as : List CutAct) (es1 es2 : List CutEv) (h0 : Cut.init (P.codec nd junk raw) = some s0)
    (ha : ∀ a ∈ as, a.Allowed P) (h : Cut.Run tracked cwf batch limit s0 as s (es1 ++ .closed :: es2)) :
    CutEv.closed ∉ es1 ∧ CutEv.closed ∉ es2 ∧ CutEv.down ∈ es1 ∧ (tracked = true → ∀ m ok, .pipe (.handled m ok) ∉ es2) := by
  obtain ⟨Inv, hK, hC, hg⟩ := Cut.start hv hj hraw h0 ha h
  obtain ⟨a1, a2, a3⟩ := hg.after es1 es2 rfl
  refine ⟨fun hm => ?_, a1, a2, a3⟩
  obtain ⟨x, y, rfl⟩ := List.append_of_mem hm
  have := (hg.after x (y ++ .closed :: es2) (by simp)).1
  simp at this

/-- C94, a link that is ended in good order: the sender ends the stream when its send buffer is empty and no async_write is outstanding; the link does not break and the
receiver does not shut it down itself. When the receiver's on_close was called (ST_ASIO_DELAY_CLOSE 0), and on_msg_handle did not refuse a message when it was called
last, it has accepted everything that was sent before. Missing: a sender that does not wait, `C94_fails_graceful`; a refused message, `C94_fails_refused`. -/
theorem C94_graceful_partial (P : Proto) (hv : P.Valid) (nd : Bool) (junk : Nat → Bytes) (hj : ∀ n, (junk n).length = n) (raw : Bytes) (hraw : raw.length = P.rawLen) (cwf : Bool)
    (batch limit : Nat) (s0 s1 s2 s : Cut (P.codec nd junk raw)) (as1 as2 : List CutAct) (es1 es2 fs : List CutEv) (h0 : Cut.init (P.codec nd junk raw) = some s0)
    (ha : ∀ a ∈ as1 ++ as2, a.Allowed P ∧ a ≠ .brk ∧ a ≠ .shutdown) (hf : CutAct.fin ∉ as1)
    (h1 : Cut.Run true cwf batch limit s0 as1 s1 es1) (hq : s1.p.tx.q.items = [] ∧ s1.p.tx.writes = [])
    (h2 : s1.step true cwf batch limit .fin = some (s2, fs)) (h3 : Cut.Run true cwf batch limit s2 as2 s es2)
    (hc : CutEv.closed ∈ es1 ++ es2) (hr : lastRefused (cutSeen (es1 ++ es2)) = none) :
    P.Everything (sentItems (cutSeen es1)) (handledItems (cutSeen (es1 ++ es2))) := by
  obtain ⟨Inv, hK, hC, hg⟩ := Cut.start hv hj hraw h0 (fun a h => (ha a (by simp [h])).1) h1
  have hP := P.packs hv nd junk raw
  have hu : s0.fin = false ∧ s0.broken = false ∧ s0.up = true := by
    simp only [Cut.init] at h0
    rw [Option.map_eq_some_iff] at h0
    obtain ⟨p, _, rfl⟩ := h0
    exact ⟨rfl, rfl, rfl⟩
  obtain ⟨w1, w2, w3⟩ := Cut.run_whole (fun a h => ⟨(ha a (by simp [h])).2.1, (ha a (by simp [h])).2.2, fun e => hf (e ▸ h)⟩) h1 hu.1 hu.2.1 hu.2.2
  have hg2 := Cut.step_good hK hC hP hg (by simp) h2
  simp only [Cut.step, w1, Bool.false_eq_true, if_false, Option.some.injEq, Prod.mk.injEq] at h2
  obtain ⟨rfl, rfl⟩ := h2
  rw [List.append_nil] at hg2
  have hF : Cut.Fin s1.p.tx.wire ({ s1 with fin := true } : Cut (P.codec nd junk raw)) := ⟨rfl, w2, rfl, by simp [w3]⟩
  have hF := Cut.run_fin hK hC hP hg2 hF (CutAct.allowed_send (fun a h => (ha a (by simp [h])).1)) (fun a h => (ha a (by simp [h])).2) h3
  have hg3 := Cut.run_good hK hC hP hg2 (CutAct.allowed_send (fun a h => (ha a (by simp [h])).1)) h3
  have hdown : s.up = false := by
    cases hup : s.up with
    | false => rfl
    | true => exact absurd ((hg3.up hup).2.2.1.symm.trans (hg3.closed.mp hc)) (by simp)
  have hcomp := hg3.complete hK rfl hc
  rw [hr] at hcomp
  have hst := hg.core.stream
  rw [hq.1, show s1.p.tx.unwritten = [] by simp [Tx.unwritten, hq.2]] at hst
  simp only [TxMsg.bytes, List.map_nil, List.flatten_nil, List.append_nil] at hst
  simp only at hcomp
  rw [hF.off hdown, hst, cutSeen_append, sentItems_append] at hcomp
  rw [cutSeen_append]
  exact P.shown_first hcomp

/-- C94, a link that ended is closed: from every state after the sender ended the stream, the link broke or the receiver took it down, the library, the kernels and the network can
bring about on_close, on_msg_handle accepting what it is given. -/
theorem C94_closes (P : Proto) (hv : P.Valid) (nd : Bool) (junk : Nat → Bytes) (hj : ∀ n, (junk n).length = n) (raw : Bytes) (hraw : raw.length = P.rawLen) (tracked cwf : Bool)
    (batch limit : Nat) (hlim : 0 < limit) (s0 s : Cut (P.codec nd junk raw)) (as : List CutAct) (es : List CutEv) (h0 : Cut.init (P.codec nd junk raw) = some s0)
    (ha : ∀ a ∈ as, a.Allowed P) (h : Cut.Run tracked cwf batch limit s0 as s es) (he : CutAct.fin ∈ as ∨ CutAct.brk ∈ as ∨ CutEv.down ∈ es) :
    ∃ bs s' fs, Cut.Run tracked cwf batch limit s bs s' fs ∧ (∀ b ∈ bs, b.Internal) ∧ CutEv.closed ∈ es ++ fs := by
  obtain ⟨Inv, hK, hC, hg⟩ := Cut.start hv hj hraw h0 ha h
  refine Cut.closes hK hC (P.packs hv nd junk raw) hlim _ s es hg (Nat.le_refl _) ?_
  rcases he with he | he | he
  · exact Or.inl (Cut.run_ended h |>.1 he)
  · exact Or.inr (Or.inl (Cut.run_ended h |>.2 he))
  · exact Or.inr (Or.inr (hg.down.mp he))

/-! ### runs -/

def cutRun (P : Proto) (tracked : Bool) (as : List CutAct) : Option (List CutEv) :=
  (Cut.init (P.codec false (fun n => List.replicate n 7) (List.replicate P.rawLen 9))).bind (fun s0 => (Cut.exec tracked true 65536 100 s0 as).map (fun r => r.2))

theorem cutRun_run {P : Proto} {tracked : Bool} {as : List CutAct} {es : List CutEv} (h : cutRun P tracked as = some es) :
    ∃ (s0 s : Cut (P.codec false (fun n => List.replicate n 7) (List.replicate P.rawLen 9))),
      Cut.init (P.codec false (fun n => List.replicate n 7) (List.replicate P.rawLen 9)) = some s0 ∧ Cut.Run tracked true 65536 100 s0 as s es := by
  unfold cutRun at h
  rw [Option.bind_eq_some_iff] at h
  obtain ⟨s0, h0, h⟩ := h
  rw [Option.map_eq_some_iff] at h
  obtain ⟨⟨s, es'⟩, h1, h2⟩ := h
  simp only at h2
  subst h2
  exact ⟨s0, s, h0, Cut.exec_run h1⟩

/-- Two messages of 4 bytes each (on the wire) are sent, `n` bytes of the second one get into the stream. -/
def cutSend (m1 m2 : SendCall) (n : Nat) : List CutAct :=
  [PAct.send m1 true, .tx .loadReady, .tx .loadFlag, .tx .runPosted, .tx .strand, .tx .strand, .send m2 true, .tx .loadReady, .tx (.transfer 0 4), .tx (.complete 0 true),
   .tx (.handler 0), .tx .strand, .tx (.transfer 0 n)].map .pipe

/-- The sender's async_write completes and its send buffer is found empty. -/
def cutDone : List CutAct := [PAct.tx (.complete 0 true), .tx (.handler 0), .tx .strand, .tx .strand, .tx .strand].map .pipe

/-- The receiver handles one message. -/
def cutTake : List CutAct := [PAct.rx .run, .rx .begin, .rx (.ret true), .rx .dis, .rx .dis].map .pipe

/-- Reading what has arrived: `n` bytes, which complete messages. -/
def cutRead (n : Nat) : List CutAct := [PAct.net n, .rx .loadDisp, .rx .handled].map .pipe

/-- The receiver finds no more messages. -/
def cutIdle : List CutAct := [.pipe (.rx .run)]

/-- Everything was sent, the stream ended, both messages were read, none is handled yet. -/
def cutAll (m1 m2 : SendCall) : List CutAct := cutSend m1 m2 4 ++ cutDone ++ [.fin] ++ cutRead 4 ++ cutRead 4

/-- Non-vacuity of `C94_graceful_partial`, `C94_handled_partial`, `C94_closes` and `C94_close_last`: nothing was handled yet when the end of the stream is seen; the closing timer finds
the receiver busy twice, both messages are handled, then on_close is called. -/
theorem C94_demo_graceful :
    (∀ P ∈ [Proto.plain exCfg true, .flexible exCfg true, .prefixSuffix exCfg ⟨[35], [36]⟩ true], cutRun P true (cutAll (.one [1, 2]) (.one [3, 4]) ++ [.readEnd, .tick false] ++
        cutTake ++ [.tick true] ++ cutTake ++ cutIdle ++ cutIdle ++ [.tick false]) =
      some [.pipe (.sent [1, 2]), .pipe (.sent [3, 4]), .down, .pipe (.handled [1, 2] true), .pipe (.handled [3, 4] true), .closed]) ∧
    (∀ P ∈ [Proto.fixed exCfg 4, .stream exCfg], cutRun P true (cutAll (.one [1, 2, 3, 4]) (.one [5, 6, 7, 8]) ++ [.readEnd, .tick false] ++
        cutTake ++ [.tick true] ++ cutTake ++ cutIdle ++ cutIdle ++ [.tick false]) =
      some [.pipe (.sent [1, 2, 3, 4]), .pipe (.sent [5, 6, 7, 8]), .down, .pipe (.handled [1, 2, 3, 4] true), .pipe (.handled [5, 6, 7, 8] true), .closed]) := by
  decide +kernel

/-- When the sender ended the stream in these runs, its send buffer was empty and no async_write was outstanding. -/
example : ((Cut.init ((Proto.plain exCfg true).codec false (fun n => List.replicate n 7) (List.replicate (Proto.plain exCfg true).rawLen 9))).bind (fun s0 =>
    (Cut.exec true true 65536 100 s0 (cutSend (.one [1, 2]) (.one [3, 4]) 4 ++ cutDone)).map (fun r => (r.1.p.tx.q.items, r.1.p.tx.writes, r.1.fin, r.1.up)))) =
    some ([], [], false, true) := by
  decide +kernel

/-- The link breaks when 6 of the 8 bytes were read: the first message is handled, of the second nothing is shown. Without a protocol everything that arrived is shown. -/
theorem C94_demo_broken :
    (∀ P ∈ [Proto.plain exCfg true, .flexible exCfg true, .prefixSuffix exCfg ⟨[35], [36]⟩ true],
      cutRun P true (cutSend (.one [1, 2]) (.one [3, 4]) 2 ++ cutRead 6 ++ [.brk, .readEnd] ++ cutTake ++ cutIdle ++ [.tick false]) =
        some [.pipe (.sent [1, 2]), .pipe (.sent [3, 4]), .down, .pipe (.handled [1, 2] true), .closed]) ∧
    cutRun (.nonCopy exCfg) true (cutSend (.one [1, 2]) (.one [3, 4]) 3 ++ [.pipe (.net 2), .pipe (.rx .handled)] ++ cutRead 2 ++ [.pipe (.net 2), .pipe (.rx .handled), .pipe (.net 1), .brk, .readEnd] ++
        cutTake ++ cutIdle ++ [.tick false]) =
      some [.pipe (.sent [1, 2]), .pipe (.sent [3, 4]), .down, .pipe (.handled [1, 2] true), .closed] ∧
    cutRun (.stream exCfg) true (cutSend (.one [1, 2, 3, 4]) (.one [5, 6, 7, 8]) 2 ++ cutRead 6 ++ [.brk, .readEnd] ++ cutTake ++ cutIdle ++ [.tick false]) =
      some [.pipe (.sent [1, 2, 3, 4]), .pipe (.sent [5, 6, 7, 8]), .down, .pipe (.handled [1, 2, 3, 4, 5, 6] true), .closed] := by
  decide +kernel

/-- C94 fails for a message that on_msg_handle refused: both messages arrived, the sender ended the link in good order, ST_ASIO_DELAY_CLOSE is 0; the application refuses the
first message once. The end of the link stops the timer that would offer it again: on_close is called, and (`C94_close_last`) neither message is ever offered again. -/
theorem C94_fails_refused :
    cutRun (.plain exCfg true) true (cutAll (.one [1, 2]) (.one [3, 4]) ++ [PAct.rx .run, .rx .begin, .rx (.ret false), .rx .dis].map .pipe ++ cutIdle ++
        [PAct.rx .begin, .rx (.ret false), .rx .dis].map .pipe ++ [.readEnd, .tick false]) =
      some [.pipe (.sent [1, 2]), .pipe (.sent [3, 4]), .pipe (.handled [1, 2] false), .pipe (.handled [1, 2] false), .down, .closed] := by
  decide +kernel

/-- C94 fails when ST_ASIO_DELAY_CLOSE is not 0: the receiving application is slow, on_close is called before it has handled the messages, and on_msg_handle is called afterwards. -/
theorem C94_fails_delay :
    cutRun (.plain exCfg true) false (cutAll (.one [1, 2]) (.one [3, 4]) ++ [.readEnd, .tick false] ++ cutTake) =
      some [.pipe (.sent [1, 2]), .pipe (.sent [3, 4]), .down, .closed, .pipe (.handled [1, 2] true)] := by
  decide +kernel

/-- C94 fails for a sender that ends the link right after send_msg accepted a message (graceful_shutdown does not wait for the send buffer): the message never gets into the stream. -/
theorem C94_fails_graceful :
    cutRun (.plain exCfg true) true [.pipe (.send (.one [1, 2]) true), .fin, .readEnd, .tick false] = some [.pipe (.sent [1, 2]), .down, .closed] := by
  decide +kernel

end StAsio
