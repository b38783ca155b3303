import Verif.Lemmas.ModePipe2
import Verif.Props.C93_Protocols
/-!
# C95: from send_msg to on_msg and on_msg_handle, with every packer and unpacker of the library and every mode of receiving

`c : MCfg` says which of ST_ASIO_DISPATCH_BATCH_MSG, ST_ASIO_SYNC_DISPATCH and ST_ASIO_PASSIVE_RECV are defined. `MPipe.Run c cwf batch limit s0 as s es`: the actions `as` lead from the
link just established to `s`, and `es` is what the two applications observe: `mpSent es` are the messages accepted by the send functions, `mpRx es` what happened at the receiver,
`mOnMsg`, `mLeft` and `mHandled` (Spec/RecvModes.lean) the messages on_msg was called with, those it left, and those on_msg_handle accepted or took. Spec/Protocols.lean says what each
packer/unpacker pair promises.
-/
set_option autoImplicit false
namespace StAsio

/-- The applications keep to the protocol. -/
def MPAct.Allowed (P : Proto) : MPAct → Prop
  | .send call _ => P.Sendable call
  | _ => True

theorem MPAct.allowed_send {P : Proto} {as : List MPAct} (ha : ∀ a ∈ as, a.Allowed P) : ∀ a ∈ as, ∀ call fits, a = .send call fits → P.Sendable call := by
  intro a h call fits hc
  have := ha a h
  subst hc
  exact this

/-- What every run keeps, with the specification of the pair. -/
theorem MPipe.start (P : Proto) (hv : P.Valid) (nd : Bool) (junk : Nat → Bytes) (hj : ∀ n, (junk n).length = n) (raw : Bytes) (hraw : raw.length = P.rawLen) (c : MCfg) (cwf : Bool)
    (batch limit : Nat) (s0 s : MPipe (P.codec nd junk raw)) (as : List MPAct) (es : List MPEv) (h0 : MPipe.init (P.codec nd junk raw) = some s0) (ha : ∀ a ∈ as, a.Allowed P)
    (h : MPipe.Run c cwf batch limit s0 as s es) :
    ∃ Inv, (P.codec nd junk raw).Reads cwf P.wire P.Ok P.Shown Inv ∧ s.Good P.wire P.Ok Inv c batch limit (.rx .asked :: es) := by
  obtain ⟨Inv, hK⟩ := P.reads hv nd cwf junk hj raw hraw
  obtain ⟨s1, h1, hg⟩ := MPipe.init_good hK c batch limit
  rw [h0] at h1
  cases h1
  exact ⟨Inv, hK, MPipe.run_good hK (P.packs hv nd junk raw) hg (MPAct.allowed_send ha) h⟩

/-- C95, order and exactly once, in every mode. With synchronous dispatching, on_msg was called with exactly the messages contained completely in the bytes read so far (but for those just parsed),
in order and unchanged, and exactly what it left went to on_msg_handle or is waiting for it. Without it, what on_msg_handle has disposed of, then the message it works on, then those waiting, then those just
parsed, are exactly these messages; with passive receiving there are empty messages between them for reads that completed none. Nothing bad happens: no failing assertion, no access outside of a
buffer, no unpack error. -/
theorem C95_in_order (P : Proto) (hv : P.Valid) (nd : Bool) (junk : Nat → Bytes) (hj : ∀ n, (junk n).length = n) (raw : Bytes) (hraw : raw.length = P.rawLen) (c : MCfg) (cwf : Bool)
    (batch limit : Nat) (s0 s : MPipe (P.codec nd junk raw)) (as : List MPAct) (es : List MPEv) (h0 : MPipe.init (P.codec nd junk raw) = some s0) (ha : ∀ a ∈ as, a.Allowed P)
    (h : MPipe.Run c cwf batch limit s0 as s es) :
    (c.sync = true → P.Shown (mpSent es) s.off (mOnMsg (mpRx es) ++ s.rm.fresh) ∧ mLeft (mpRx es) = mHandled (mpRx es) ++ s.rm.cur.toList ++ s.rm.buf.items) ∧
    (c.sync = false → P.Shown (mpSent es) s.off (nonEmpty (mHandled (mpRx es) ++ s.rm.cur.toList ++ s.rm.buf.items ++ s.rm.fresh)) ∧ mOnMsg (mpRx es) = [] ∧
      (c.passive = false → ∀ m ∈ mHandled (mpRx es) ++ s.rm.cur.toList ++ s.rm.buf.items ++ s.rm.fresh, m ≠ [])) ∧
    s.bad = false ∧ s.tx.bad = false ∧ s.rm.bad = false ∧ RxEvent.unpackError ∉ s.conn.log := by
  obtain ⟨Inv, hK, hg⟩ := MPipe.start P hv nd junk hj raw hraw c cwf batch limit s0 s as es h0 ha h
  obtain ⟨o1, o2, o3, o4⟩ := hg.order
  have hsh : P.Shown (mpSent es) s.off (mReceived (mpRx es)) := hg.wired.shown hK hg.log
  have hne := P.shown_nonEmpty hsh
  simp only [mpRx, mQueued, mHandled, mReceived, mOnMsg, mLeft, mReceivedOrEmpty] at o1 o2 o3 o4
  refine ⟨?_, ?_, hg.bad, hg.wired.tx_inv.bad, hg.rm_inv.1.bad, ?_⟩
  · intro hc
    obtain ⟨q1, q2⟩ := o2 hc
    exact ⟨by rw [← q1]; exact hsh, by rw [← q2]; exact o1⟩
  · intro hc
    obtain ⟨mas, hr, _⟩ := hg.rm
    have hno := ((Rm.fresh_run hr).2.2.2 hc).1
    simp only [mpRx, mOnMsg] at hno
    cases hp : c.passive with
    | false =>
      have q := o3 hc hp
      rw [o1] at q
      rw [q] at hsh hne
      refine ⟨?_, hno, fun _ => hne⟩
      rw [nonEmpty_id hne]
      exact hsh
    | true =>
      have q := congrArg nonEmpty (o4 hc hp)
      rw [nonEmpty_received, nonEmpty_id hne, nonEmpty_append, o1] at q
      have hf : nonEmpty (if s.rm.hp = .parsed then orEmpty s.rm.temp else []) = nonEmpty s.rm.fresh := by
        simp only [Rm.fresh]
        split
        · exact nonEmpty_orEmpty _
        · rfl
      rw [hf, ← nonEmpty_append] at q
      exact ⟨by rw [← q]; exact hsh, hno, by simp⟩
  · rw [hg.log]
    simp [msgs]

/-- C95 as the applications see it: on_msg is called with a beginning of what was sent and on_msg_handle gets a beginning of what on_msg left (synchronous dispatching), or on_msg_handle gets
a beginning of what was sent, possibly with empty messages in between (passive receiving only). -/
theorem C95_prefix (P : Proto) (hv : P.Valid) (nd : Bool) (junk : Nat → Bytes) (hj : ∀ n, (junk n).length = n) (raw : Bytes) (hraw : raw.length = P.rawLen) (c : MCfg) (cwf : Bool)
    (batch limit : Nat) (s0 s : MPipe (P.codec nd junk raw)) (as : List MPAct) (es : List MPEv) (h0 : MPipe.init (P.codec nd junk raw) = some s0) (ha : ∀ a ∈ as, a.Allowed P)
    (h : MPipe.Run c cwf batch limit s0 as s es) :
    (c.sync = true → P.Beginning (mpSent es) (mOnMsg (mpRx es)) ∧ mHandled (mpRx es) <+: mLeft (mpRx es)) ∧
    (c.sync = false → P.Beginning (mpSent es) (nonEmpty (mHandled (mpRx es))) ∧ (c.passive = false → ∀ m ∈ mHandled (mpRx es), m ≠ [])) := by
  obtain ⟨h1, h2, _⟩ := C95_in_order P hv nd junk hj raw hraw c cwf batch limit s0 s as es h0 ha h
  refine ⟨?_, ?_⟩
  · intro hc
    obtain ⟨q1, q2⟩ := h1 hc
    exact ⟨P.shown_prefix q1, by rw [q2, List.append_assoc]; exact List.prefix_append _ _⟩
  · intro hc
    obtain ⟨q1, _, q3⟩ := h2 hc
    rw [List.append_assoc, List.append_assoc, nonEmpty_append] at q1
    refine ⟨P.shown_prefix q1, fun hp m hm => q3 hp m ?_⟩
    simp [hm]

theorem MPipe.Good.complete {P : Proto} {nd : Bool} {junk : Nat → Bytes} {raw : Bytes} {c : MCfg} {cwf : Bool} {batch limit : Nat} {Inv : Bytes → Conn (P.codec nd junk raw).σ → Prop}
    (hK : (P.codec nd junk raw).Reads cwf P.wire P.Ok P.Shown Inv) {s : MPipe (P.codec nd junk raw)} {es : List MPEv} (hg : s.Good P.wire P.Ok Inv c batch limit es) (hr : s.Rest c) :
    (c.sync = true → P.Everything (mpSent es) (mOnMsg (mpRx es)) ∧ mHandled (mpRx es) = mLeft (mpRx es)) ∧
    (c.sync = false → P.Everything (mpSent es) (nonEmpty (mHandled (mpRx es)))) := by
  obtain ⟨r1, r2, r3, r4⟩ := hr
  obtain ⟨w1, w2, w3, w4, w5, _⟩ := Rm.work_zero hg.rm_inv.1 r2
  have hsh : P.Shown (mpSent es) s.off (mReceived (mpRx es)) := hg.wired.shown hK hg.log
  have hne := P.shown_nonEmpty hsh
  have hall : P.Everything (mpSent es) (mReceived (mpRx es)) := by
    apply P.shown_all
    rw [← hg.wired.quiet r1, ← r4]
    exact hsh
  obtain ⟨mas, hrun, _⟩ := hg.rm
  obtain ⟨d1, d2, d3⟩ := C58_delivered_partial hrun hg.plain hg.dlost w3 w4 w5 r3
  refine ⟨?_, ?_⟩
  · intro hc
    obtain ⟨q1, q2⟩ := d1 hc
    exact ⟨by rw [q1]; exact hall, q2⟩
  · intro hc
    cases hp : c.passive with
    | false => rw [d2 hc hp, nonEmpty_id hne]; exact hall
    | true => rw [d3 hc hp, nonEmpty_received, nonEmpty_id hne]; exact hall

/-- C95, completeness: when nothing can go on any more without the applications (on_msg_handle accepting what it gets), and, with passive receiving, a read the application asked for is
outstanding, then everything sent was handed over. -/
theorem C95_all_handled (P : Proto) (hv : P.Valid) (nd : Bool) (junk : Nat → Bytes) (hj : ∀ n, (junk n).length = n) (raw : Bytes) (hraw : raw.length = P.rawLen) (c : MCfg) (cwf : Bool)
    (batch limit : Nat) (hlim : 0 < limit) (s0 s : MPipe (P.codec nd junk raw)) (as : List MPAct) (es : List MPEv) (h0 : MPipe.init (P.codec nd junk raw) = some s0)
    (ha : ∀ a ∈ as, a.Allowed P) (h : MPipe.Run c cwf batch limit s0 as s es) (hq : ∀ a, a.Goes false → s.step c cwf batch limit a = none)
    (hp : c.passive = true → mReadEnds (mpRx es) < mReads (mpRx es)) :
    (c.sync = true → P.Everything (mpSent es) (mOnMsg (mpRx es)) ∧ mHandled (mpRx es) = mLeft (mpRx es)) ∧
    (c.sync = false → P.Everything (mpSent es) (nonEmpty (mHandled (mpRx es)))) := by
  obtain ⟨Inv, hK, hg⟩ := MPipe.start P hv nd junk hj raw hraw c cwf batch limit s0 s as es h0 ha h
  obtain ⟨q1, q2, q3, q4⟩ := MPipe.stuck hK hlim hg hq
  have ho : c.passive = false ∨ s.rm.out = true := by
    cases hc : c.passive with
    | false => exact .inl rfl
    | true =>
      right
      obtain ⟨mas, hrun, _⟩ := hg.rm
      have hm := mMonitor_reads (Rm.run_good hrun).2.2
      simp only [mpRx, mReads, mReadEnds, IdealM.init, Rm.ideal, Bool.toNat_false] at hm
      have := hp hc
      cases hout : s.rm.out with
      | true => rfl
      | false => rw [hout] at hm; simp at hm; omega
  exact hg.complete hK ⟨q1, q2, q3, q4 ho⟩

/-- C95, nothing gets stuck: whatever happened before, the library, the kernels and the network, with a receiving application that accepts messages (and asks for more, with passive receiving),
can bring everything that was accepted to the receiving application and come to rest. -/
theorem C95_delivers (P : Proto) (hv : P.Valid) (nd : Bool) (junk : Nat → Bytes) (hj : ∀ n, (junk n).length = n) (raw : Bytes) (hraw : raw.length = P.rawLen) (c : MCfg) (cwf : Bool)
    (batch limit : Nat) (hlim : 0 < limit) (s0 s : MPipe (P.codec nd junk raw)) (as : List MPAct) (es : List MPEv) (h0 : MPipe.init (P.codec nd junk raw) = some s0)
    (ha : ∀ a ∈ as, a.Allowed P) (h : MPipe.Run c cwf batch limit s0 as s es) :
    ∃ bs s' fs, MPipe.Run c cwf batch limit s bs s' fs ∧ (∀ b ∈ bs, b.Goes c.passive) ∧ mpSent (es ++ fs) = mpSent es ∧
      (c.sync = true → P.Everything (mpSent es) (mOnMsg (mpRx (es ++ fs))) ∧ mHandled (mpRx (es ++ fs)) = mLeft (mpRx (es ++ fs))) ∧
      (c.sync = false → P.Everything (mpSent es) (nonEmpty (mHandled (mpRx (es ++ fs))))) ∧ ∀ a, a.Goes false → s'.step c cwf batch limit a = none := by
  obtain ⟨Inv, hK, hg⟩ := MPipe.start P hv nd junk hj raw hraw c cwf batch limit s0 s as es h0 ha h
  have hP := P.packs hv nd junk raw
  obtain ⟨bs, s', fs, b1, b2, b3, b4, b5⟩ := MPipe.settles hK hP hlim hg
  have hg' := MPipe.run_good hK hP hg (MPAct.goes_send b2 _) b1
  have hsame : mpSent (es ++ fs) = mpSent es := by rw [mpSent_append, MPipe.goes_run b2 b1, List.append_nil]
  have := hg'.complete hK b3
  simp only [List.cons_append, mpSent, mpRx, mOnMsg, mHandled, mLeft, hsame] at this
  exact ⟨bs, s', fs, b1, b2, hsame, this.1, this.2, b3.settled c cwf batch limit hg' b4 b5⟩

/-- C95, flow control of passive receiving: the library begins no more reads than the application asked for, the first one being asked for when the link is established. -/
theorem C95_only_asked (P : Proto) (hv : P.Valid) (nd : Bool) (junk : Nat → Bytes) (hj : ∀ n, (junk n).length = n) (raw : Bytes) (hraw : raw.length = P.rawLen) (c : MCfg) (cwf : Bool)
    (batch limit : Nat) (s0 s : MPipe (P.codec nd junk raw)) (as : List MPAct) (es : List MPEv) (h0 : MPipe.init (P.codec nd junk raw) = some s0) (ha : ∀ a ∈ as, a.Allowed P)
    (h : MPipe.Run c cwf batch limit s0 as s es) (hp : c.passive = true) : mReads (mpRx es) ≤ mAsked (mpRx es) + 1 := by
  obtain ⟨Inv, hK, hg⟩ := MPipe.start P hv nd junk hj raw hraw c cwf batch limit s0 s as es h0 ha h
  obtain ⟨mas, hrun, _⟩ := hg.rm
  have := C59_only_asked hp hrun
  simpa [mpRx, mReads, mAsked] using this

/-- A link exists with every pair. -/
theorem C95_starts (P : Proto) (hv : P.Valid) (nd : Bool) (junk : Nat → Bytes) (hj : ∀ n, (junk n).length = n) (raw : Bytes) (hraw : raw.length = P.rawLen) :
    ∃ s0, MPipe.init (P.codec nd junk raw) = some s0 := by
  obtain ⟨Inv, hK⟩ := P.reads hv nd false junk hj raw hraw
  obtain ⟨s1, h1, _⟩ := MPipe.init_good hK ⟨false, false, false⟩ 0 0
  exact ⟨s1, h1⟩

/-! ### runs in the different modes -/

def modeRun (P : Proto) (c : MCfg) (as : List MPAct) : Option (List MPEv) :=
  (MPipe.init (P.codec false (fun n => List.replicate n 7) (List.replicate P.rawLen 9))).bind (fun s0 => (MPipe.exec c true 65536 100 s0 as).map (fun r => r.2))

theorem modeRun_run {P : Proto} {c : MCfg} {as : List MPAct} {es : List MPEv} (h : modeRun P c as = some es) :
    ∃ (s0 s : MPipe (P.codec false (fun n => List.replicate n 7) (List.replicate P.rawLen 9))),
      MPipe.init (P.codec false (fun n => List.replicate n 7) (List.replicate P.rawLen 9)) = some s0 ∧ MPipe.Run c true 65536 100 s0 as s es := by
  unfold modeRun at h
  rw [Option.bind_eq_some_iff] at h
  obtain ⟨s0, h0, h⟩ := h
  rw [Option.map_eq_some_iff] at h
  obtain ⟨⟨s, es'⟩, h1, h2⟩ := h
  simp only at h2
  subst h2
  exact ⟨s0, s, h0, MPipe.exec_run h1⟩

/-- Two messages whose wire forms have 4 bytes are written. -/
def modeSend (m1 m2 : SendCall) : List MPAct :=
  [.send m1 true, .tx .loadReady, .tx .loadFlag, .tx .runPosted, .tx .strand, .tx .strand, .send m2 true, .tx .loadReady, .tx (.transfer 0 4), .tx (.complete 0 true),
   .tx (.handler 0), .tx .strand, .tx (.transfer 0 4)]

/-- Non-vacuity of C95: batch dispatching, the two messages arrive in two reads and are taken in one call; synchronous dispatching, on_msg leaves the second one of two messages, which on_msg_handle then
gets; passive receiving with stream data, the application asks before the second read. -/
theorem C95_demo :
    modeRun (.plain exCfg true) ⟨true, false, false⟩ (modeSend (.one [1, 2]) (.one [3, 4]) ++ [.rx (.doRecv true), .net 4, .rx .handle, .rx .loadDisp, .rx (.handled true), .net 4, .rx .handle, .rx .run, .rx .begin,
      .rx .takeAll, .rx (.retAll 2)]) =
      some [.sent [1, 2], .sent [3, 4], .rx .readBegin, .rx (.received [[1, 2]]), .rx (.queued [[1, 2]]), .rx .readBegin, .rx (.received [[3, 4]]), .rx (.queued [[3, 4]]), .rx .callAll,
        .rx (.took [[1, 2], [3, 4]]), .rx (.retAll 2)] ∧
    modeRun (.prefixSuffix exCfg ⟨[35], [36]⟩ true) ⟨false, true, false⟩ (modeSend (.one [1, 2]) (.one [3, 4]) ++ [.rx (.doRecv true), .net 8, .rx .handle, .rx (.onMsgRet [[3, 4]] 1), .rx .loadDisp, .rx (.handled true),
      .rx .run, .rx .begin, .rx (.ret true)]) =
      some [.sent [1, 2], .sent [3, 4], .rx .readBegin, .rx (.received [[1, 2], [3, 4]]), .rx (.onMsg [[1, 2], [3, 4]]), .rx (.onMsgRet [[3, 4]] 1), .rx (.queued [[3, 4]]), .rx .readBegin, .rx (.taken [3, 4]),
        .rx (.call [3, 4]), .rx (.ret [3, 4] true)] ∧
    modeRun (.stream exCfg) ⟨false, false, true⟩ (modeSend (.one [1, 2, 3, 4]) (.one [5, 6, 7, 8]) ++ [.rx (.doRecv true), .net 3, .rx .handle, .rx .loadDisp, .rx (.handled true), .rx .run, .rx .begin, .rx .userRecv,
      .rx (.ret true), .rx .userRecv, .rx (.doRecv true), .rx (.doRecv true), .net 5]) =
      some [.sent [1, 2, 3, 4], .sent [5, 6, 7, 8], .rx .readBegin, .rx (.received [[1, 2, 3]]), .rx (.queued [[1, 2, 3]]), .rx (.taken [1, 2, 3]), .rx (.call [1, 2, 3]), .rx .asked, .rx (.ret [1, 2, 3] true),
        .rx .asked, .rx .readBegin, .rx (.received [[4, 5, 6, 7, 8]])] := by
  decide +kernel

/-- Passive receiving: a read that completes a heartbeat only gives the application an empty message, so that it can ask again. -/
theorem C95_demo_empty :
    modeRun (.plain exCfg true) ⟨false, false, true⟩ ([.send .heartbeat true, .tx .loadReady, .tx .loadFlag, .tx .runPosted, .tx .strand, .tx .strand, .tx (.transfer 0 2)] ++
      [.rx (.doRecv true), .net 2, .rx .handle, .rx .loadDisp, .rx (.handled true), .rx .run, .rx .begin, .rx (.ret true)]) =
      some [.sent [], .rx .readBegin, .rx (.received []), .rx (.queued [[]]), .rx (.taken []), .rx (.call []), .rx (.ret [] true)] := by
  decide +kernel

end StAsio
