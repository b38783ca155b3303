import Verif.Lemmas.Window2
import Verif.Spec.Protocols
/-!
# C99: finite buffers of the kernels and the network do not make the ends of a link block each other

At most `W` bytes are on their way in each direction: taken by the sender's kernel, not yet read by the receiver's async_read (`GPipe.WRun W`, `Echo.WRun W`, `Duo.Run W`; otherwise these are the links of C93, C70 and of
two ends both of which answer). `limit`: ST_ASIO_MAX_RECV_BUF, `sendLimit`: ST_ASIO_MAX_SEND_BUF.
-/
set_option autoImplicit false
namespace StAsio

/-! ### one direction -/

theorem GPipe.wgood (P : Proto) (hv : P.Valid) (nd : Bool) (junk : Nat → Bytes) (hj : ∀ n, (junk n).length = n) (raw : Bytes) (hraw : raw.length = P.rawLen) (cwf : Bool) (W batch limit : Nat)
    (s0 s : GPipe (P.codec nd junk raw)) (as : List PAct) (es : List PEv) (h0 : GPipe.init (P.codec nd junk raw) = some s0) (ha : ∀ a ∈ as, a.Allowed P) (h : GPipe.WRun W cwf batch limit s0 as s es) :
    ∃ Inv, Codec.Reads (P.codec nd junk raw) cwf P.wire P.Ok P.Shown Inv ∧ s.Good P.wire P.Ok Inv batch limit es := by
  obtain ⟨Inv, hK⟩ := P.reads hv nd cwf junk hj raw hraw
  obtain ⟨s1, h1, hg⟩ := GPipe.init_good hK batch limit
  rw [h0] at h1
  cases h1
  have hg := GPipe.run_good hK (P.packs hv nd junk raw) hg (PAct.allowed_send ha) (GPipe.wrun_run h)
  rw [List.nil_append] at hg
  exact ⟨Inv, hK, hg⟩

/-- C99, the network: never more than `W` bytes are on their way. -/
theorem C99_window (P : Proto) (nd : Bool) (junk : Nat → Bytes) (raw : Bytes) (cwf : Bool) (W batch limit : Nat)
    (s0 s : GPipe (P.codec nd junk raw)) (as : List PAct) (es : List PEv) (h0 : GPipe.init (P.codec nd junk raw) = some s0) (h : GPipe.WRun W cwf batch limit s0 as s es) :
    s.tx.wire.length ≤ s.off + W := by
  induction h with
  | nil =>
    simp only [GPipe.init, Option.bind_eq_bind, Option.bind_eq_some_iff] at h0
    obtain ⟨k, _, h0⟩ := h0
    cases h0
    simp [Tx.init]
  | snoc s1 s2 as a es fs _ hs ih => exact GPipe.wstep_window ih hs

/-- C99, one direction, order: as on a network without limits (`C93_in_order`). -/
theorem C99_in_order (P : Proto) (hv : P.Valid) (nd : Bool) (junk : Nat → Bytes) (hj : ∀ n, (junk n).length = n) (raw : Bytes) (hraw : raw.length = P.rawLen) (cwf : Bool) (W batch limit : Nat)
    (s0 s : GPipe (P.codec nd junk raw)) (as : List PAct) (es : List PEv) (h0 : GPipe.init (P.codec nd junk raw) = some s0) (ha : ∀ a ∈ as, a.Allowed P) (h : GPipe.WRun W cwf batch limit s0 as s es) :
    P.Shown (sentItems es) s.off (handledItems es ++ s.rx.cur.toList ++ s.rx.buf.items) ∧ P.Beginning (sentItems es) (handledItems es) ∧
      s.bad = false ∧ s.tx.bad = false ∧ s.rx.bad = false ∧ RxEvent.unpackError ∉ s.conn.log :=
  C93_in_order P hv nd junk hj raw hraw cwf batch limit s0 s as es h0 ha (GPipe.wrun_run h)

/-- C99, one direction, completeness: when nothing can go on any more, everything sent was handled, however few bytes the network holds. -/
theorem C99_all_handled (P : Proto) (hv : P.Valid) (nd : Bool) (junk : Nat → Bytes) (hj : ∀ n, (junk n).length = n) (raw : Bytes) (hraw : raw.length = P.rawLen) (cwf : Bool) (W batch limit : Nat) (hW : 0 < W)
    (hlim : 0 < limit) (s0 s : GPipe (P.codec nd junk raw)) (as : List PAct) (es : List PEv) (h0 : GPipe.init (P.codec nd junk raw) = some s0) (ha : ∀ a ∈ as, a.Allowed P)
    (h : GPipe.WRun W cwf batch limit s0 as s es) (hq : ∀ a, a.Internal → s.wstep W cwf batch limit a = none) : P.Everything (sentItems es) (handledItems es) := by
  obtain ⟨Inv, hK, hg⟩ := GPipe.wgood P hv nd junk hj raw hraw cwf W batch limit s0 s as es h0 ha h
  rcases Classical.em (s.tx.Quiet ∧ s.rx.Quiet limit ∧ s.off = s.tx.wire.length) with hr | hr
  · exact P.shown_all (hg.rest hK hr.1 hr.2.1 hr.2.2)
  · obtain ⟨a, s', fs, a1, a3, _⟩ := GPipe.wprogress hW hK (P.packs hv nd junk raw) hlim hg hr
    rw [hq a a1] at a3
    cases a3

/-- C99, one direction, nothing gets stuck: whatever happened before, everything sent can be brought to on_msg_handle. -/
theorem C99_delivers (P : Proto) (hv : P.Valid) (nd : Bool) (junk : Nat → Bytes) (hj : ∀ n, (junk n).length = n) (raw : Bytes) (hraw : raw.length = P.rawLen) (cwf : Bool) (W batch limit : Nat) (hW : 0 < W)
    (hlim : 0 < limit) (s0 s : GPipe (P.codec nd junk raw)) (as : List PAct) (es : List PEv) (h0 : GPipe.init (P.codec nd junk raw) = some s0) (ha : ∀ a ∈ as, a.Allowed P)
    (h : GPipe.WRun W cwf batch limit s0 as s es) :
    ∃ bs s' fs, GPipe.WRun W cwf batch limit s bs s' fs ∧ (∀ b ∈ bs, b.Internal) ∧ sentItems (es ++ fs) = sentItems es ∧ P.Everything (sentItems es) (handledItems (es ++ fs)) ∧
      ∀ a, a.Internal → s'.wstep W cwf batch limit a = none := by
  obtain ⟨Inv, hK, hg⟩ := GPipe.wgood P hv nd junk hj raw hraw cwf W batch limit s0 s as es h0 ha h
  obtain ⟨bs, s', fs, b1, b2, b3, b4, b5⟩ := GPipe.wsettles hW hK (P.packs hv nd junk raw) hlim s.work s es hg (Nat.le_refl _)
  have hsame : sentItems (es ++ fs) = sentItems es := by rw [sentItems_append, b4, List.append_nil]
  refine ⟨bs, s', fs, b1, b2, hsame, ?_, fun a hi => by simp only [GPipe.wstep, b3.settled cwf hlim b5.1 b5.2.1 b5.2.2 a hi]; split <;> rfl⟩
  have := P.shown_all (b3.rest hK b5.1 b5.2.1 b5.2.2)
  rwa [hsame] at this

/-- C99, one direction, no livelock: the number of steps possible without the sending application, not counting polls of a full receive buffer, is bounded. -/
theorem C99_terminates (P : Proto) (hv : P.Valid) (nd : Bool) (junk : Nat → Bytes) (hj : ∀ n, (junk n).length = n) (raw : Bytes) (hraw : raw.length = P.rawLen) (cwf : Bool) (W batch limit : Nat)
    (s0 s : GPipe (P.codec nd junk raw)) (as : List PAct) (es : List PEv) (h0 : GPipe.init (P.codec nd junk raw) = some s0) (ha : ∀ a ∈ as, a.Allowed P) (h : GPipe.WRun W cwf batch limit s0 as s es) :
    ∃ bound, ∀ bs s' fs, GPipe.WRun W cwf batch limit s bs s' fs → (∀ b ∈ bs, b.Internal) → (bs.filter (fun b => b ≠ .rx .checkTimer)).length ≤ bound := by
  obtain ⟨bound, hb⟩ := C93_terminates P hv nd junk hj raw hraw cwf batch limit s0 s as es h0 ha (GPipe.wrun_run h)
  exact ⟨bound, fun bs s' fs hr => hb bs s' fs (GPipe.wrun_run hr)⟩

/-! ### one end answers -/

/-- C99, an end that answers, completeness: when nothing can go on any more, every message was answered, although the answering end stops reading while its send buffer is full. -/
theorem C99_all_answered (c : Cfg) (hv : c.Valid) (hh : c.bufSize < 256 ^ c.headLen) (raw1 raw2 : Bytes) (hraw1 : raw1.length = c.bufSize) (hraw2 : raw2.length = c.bufSize) (st2 nd cwf : Bool)
    (W batch limit sendLimit : Nat) (hW : 0 < W) (hlim : 0 < limit) (hsl : 0 < sendLimit) (s0 s : Echo) (as : List EAct) (es : List EEv) (h0 : Echo.init c raw1 raw2 true st2 = some s0) (ha : ∀ a ∈ as, a.Honest)
    (h : Echo.WRun W c nd cwf batch limit sendLimit s0 as s es) (hq : ∀ a, a.Internal → s.wstep W c nd cwf batch limit sendLimit a = none) : answered es = expected c.headLen st2 (asked es) := by
  have hg := Echo.good_of_run hv hh hraw1 hraw2 h0 ha (Echo.wrun_run h)
  rcases Classical.em (s.AtRest limit) with hr | hr
  · exact hg.rest_answered hr
  · obtain ⟨a, s', fs, a1, _, a3, _⟩ := Echo.wprogress hv hh nd cwf hW hlim hsl hg hr
    rw [hq a a1] at a3
    cases a3

/-- C99, an end that answers, no deadlock: whatever happened before (both windows, all four buffers full), all answers can be brought to the client. -/
theorem C99_answers_delivered (c : Cfg) (hv : c.Valid) (hh : c.bufSize < 256 ^ c.headLen) (raw1 raw2 : Bytes) (hraw1 : raw1.length = c.bufSize) (hraw2 : raw2.length = c.bufSize) (st2 nd cwf : Bool)
    (W batch limit sendLimit : Nat) (hW : 0 < W) (hlim : 0 < limit) (hsl : 0 < sendLimit) (s0 s : Echo) (as : List EAct) (es : List EEv) (h0 : Echo.init c raw1 raw2 true st2 = some s0) (ha : ∀ a ∈ as, a.Honest)
    (h : Echo.WRun W c nd cwf batch limit sendLimit s0 as s es) :
    ∃ bs s' fs, Echo.WRun W c nd cwf batch limit sendLimit s bs s' fs ∧ (∀ b ∈ bs, b.Internal) ∧ answered (es ++ fs) = expected c.headLen st2 (asked es) :=
  Echo.wdrain hv hh hW hlim hsl (s.work c) s es (Echo.good_of_run hv hh hraw1 hraw2 h0 ha (Echo.wrun_run h)) (Nat.le_refl _)

/-! ### both ends answer -/

theorem Duo.good_of_run {c : Cfg} (hv : c.Valid) (hh : c.bufSize < 256 ^ c.headLen) {raw1 raw2 : Bytes} (hraw1 : raw1.length = c.bufSize) (hraw2 : raw2.length = c.bufSize) {nd cwf : Bool}
    {W batch limit sendLimit : Nat} {s0 s : Duo} {as : List DAct} {es : List DEv} (h0 : Duo.init c raw1 raw2 = some s0) (ha : ∀ a ∈ as, a.Honest)
    (h : Duo.Run W c nd cwf batch limit sendLimit s0 as s es) : s.Good c batch limit es := by
  obtain ⟨s1, h1, hg⟩ := Duo.init_good c hv batch limit raw1 raw2 hraw1 hraw2
  rw [h0] at h1
  cases h1
  have := Duo.run_good hv hh hg ha h
  rwa [List.nil_append] at this

/-- C99, two ends that answer each other, order: in each direction, the messages handled are the first of the non-empty ones sent, in order and unchanged, and the answers sent back are exactly the messages handled, in this order.
Nothing bad happens. -/
theorem C99_both_in_order (c : Cfg) (hv : c.Valid) (hh : c.bufSize < 256 ^ c.headLen) (raw1 raw2 : Bytes) (hraw1 : raw1.length = c.bufSize) (hraw2 : raw2.length = c.bufSize) (nd cwf : Bool)
    (W batch limit sendLimit : Nat) (s0 s : Duo) (as : List DAct) (es : List DEv) (h0 : Duo.init c raw1 raw2 = some s0) (ha : ∀ a ∈ as, a.Honest) (h : Duo.Run W c nd cwf batch limit sendLimit s0 as s es) (d : Bool) :
    handledItems (dirEvs d es) <+: (sentItems (dirEvs d es)).filter (fun b => b ≠ []) ∧ sentAnswers (!d) es = handledItems (dirEvs d es) ∧
      (s.get d).bad = false ∧ (s.get d).tx.bad = false ∧ (s.get d).rx.bad = false := by
  have hg := Duo.good_of_run hv hh hraw1 hraw2 h0 ha h
  refine ⟨?_, hg.tie d, (hg.good d).bad, (hg.good d).tx_inv.bad, (hg.good d).rx_inv.bad⟩
  have := (hg.good d).handled_prefix
  simp only [expected] at this
  rw [show seen c.headLen true = id from by funext b; simp [seen]] at this
  simpa using this

/-- C99, two ends that answer each other: as long as all messages that are not answers, with their heads, together are not longer than the send buffer, no message is refused, and if one of them is not empty, messages can go on
to be handled for ever. Missing, because false (`C99_fails_both`): the same for more messages. -/
theorem C99_circulates_partial (c : Cfg) (hv : c.Valid) (hh : c.bufSize < 256 ^ c.headLen) (raw1 raw2 : Bytes) (hraw1 : raw1.length = c.bufSize) (hraw2 : raw2.length = c.bufSize) (nd cwf : Bool)
    (W batch limit sendLimit : Nat) (hW : 0 < W) (hlim : 0 < limit) (s0 s : Duo) (as : List DAct) (es : List DEv) (h0 : Duo.init c raw1 raw2 = some s0) (ha : ∀ a ∈ as, a.Honest)
    (h : Duo.Run W c nd cwf batch limit sendLimit s0 as s es) (hown : wireSize c.headLen (ownItems true es) + wireSize c.headLen (ownItems false es) ≤ sendLimit) :
    (∀ d m, DEv.handled d m false ∉ es) ∧
      ((∃ d b, b ∈ ownItems d es ∧ b ≠ []) → ∃ bs s' fs, Duo.Run W c nd cwf batch limit sendLimit s bs s' fs ∧ (∀ b ∈ bs, b.Internal) ∧ ∃ d m, DEv.handled d m true ∈ fs) := by
  refine ⟨?_, fun hne => Duo.goes_on hv hh hW hlim _ s es (Duo.good_of_run hv hh hraw1 hraw2 h0 ha h) hown hne (Nat.lt_succ_self _)⟩
  induction h with
  | nil => simp
  | snoc s1 s2 as a es fs hr hs ih =>
    have ha1 : ∀ a ∈ as, a.Honest := fun x hx => ha x (by simp [hx])
    have hle : ∀ e, wireSize c.headLen (ownItems e es) ≤ wireSize c.headLen (ownItems e (es ++ fs)) := by
      intro e
      rw [wireSize_eq, wireSize_eq, ownItems_append, itemSum_append]
      omega
    have h1 := hle true
    have h2 := hle false
    intro d m hmem
    rcases List.mem_append.mp hmem with hmem | hmem
    · exact ih ha1 (by omega) d m hmem
    · exact Duo.step_accepted hh (Duo.good_of_run hv hh hraw1 hraw2 h0 ha1 hr) (by omega) hs d m hmem

/-! ### both ends answer, and the send buffers are full -/

/-- The application of one end sends a message when its send buffer is empty; a write is under way. -/
def duoSend (d : Bool) (b : Byte) : List DAct := [.pipe d (.send (.one [b]) true), .pipe d (.tx .loadReady), .pipe d (.tx .loadFlag)]

/-- One byte travels. -/
def duoByte (d : Bool) : List DAct := [.pipe d (.tx (.transfer 0 1)), .pipe d (.net 1)]

/-- The write completes, and the next message is written. -/
def duoNext (d : Bool) : List DAct := [.pipe d (.tx (.complete 0 true)), .pipe d (.tx (.handler 0)), .pipe d (.tx .strand)]

/-- One end sends four messages, each when its send buffer is empty: the first is about to be handled by the other end, the second is in its receive buffer, one byte of the third is on its way, the fourth is in the send buffer. -/
def duoFill (d : Bool) : List DAct :=
  [.pipe d (.send (.one [1]) true), .pipe d (.tx .loadReady), .pipe d (.tx .loadReady), .pipe d (.tx .loadFlag), .pipe d (.tx .loadFlag), .pipe d (.tx .runPosted), .pipe d (.tx .strand), .pipe d (.tx .strand),
   .pipe d (.tx .runPosted), .pipe d (.tx .strand)] ++
  duoByte d ++ duoByte d ++ duoByte d ++ [.pipe d (.rx .loadDisp), .pipe d (.rx .run), .pipe d (.rx .handled)] ++ duoSend d 2 ++ duoNext d ++
  duoByte d ++ duoByte d ++ duoByte d ++ [.pipe d (.rx .loadDisp), .pipe d (.rx .handled)] ++ duoSend d 3 ++ duoNext d ++ [.pipe d (.tx (.transfer 0 1))] ++ duoSend d 4

def duoDead : List DAct := duoFill true ++ duoFill false ++ [.pipe true (.rx .begin), .pipe false (.rx .begin), .relay true, .relay false]

instance (W off sendLimit : Nat) (s : Tx) : Decidable (s.Blocked W off sendLimit) :=
  decidable_of_iff (s.posted = 0 ∧ s.pc = .idle ∧ s.sending = true ∧ s.dones = [] ∧ sendLimit ≤ s.q.total ∧ (∀ w ∈ s.writes, w.done < (TxMsg.bytes w.bufs).length) ∧ off + W ≤ s.wire.length)
    ⟨fun ⟨a, b, c, d, e, f, g⟩ => ⟨a, b, c, d, e, f, g⟩, fun ⟨a, b, c, d, e, f, g⟩ => ⟨a, b, c, d, e, f, g⟩⟩

instance (limit : Nat) (s : Rx) : Decidable (s.Blocked limit) :=
  decidable_of_iff (s.rd = .timer ∧ limit ≤ s.buf.total ∧ s.cur.isSome = true ∧ s.dispatching = true ∧ (s.pc = .idle ∨ s.pc = .got ∨ s.pc = .handling ∨ s.pc = .refused))
    ⟨fun ⟨a, b, c, d, e⟩ => ⟨a, b, c, d, e⟩, fun ⟨a, b, c, d, e⟩ => ⟨a, b, c, d, e⟩⟩

/-- C99 is false of two ends that answer each other and refuse messages while their own send buffer is full: with more messages under way than the buffers of the link hold, they block each other for ever. Four one-byte messages were
sent in each direction; whatever the library, the kernels and the network do from now on, no message is accepted by on_msg_handle any more. -/
theorem C99_fails_both : ∃ s0 s es, Duo.init exCfg (List.replicate 8 0) (List.replicate 8 0) = some s0 ∧ Duo.Run 1 exCfg true false 65536 1 1 s0 duoDead s es ∧ (∀ a ∈ duoDead, a.Honest) ∧
    (∀ d, ownItems d es = [[1], [2], [3], [4]]) ∧ (∀ d, handledItems (dirEvs d es) = []) ∧
    ∀ bs s' fs, Duo.Run 1 exCfg true false 65536 1 1 s bs s' fs → (∀ b ∈ bs, b.Internal) → ∀ d m, DEv.handled d m true ∉ fs := by
  have e : ((Duo.init exCfg (List.replicate 8 0) (List.replicate 8 0)).bind (fun s0 => Duo.exec 1 exCfg true false 65536 1 1 s0 duoDead)).map
      (fun r => (decide (r.1.p1.tx.Blocked 1 r.1.p1.off 1), decide (r.1.p1.rx.Blocked 1), decide (r.1.p2.tx.Blocked 1 r.1.p2.off 1), decide (r.1.p2.rx.Blocked 1), r.2)) =
      some (true, true, true, true, [.sent true [1] true, .sent true [2] true, .sent true [3] true, .sent true [4] true, .sent false [1] true, .sent false [2] true, .sent false [3] true, .sent false [4] true,
        .handled true [1] false, .handled false [1] false]) := by
    decide +kernel
  rw [Option.map_eq_some_iff] at e
  obtain ⟨⟨s, es⟩, e1, e2⟩ := e
  rw [Option.bind_eq_some_iff] at e1
  obtain ⟨s0, h0, h1⟩ := e1
  simp only [Prod.mk.injEq, decide_eq_true_eq] at e2
  obtain ⟨b1, b2, b3, b4, rfl⟩ := e2
  have hb : ∀ d, (s.get d).Blocked 1 1 1 := by
    intro d
    cases d
    · exact ⟨b3, b4⟩
    · exact ⟨b1, b2⟩
  refine ⟨s0, s, _, h0, Duo.exec_run h1, ?_, by decide, by decide, fun bs s' fs hr hi => (Duo.blocked_run hb hi hr).2⟩
  intro a ha
  cases a with
  | pipe d a =>
    cases a with
    | send call fits =>
      cases call with
      | array ps => simp [duoDead, duoFill, duoByte, duoNext, duoSend] at ha
      | _ => trivial
    | _ => trivial
  | relay d => trivial

/-! ### runs -/

/-- Non-vacuity, one direction: a window of two bytes. The kernel takes two bytes and, when the receiver read one of them, another one; more is not possible. -/
theorem C99_demo_pipe : ∃ (s0 s : GPipe ((Proto.plain exCfg true).codec false (fun n => List.replicate n 7) (List.replicate (Proto.plain exCfg true).rawLen 9))) (es : List PEv),
    GPipe.init ((Proto.plain exCfg true).codec false (fun n => List.replicate n 7) (List.replicate (Proto.plain exCfg true).rawLen 9)) = some s0 ∧
    GPipe.WRun 2 true 65536 1 s0 [.send (.one [1, 2]) true, .tx .loadReady, .tx .loadFlag, .tx .runPosted, .tx .strand, .tx .strand, .tx (.transfer 0 2), .net 1, .tx (.transfer 0 1), .net 2, .tx (.transfer 0 1),
      .tx (.complete 0 true), .net 1, .rx .loadDisp, .rx .run, .rx .handled, .rx .begin, .rx (.ret true)] s es ∧
    es = [.sent [1, 2], .handled [1, 2] true] ∧
    ∃ s1 es1, GPipe.WRun 2 true 65536 1 s0 [.send (.one [1, 2]) true, .tx .loadReady, .tx .loadFlag, .tx .runPosted, .tx .strand, .tx .strand, .tx (.transfer 0 2), .net 1, .tx (.transfer 0 1)] s1 es1 ∧
      s1.wstep 2 true 65536 1 (.tx (.transfer 0 1)) = none ∧ s1.step true 65536 1 (.tx (.transfer 0 1)) ≠ none := by
  have h0 : ∃ s0, GPipe.init ((Proto.plain exCfg true).codec false (fun n => List.replicate n 7) (List.replicate (Proto.plain exCfg true).rawLen 9)) = some s0 := ⟨_, rfl⟩
  obtain ⟨s0, h0⟩ := h0
  have e : ((GPipe.init ((Proto.plain exCfg true).codec false (fun n => List.replicate n 7) (List.replicate (Proto.plain exCfg true).rawLen 9))).bind (fun s0 => GPipe.wexec 2 true 65536 1 s0
      [.send (.one [1, 2]) true, .tx .loadReady, .tx .loadFlag, .tx .runPosted, .tx .strand, .tx .strand, .tx (.transfer 0 2), .net 1, .tx (.transfer 0 1), .net 2, .tx (.transfer 0 1),
      .tx (.complete 0 true), .net 1, .rx .loadDisp, .rx .run, .rx .handled, .rx .begin, .rx (.ret true)])).map (fun r => r.2) = some [.sent [1, 2], .handled [1, 2] true] := by
    decide +kernel
  have f : ((GPipe.init ((Proto.plain exCfg true).codec false (fun n => List.replicate n 7) (List.replicate (Proto.plain exCfg true).rawLen 9))).bind (fun s0 => GPipe.wexec 2 true 65536 1 s0
      [.send (.one [1, 2]) true, .tx .loadReady, .tx .loadFlag, .tx .runPosted, .tx .strand, .tx .strand, .tx (.transfer 0 2), .net 1, .tx (.transfer 0 1)])).map
        (fun r => ((r.1.wstep 2 true 65536 1 (.tx (.transfer 0 1))).isNone, (r.1.step true 65536 1 (.tx (.transfer 0 1))).isNone)) = some (true, false) := by
    decide +kernel
  rw [h0, Option.bind_some, Option.map_eq_some_iff] at e f
  obtain ⟨⟨s, es⟩, e1, e2⟩ := e
  obtain ⟨⟨s1, es1⟩, f1, f2⟩ := f
  simp only [Prod.mk.injEq, Option.isNone_iff_eq_none] at e2 f2
  refine ⟨s0, s, es, h0, GPipe.wexec_run e1, e2, s1, es1, GPipe.wexec_run f1, f2.1, ?_⟩
  intro h
  rw [h] at f2
  exact absurd f2.2 (by decide)

/-- Non-vacuity, one end answers: two messages through windows of seven bytes, the second one is refused once (the run of C70). -/
theorem C99_demo_echo : ∃ s0 s es, Echo.init exCfg (List.replicate 8 0) (List.replicate 8 0) true true = some s0 ∧ Echo.WRun 7 exCfg true false 65536 100 1 s0 echoDemo s es ∧
    asked es = [[1, 2], [3]] ∧ answered es = [[1, 2], [3]] ∧ EEv.up (.handled [3] false) ∈ es := by
  have e : ((Echo.init exCfg (List.replicate 8 0) (List.replicate 8 0) true true).bind (fun s0 => Echo.wexec 7 exCfg true false 65536 100 1 s0 echoDemo)).map (fun r => r.2) =
      some [.up (.sent [1, 2]), .up (.sent [3]), .down (.sent [1, 2]), .up (.handled [1, 2] true), .up (.handled [3] false), .down (.sent [3]), .up (.handled [3] true),
        .down (.handled [1, 2] true), .down (.handled [3] true)] := by
    decide +kernel
  rw [Option.map_eq_some_iff] at e
  obtain ⟨⟨s, es⟩, e1, e2⟩ := e
  rw [Option.bind_eq_some_iff] at e1
  obtain ⟨s0, h0, h1⟩ := e1
  simp only at e2
  subst e2
  exact ⟨s0, s, _, h0, Echo.wexec_run h1, by decide, by decide, by decide⟩

/-- A window of one byte: two messages, one byte at a time. -/
def windowDemo (d : Bool) : List DAct :=
  [.pipe d (.send (.one [1]) true), .pipe d (.tx .loadReady), .pipe d (.tx .loadFlag), .pipe d (.tx .runPosted), .pipe d (.tx .strand), .pipe d (.tx .strand)] ++ duoByte d ++ duoByte d ++ duoByte d ++
  [.pipe d (.rx .loadDisp), .pipe d (.rx .run), .pipe d (.rx .handled), .pipe d (.rx .begin), .relay d, .pipe (!d) (.tx .loadReady), .pipe (!d) (.tx .loadFlag), .pipe (!d) (.tx .runPosted), .pipe (!d) (.tx .strand),
   .pipe (!d) (.tx .strand)] ++ duoByte (!d) ++ duoByte (!d) ++ duoByte (!d) ++
  [.pipe (!d) (.rx .loadDisp), .pipe (!d) (.rx .run), .pipe (!d) (.rx .handled), .pipe (!d) (.rx .begin), .relay (!d)]

/-- Non-vacuity of C99_circulates_partial: a message goes there and back through a window of one byte, buffers of the sizes 1 and 3. -/
theorem C99_demo_both (d : Bool) : ∃ s0 s es, Duo.init exCfg (List.replicate 8 0) (List.replicate 8 0) = some s0 ∧ Duo.Run 1 exCfg true false 65536 1 3 s0 (windowDemo d) s es ∧
    ownItems d es = [[1]] ∧ wireSize exCfg.headLen (ownItems true es) + wireSize exCfg.headLen (ownItems false es) ≤ 3 ∧ DEv.handled d [1] true ∈ es ∧ DEv.handled (!d) [1] true ∈ es := by
  have e : ((Duo.init exCfg (List.replicate 8 0) (List.replicate 8 0)).bind (fun s0 => Duo.exec 1 exCfg true false 65536 1 3 s0 (windowDemo d))).map (fun r => r.2) =
      some [.sent d [1] true, .sent (!d) [1] false, .handled d [1] true, .sent d [1] false, .handled (!d) [1] true] := by
    cases d <;> decide +kernel
  rw [Option.map_eq_some_iff] at e
  obtain ⟨⟨s, es⟩, e1, e2⟩ := e
  rw [Option.bind_eq_some_iff] at e1
  obtain ⟨s0, h0, h1⟩ := e1
  simp only at e2
  subst e2
  refine ⟨s0, s, _, h0, Duo.exec_run h1, ?_⟩
  cases d <;> decide

end StAsio
