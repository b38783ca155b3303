import Verif.Lemmas.Echo2
import Verif.Props.C01_C03_Unpacker
/-!
# C70: congestion control in on_msg_handle

A server whose on_msg_handle(msg) is `return send_msg(msg);`. `Echo.init ... = some s0`: the link was just established; `Echo.Run ... s0 as s es`: the actions `as` (threads of the client sending, four
strands, both kernels, the network, timers, the client accepting or refusing answers) lead to `s`; `asked es`: the messages accepted by the client's send functions,
`answered es`: the answers accepted by the client's on_msg_handle. `limit`: ST_ASIO_MAX_RECV_BUF, `sendLimit`: ST_ASIO_MAX_SEND_BUF. The server's unpacker strips the heads (the default).
-/
set_option autoImplicit false
namespace StAsio

theorem Echo.good_of_run {c : Cfg} (hv : c.Valid) (hh : c.bufSize < 256 ^ c.headLen) {raw1 raw2 : Bytes} (hraw1 : raw1.length = c.bufSize) (hraw2 : raw2.length = c.bufSize) {st1 st2 nd cwf : Bool}
    {batch limit sendLimit : Nat} {s0 s : Echo} {as : List EAct} {es : List EEv} (h0 : Echo.init c raw1 raw2 st1 st2 = some s0) (ha : ∀ a ∈ as, a.Honest)
    (h : Echo.Run c nd cwf batch limit sendLimit s0 as s es) : s.Good c st1 st2 batch limit es := by
  obtain ⟨s1, h1, hg⟩ := Echo.init_good c hv st1 st2 batch limit raw1 raw2 hraw1 hraw2
  rw [h0] at h1
  cases h1
  have := Echo.run_good hv hh hg ha h
  rwa [List.nil_append] at this

theorem Pipe.Good.handled_prefix {c : Cfg} {st : Bool} {batch limit : Nat} {s : Pipe} {es : List PEv} (hg : s.Good c st batch limit es) : handledItems es <+: expected c.headLen st (sentItems es) := by
  obtain ⟨ras, res, r1, r2, r3, r4, p, r5, r6⟩ := hg.rx
  have hord := C25_order limit ras s.rx res r1 r2
  obtain ⟨q, hq⟩ := hg.arrived s.off hg.off
  rw [hq] at r5
  simp only [Prod.mk.injEq] at r5
  rw [r3, ← r5.1] at hord
  refine List.IsPrefix.trans ⟨s.rx.cur.toList ++ s.rx.buf.items, ?_⟩ (arrived_prefix c.headLen st (sentItems es) s.off)
  rw [← hord, List.append_assoc]

/-- C70, order and exactly once: the answers the client got are the first of the messages it sent (empty ones are not delivered), in order, with the same content, none twice, none
skipped, even if the server had to refuse messages in between. Nothing bad happens on either side. -/
theorem C70_in_order (c : Cfg) (hv : c.Valid) (hh : c.bufSize < 256 ^ c.headLen) (raw1 raw2 : Bytes) (hraw1 : raw1.length = c.bufSize) (hraw2 : raw2.length = c.bufSize) (st2 nd cwf : Bool)
    (batch limit sendLimit : Nat) (s0 s : Echo) (as : List EAct) (es : List EEv) (h0 : Echo.init c raw1 raw2 true st2 = some s0) (ha : ∀ a ∈ as, a.Honest)
    (h : Echo.Run c nd cwf batch limit sendLimit s0 as s es) :
    answered es <+: expected c.headLen st2 (asked es) ∧
      s.up.bad = false ∧ s.up.tx.bad = false ∧ s.up.rx.bad = false ∧ s.down.bad = false ∧ s.down.tx.bad = false ∧ s.down.rx.bad = false := by
  have hg := Echo.good_of_run hv hh hraw1 hraw2 h0 ha h
  refine ⟨?_, hg.up.bad, hg.up.tx_inv.bad, hg.up.rx_inv.bad, hg.down.bad, hg.down.tx_inv.bad, hg.down.rx_inv.bad⟩
  have h1 := hg.down.handled_prefix
  have h2 := hg.up.handled_prefix
  rw [expected, hg.tie] at h1
  obtain ⟨t, ht⟩ := h2
  have he : expected c.headLen st2 (asked es) = (handledItems (ups es) ++ t).map (seen c.headLen st2) := by
    rw [ht]
    simp only [expected, asked]
    congr 1
    rw [show seen c.headLen true = id from by funext b; simp [seen]]
    simp
  rw [he, List.map_append]
  exact h1.trans ⟨_, rfl⟩

/-- C70, completeness: when nothing can go on any more without the client's application (and while it accepts the answers), every message was answered. -/
theorem C70_all_answered (c : Cfg) (hv : c.Valid) (hh : c.bufSize < 256 ^ c.headLen) (raw1 raw2 : Bytes) (hraw1 : raw1.length = c.bufSize) (hraw2 : raw2.length = c.bufSize) (st2 nd cwf : Bool)
    (batch limit sendLimit : Nat) (hlim : 0 < limit) (hsl : 0 < sendLimit) (s0 s : Echo) (as : List EAct) (es : List EEv) (h0 : Echo.init c raw1 raw2 true st2 = some s0) (ha : ∀ a ∈ as, a.Honest)
    (h : Echo.Run c nd cwf batch limit sendLimit s0 as s es) (hq : ∀ a, a.Internal → s.step c nd cwf batch limit sendLimit a = none) :
    answered es = expected c.headLen st2 (asked es) := by
  have hg := Echo.good_of_run hv hh hraw1 hraw2 h0 ha h
  rcases Classical.em (s.AtRest limit) with hr | hr
  · exact hg.rest_answered hr
  · obtain ⟨a, s', fs, a1, _, a3, _⟩ := Echo.progress hv hh nd cwf hlim hsl hg hr
    rw [hq a a1] at a3
    cases a3

/-- C70, no deadlock: whatever happened before (full send buffers, refused messages, suspended reception on both sides), without the client's application all
answers can be brought to the client. -/
theorem C70_delivers (c : Cfg) (hv : c.Valid) (hh : c.bufSize < 256 ^ c.headLen) (raw1 raw2 : Bytes) (hraw1 : raw1.length = c.bufSize) (hraw2 : raw2.length = c.bufSize) (st2 nd cwf : Bool)
    (batch limit sendLimit : Nat) (hlim : 0 < limit) (hsl : 0 < sendLimit) (s0 s : Echo) (as : List EAct) (es : List EEv) (h0 : Echo.init c raw1 raw2 true st2 = some s0) (ha : ∀ a ∈ as, a.Honest)
    (h : Echo.Run c nd cwf batch limit sendLimit s0 as s es) :
    ∃ bs s' fs, Echo.Run c nd cwf batch limit sendLimit s bs s' fs ∧ (∀ b ∈ bs, b.Internal) ∧ answered (es ++ fs) = expected c.headLen st2 (asked es) :=
  Echo.drain hv hh hlim hsl (s.work c) s es (Echo.good_of_run hv hh hraw1 hraw2 h0 ha h) (Nat.le_refl _)

/-- C70, no livelock: the number of steps that can be done without the client's application, not counting polls of a full receive buffer, is bounded unless the server refuses messages again and
again. -/
theorem C70_terminates (c : Cfg) (hv : c.Valid) (hh : c.bufSize < 256 ^ c.headLen) (raw1 raw2 : Bytes) (hraw1 : raw1.length = c.bufSize) (hraw2 : raw2.length = c.bufSize) (st2 nd cwf : Bool)
    (batch limit sendLimit : Nat) (s0 s : Echo) (as : List EAct) (es : List EEv) (h0 : Echo.init c raw1 raw2 true st2 = some s0) (ha : ∀ a ∈ as, a.Honest)
    (h : Echo.Run c nd cwf batch limit sendLimit s0 as s es) :
    ∃ bound, ∀ bs s' fs, Echo.Run c nd cwf batch limit sendLimit s bs s' fs → (∀ b ∈ bs, b.Internal) →
      (bs.filter (fun b => !b.isPoll)).length ≤ bound * (1 + refusals (ups fs)) := by
  have hg := Echo.good_of_run hv hh hraw1 hraw2 h0 ha h
  refine ⟨s.work c + 5 * Echo.weight c + 1, ?_⟩
  intro bs s' fs hr hb
  have key : (bs.filter (fun b => !b.isPoll)).length + s'.work c ≤ s.work c + (5 * Echo.weight c + 1) * refusals (ups fs) := by
    induction hr with
    | nil => simp [ups, refusals]
    | snoc s1 s2 bs b fs fs' hr1 hs1 ih =>
      have ih := ih (fun x hx => hb x (by simp [hx]))
      have hon : ∀ x ∈ bs, x.Honest := by
        intro x hx
        have := hb x (by simp [hx])
        cases x with
        | up x => cases x with
          | send _ _ => exact absurd this (by simp [EAct.Internal, PAct.Internal])
          | _ => trivial
        | _ => trivial
      have hg1 := Echo.run_good hv hh hg hon hr1
      have hw := Echo.step_work hv hh hg1 (hb b (by simp)) hs1
      rw [List.filter_append, List.length_append, ups_append, refusals_append, Nat.mul_add]
      have hle : ([b].filter (fun b => !b.isPoll)).length ≤ 1 := List.length_filter_le _ _
      rcases hw with ⟨hw, hz⟩ | ⟨hw, hw2, hw3⟩ | ⟨hw, hw2, hw3, _⟩
      · rw [hz]; omega
      · subst hw2 hw3
        have : [b].filter (fun b => !b.isPoll) = [] := by simp [hw]
        rw [this]
        simp only [List.length_nil, ups, refusals, Nat.mul_zero, Nat.add_zero]
        exact ih
      · rw [hw3]; omega
  have e : (s.work c + 5 * Echo.weight c + 1) * (1 + refusals (ups fs)) =
      s.work c + 5 * Echo.weight c + 1 + (s.work c * refusals (ups fs) + (5 * Echo.weight c + 1) * refusals (ups fs)) := by
    rw [Nat.mul_add, Nat.mul_one, Nat.add_assoc (s.work c) (5 * Echo.weight c) 1, Nat.add_mul (s.work c)]
  omega

/-- ... and the server refuses a message only while its send buffer is full, which `C70_delivers` shows to end. -/
theorem C70_refused_only_when_full (c : Cfg) (hv : c.Valid) (hh : c.bufSize < 256 ^ c.headLen) (raw1 raw2 : Bytes) (hraw1 : raw1.length = c.bufSize) (hraw2 : raw2.length = c.bufSize) (st2 nd cwf : Bool)
    (batch limit sendLimit : Nat) (s0 s s' : Echo) (as : List EAct) (es fs : List EEv) (h0 : Echo.init c raw1 raw2 true st2 = some s0) (ha : ∀ a ∈ as, a.Honest)
    (h : Echo.Run c nd cwf batch limit sendLimit s0 as s es) (hs : s.step c nd cwf batch limit sendLimit .echo = some (s', fs)) (m : Bytes) (hm : EEv.up (.handled m false) ∈ fs)
    (hsz : sumSize TxMsg.sz s.down.tx.q.items < 2 ^ 64) : sendLimit ≤ sumSize TxMsg.sz s.down.tx.q.items := by
  have hg := Echo.good_of_run hv hh hraw1 hraw2 h0 ha h
  have he := hg.down.tx_inv.exact
  rw [Q.Exact, Nat.mod_eq_of_lt hsz] at he
  rcases Echo.step_work hv hh hg (a := .echo) trivial hs with ⟨_, hw⟩ | ⟨hw, _⟩ | ⟨_, _, _, hw⟩
  · exfalso
    have : ∀ l : List EEv, EEv.up (.handled m false) ∈ l → refusals (ups l) ≠ 0 := by
      intro l
      induction l with
      | nil => simp
      | cons e l ih =>
        intro hl
        rcases List.mem_cons.mp hl with rfl | hl
        · simp [ups, refusals]
        · have := ih hl
          cases e with
          | down e => exact this
          | up e => rcases e with b | ⟨m, _ | _⟩ <;> simp [ups, refusals] <;> exact this
    exact this fs hm hw
  · simp [EAct.isPoll] at hw
  · omega

/-- C70, memory: the send buffer of the server holds at most its limit plus one message (if the server sends no heartbeats), its receive buffer at most its limit plus one read. -/
theorem C70_memory (c : Cfg) (hv : c.Valid) (hh : c.bufSize < 256 ^ c.headLen) (raw1 raw2 : Bytes) (hraw1 : raw1.length = c.bufSize) (hraw2 : raw2.length = c.bufSize) (st1 st2 nd cwf : Bool)
    (batch limit sendLimit : Nat) (hsz : limit + c.bufSize < 2 ^ 64) (hsz2 : sendLimit + c.bufSize < 2 ^ 64) (s0 s : Echo) (as : List EAct) (es : List EEv)
    (h0 : Echo.init c raw1 raw2 st1 st2 = some s0) (ha : ∀ a ∈ as, a.Honest) (hb : ∀ fits, EAct.down (.send .heartbeat fits) ∉ as) (h : Echo.Run c nd cwf batch limit sendLimit s0 as s es) :
    sumSize TxMsg.sz s.down.tx.q.items ≤ sendLimit - 1 + c.bufSize ∧ sumSize rsz s.up.rx.buf.items ≤ limit - 1 + c.bufSize := by
  obtain ⟨s1, h1, hg⟩ := Echo.init_good c hv st1 st2 batch limit raw1 raw2 hraw1 hraw2
  rw [h0] at h1
  cases h1
  have hinit : s0.MemBound c limit sendLimit := by
    simp only [Echo.init, Option.bind_eq_bind] at h0
    rw [Option.bind_eq_some_iff] at h0
    obtain ⟨u, hu, h0⟩ := h0
    rw [Option.bind_eq_some_iff] at h0
    obtain ⟨d, hd, h0⟩ := h0
    cases h0
    simp only [Pipe.init, Option.bind_eq_bind] at hu hd
    rw [Option.bind_eq_some_iff] at hu hd
    obtain ⟨k1, _, hu⟩ := hu
    obtain ⟨k2, _, hd⟩ := hd
    cases hu; cases hd
    exact ⟨by simp [Tx.init, Q.init, sumSize], ⟨by simp [Rx.init, Q.init, sumSize], by simp, by simp [Rx.init, Q.init, sumSize]⟩⟩
  have := Echo.run_mem hv hh hsz hsz2 hg ha hb h hinit
  exact ⟨this.1, by have := this.2.all; omega⟩

/-- C70 needs stripped messages: if the server's unpacker does not strip the heads, `send_msg(msg)` adds a second head, and a message for which there is no room for it
is refused for ever: nothing is answered, whatever happens. -/
theorem C70_fails_unstripped (c : Cfg) (hv : c.Valid) (hh : c.bufSize < 256 ^ c.headLen) (raw1 raw2 : Bytes) (hraw1 : raw1.length = c.bufSize) (hraw2 : raw2.length = c.bufSize) (st2 nd cwf : Bool)
    (batch limit sendLimit : Nat) (s0 s : Echo) (as : List EAct) (es : List EEv) (h0 : Echo.init c raw1 raw2 false st2 = some s0) (ha : ∀ a ∈ as, a.Honest)
    (h : Echo.Run c nd cwf batch limit sendLimit s0 as s es) (b : Bytes) (rest : List Bytes) (hb : b ≠ []) (hbig : c.bufSize < 2 * c.headLen + b.length) (hask : asked es = b :: rest) :
    answered es = [] := by
  have hg := Echo.good_of_run hv hh hraw1 hraw2 h0 ha h
  have h1 := hg.down.handled_prefix
  rw [expected, hg.tie] at h1
  have h2 := hg.up.handled_prefix
  cases hu : handledItems (ups es) with
  | nil =>
    rw [hu] at h1
    exact List.prefix_nil.mp h1
  | cons m l =>
    exfalso
    have hu' : (sentItems (downs es)).filter (fun b => b ≠ []) = m :: l := by rw [hg.tie, hu]
    have hmem : m ∈ sentItems (downs es) := by
      have : m ∈ (sentItems (downs es)).filter (fun b => b ≠ []) := by rw [hu']; simp
      exact (List.mem_filter.mp this).1
    have hsm := (hg.down.small m hmem).1
    have hask : sentItems (ups es) = b :: rest := hask
    rw [hu, hask, expected] at h2
    have hf : (b :: rest).filter (fun b => decide (b ≠ [])) = b :: rest.filter (fun b => decide (b ≠ [])) := by simp [hb]
    rw [hf, List.map_cons] at h2
    obtain ⟨t, ht⟩ := h2
    simp only [List.cons_append, List.cons.injEq] at ht
    have hlen := congrArg List.length ht.1
    simp only [seen, Bool.false_eq_true, if_false, wire_length] at hlen
    omega

/-- Two messages; the send buffer of the server (limit 1) is full when the second one is handled, so that it is refused once. -/
def echoDemo : List EAct :=
  [.up (.send (.one [1, 2]) true), .up (.send (.one [3]) true), .up (.tx .loadReady), .up (.tx .loadFlag), .up (.tx .runPosted), .up (.tx .strand), .up (.tx .strand), .up (.tx (.transfer 0 7)),
   .up (.net 7), .up (.rx .loadDisp), .up (.rx .handled), .up (.rx .run), .up (.rx .begin), .echo, .up (.rx .dis), .up (.rx .dis), .up (.rx .run), .up (.rx .begin), .echo, .up (.rx .dis),
   .down (.tx .loadReady), .down (.tx .loadFlag), .down (.tx .runPosted), .down (.tx .strand), .down (.tx .strand), .down (.tx (.transfer 0 4)), .down (.net 4), .down (.rx .loadDisp), .down (.rx .handled),
   .up (.rx .dtimer), .up (.rx .run), .up (.rx .begin), .echo, .down (.tx (.complete 0 true)), .down (.tx (.handler 0)), .down (.tx .strand), .down (.tx (.transfer 0 3)), .down (.net 3),
   .down (.rx .run), .down (.rx .begin), .down (.rx (.ret true)), .down (.rx .dis), .down (.rx .dis), .down (.rx .run), .down (.rx .begin), .down (.rx (.ret true))]

/-- Non-vacuity of C70: this run exists, and both answers arrived. -/
theorem C70_demo : ∃ s0 s es, Echo.init exCfg (List.replicate 8 0) (List.replicate 8 0) true true = some s0 ∧ Echo.Run exCfg true false 65536 100 1 s0 echoDemo s es ∧ (∀ a ∈ echoDemo, a.Honest) ∧
    asked es = [[1, 2], [3]] ∧ answered es = [[1, 2], [3]] ∧ EEv.up (.handled [3] false) ∈ es := by
  have e : ((Echo.init exCfg (List.replicate 8 0) (List.replicate 8 0) true true).bind (fun s0 => Echo.exec exCfg true false 65536 100 1 s0 echoDemo)).map (fun r => r.2) =
      some [.up (.sent [1, 2]), .up (.sent [3]), .down (.sent [1, 2]), .up (.handled [1, 2] true), .up (.handled [3] false), .down (.sent [3]), .up (.handled [3] true),
        .down (.handled [1, 2] true), .down (.handled [3] true)] := by
    decide +kernel
  rw [Option.map_eq_some_iff] at e
  obtain ⟨⟨s, es⟩, e1, e2⟩ := e
  rw [Option.bind_eq_some_iff] at e1
  obtain ⟨s0, h0, h1⟩ := e1
  simp only at e2
  subst e2
  refine ⟨s0, s, _, h0, Echo.exec_run h1, ?_, by decide, by decide, by decide⟩
  intro a ha
  cases a with
  | up a =>
    cases a with
    | send call fits =>
      cases call with
      | array ps => simp [echoDemo] at ha
      | _ => trivial
    | _ => trivial
  | _ => trivial

/-- Non-vacuity of C70_fails_unstripped: a server that does not strip the heads gets a message of 5 bytes (the buffers have 8), and refuses it. -/
theorem C70_demo_unstripped : ∃ s0 s es, Echo.init exCfg (List.replicate 8 0) (List.replicate 8 0) false true = some s0 ∧
    Echo.Run exCfg true false 65536 100 100 s0 [.up (.send (.one [1, 2, 3, 4, 5]) true), .up (.tx .loadReady), .up (.tx .loadFlag), .up (.tx .runPosted), .up (.tx .strand), .up (.tx .strand),
      .up (.tx (.transfer 0 7)), .up (.net 7), .up (.rx .loadDisp), .up (.rx .handled), .up (.rx .run), .up (.rx .begin), .echo] s es ∧
    asked es = [[1, 2, 3, 4, 5]] ∧ EEv.up (.handled [0, 7, 1, 2, 3, 4, 5] false) ∈ es := by
  have e : ((Echo.init exCfg (List.replicate 8 0) (List.replicate 8 0) false true).bind (fun s0 => Echo.exec exCfg true false 65536 100 100 s0
      [.up (.send (.one [1, 2, 3, 4, 5]) true), .up (.tx .loadReady), .up (.tx .loadFlag), .up (.tx .runPosted), .up (.tx .strand), .up (.tx .strand),
      .up (.tx (.transfer 0 7)), .up (.net 7), .up (.rx .loadDisp), .up (.rx .handled), .up (.rx .run), .up (.rx .begin), .echo])).map (fun r => r.2) =
      some [.up (.sent [1, 2, 3, 4, 5]), .up (.handled [0, 7, 1, 2, 3, 4, 5] false)] := by
    decide +kernel
  rw [Option.map_eq_some_iff] at e
  obtain ⟨⟨s, es⟩, e1, e2⟩ := e
  rw [Option.bind_eq_some_iff] at e1
  obtain ⟨s0, h0, h1⟩ := e1
  simp only at e2
  subst e2
  exact ⟨s0, s, _, h0, Echo.exec_run h1, by decide, by decide⟩

end StAsio
